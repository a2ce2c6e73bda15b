import Verif.Builder
import Verif.Registry
/-!
The data type definitions reader, dtfabric/reader.py, on parsed YAML values.

Exceptions are values of `Err`: `reader` is DefinitionReaderError, `format` is
FormatError; a `UnicodeEncodeError` is a `ValueError`. `Err.other` marks values
that Python accepts but that a `Defn` cannot carry (a name that is not text, a
size of `4.0`, ...): what the code does with such a document is not modelled.
-/
namespace Dtf

/-- Key of a YAML mapping: text, or any other hashable value. -/
inductive Key
  | str (s : String)
  | other (id : Nat)
deriving DecidableEq, Repr

/-- What `yaml.safe_load_all` produces. `other` are dates, sets and the like. -/
inductive Yaml
  | null
  | bool (b : Bool)
  | int (i : Int)
  | float (bits : Nat)
  | str (s : String)
  | bytes (b : Bytes)
  | list (items : List Yaml)
  | map (entries : List (Key × Yaml))
  | other (truthy hashable : Bool) (id : Nat)

mutual
/-- Nesting depth, a bound for the recursion of the reader. -/
def Yaml.depth : Yaml → Nat
  | .list l => depthList l + 1
  | .map es => depthEntries es + 1
  | _ => 1
termination_by structural y => y
def depthList : List Yaml → Nat
  | [] => 0
  | y :: ys => max y.depth (depthList ys)
termination_by structural ys => ys
def depthEntries : List (Key × Yaml) → Nat
  | [] => 0
  | e :: es => max (depthEntry e) (depthEntries es)
termination_by structural es => es
def depthEntry : Key × Yaml → Nat
  | (_, y) => y.depth
termination_by structural e => e
end

/-- Python truthiness. -/
def Yaml.truthy : Yaml → Bool
  | .null => false
  | .bool b => b
  | .int i => i != 0
  | .float f => fVal f != .fin 0
  | .str s => s != ""
  | .bytes b => !b.isEmpty
  | .list l => !l.isEmpty
  | .map es => !es.isEmpty
  | .other t _ _ => t

/-- `value is None`. -/
def Yaml.isNone : Yaml → Bool
  | .null => true
  | _ => false

/-- Whether Python can use the value as dictionary key. -/
def Yaml.hashable : Yaml → Bool
  | .list _ | .map _ => false
  | .other _ h _ => h
  | _ => true

/-- `value.get(key, default)`; only dictionaries have the method. -/
def Yaml.getD (d : Yaml) (k : String) (dflt : Yaml) : Except Err Yaml :=
  match d with
  | .map es => .ok (((es.find? (·.1 == .str k)).map (·.2)).getD dflt)
  | _ => .error .attribute

/-- `value.get(key, None)`. -/
def Yaml.get (d : Yaml) (k : String) : Except Err Yaml := d.getD k .null

/-- `value.keys()`. -/
def Yaml.keys : Yaml → Except Err (List Key)
  | .map es => .ok (es.map (·.1))
  | _ => .error .attribute

/-- `for item in value`. Iterating text gives its characters, iterating a
dictionary its keys. -/
def Yaml.iter : Yaml → Except Err (List Yaml)
  | .list l => .ok l
  | .str s => .ok (s.toList.map fun c => .str c.toString)
  | .bytes b => .ok (b.map fun x => .int x.toNat)
  | .map es => .ok (es.map fun e => match e.1 with
    | .str s => .str s
    | .other i => .other true true i)
  | .other _ _ _ => .error .other
  | _ => .error .type

/-- `int(value)`: text and byte strings that are not a number are a `ValueError`,
infinities an error that is not modelled. -/
def Env.toInt (E : Env) : Yaml → Except Err Int
  | .bool b => .ok (boolInt b)
  | .int i => .ok i
  | .float f => match fVal f with
    | .fin u => .ok (u.tdiv (2 ^ 1074))
    | .nan => .error .value
    | .inf _ => .error .other
  | .str s => match E.parseInt s with
    | some i => .ok i
    | none => .error .value
  | .bytes _ => .error .other
  | _ => .error .type

/-- The literal kept in a definition. Lists and dictionaries are not told apart
(simplification: they equal no mapped value and are no dictionary key). -/
def Yaml.lit : Yaml → Lit
  | .null => .null
  | .bool b => .bool b
  | .int i => .int i
  | .float f => .float f
  | .str s => .str s
  | .bytes b => .bytes b
  | .list _ | .map _ => .other false 0
  | .other _ h i => .other h i

/-- Text of an attribute that the model needs as text. -/
def Yaml.text : Yaml → Except Err String
  | .str s => .ok s
  | _ => .error .other

/-- Text of an attribute that may be missing. -/
def Yaml.text? : Yaml → Except Err (Option String)
  | .null => .ok none
  | .str s => .ok (some s)
  | _ => .error .other

/-- `aliases or []`, dtfabric/data_types.py:44, 702, as a list of texts. -/
def Yaml.names (y : Yaml) : Except Err (List String) :=
  if !y.truthy then .ok []
  else match y with
    | .list l => l.mapM Yaml.text
    | _ => .error .other

/-- `str.encode` for an encoding with the code points below `limit`. -/
def encodeBelow (limit : Nat) (s : String) : Except Err Bytes :=
  if s.toList.all (·.toNat < limit) then .ok (s.toList.map fun c => UInt8.ofNat c.toNat)
  else .error .value

/-- The check for unsupported definition values and attributes,
dtfabric/reader.py:211-216, 258-263, 369-374, 541-546, 585-590, 773-778, 927-932,
1064-1069, 1130-1135. Joining keys that are not text is a `TypeError`. -/
def checkKeys (supported : List String) (d : Yaml) : Except Err Unit :=
  match d.keys with
  | .error e => .error e
  | .ok ks =>
    let unsupported := ks.filter fun k => !(supported.any (k == .str ·))
    if unsupported.isEmpty then .ok ()
    else if unsupported.any (fun k => match k with | .str _ => false | .other _ => true) then
      .error .type
    else .error .reader

/-- dtfabric/reader.py:42-91. -/
def valuesDataType : List String := ["aliases", "description", "name", "type", "urls"]
def valuesLayoutElement : List String := ["data_type", "offset"]
def valuesMember : List String :=
  ["aliases", "condition", "data_type", "description", "name", "type", "value", "values"]
def valuesStorage : List String := "attributes" :: valuesDataType
def valuesWithMembers : List String := "members" :: valuesStorage
def valuesConstant : List String := "value" :: valuesDataType
def valuesEnumeration : List String := "values" :: valuesDataType
def valuesSizes : List String :=
  ["element_data_type", "elements_data_size", "elements_terminator", "number_of_elements"]
def valuesElements : List String := valuesSizes ++ valuesDataType
def valuesElementsMember : List String := valuesSizes ++ valuesMember
def valuesFormat : List String := ["attributes", "layout", "metadata"] ++ valuesDataType
def valuesPadding : List String := "alignment_size" :: valuesMember
def valuesString : List String := "encoding" :: valuesElements
def valuesStringMember : List String := "encoding" :: valuesElementsMember
def valuesFamily : List String := ["base", "members"] ++ valuesDataType
def valuesGroup : List String := ["base", "default", "identifier", "members"] ++ valuesDataType

/-- dtfabric/reader.py:93-107. -/
def attrsStorage : List String := ["byte_order"]
def attrsFixed : List String := ["size", "units"] ++ attrsStorage
def attrsBoolean : List String := ["false_value", "true_value"] ++ attrsFixed
def attrsFormat : List String := ["byte_order"]
def attrsInteger : List String := "format" :: attrsFixed

/-- The type indicators, dtfabric/definitions.py:19-34 and the keys of
`_DATA_TYPE_CALLBACKS`, dtfabric/reader.py:15-37. -/
inductive TypeInd
  | boolean | character | constant | enumeration | floatingPoint | format | integer | padding
  | sequence | stream | string | structure | family | group | union | uuid
deriving DecidableEq, Repr

def TypeInd.ofString : String → Option TypeInd
  | "boolean" => some .boolean
  | "character" => some .character
  | "constant" => some .constant
  | "enumeration" => some .enumeration
  | "floating-point" => some .floatingPoint
  | "format" => some .format
  | "integer" => some .integer
  | "padding" => some .padding
  | "sequence" => some .sequence
  | "stream" => some .stream
  | "string" => some .string
  | "structure" => some .structure
  | "structure-family" => some .family
  | "structure-group" => some .group
  | "union" => some .union
  | "uuid" => some .uuid
  | _ => none

/-- `_DATA_TYPE_CALLBACKS.get(type_indicator)` and the error when there is none,
dtfabric/reader.py:742-747, 1277-1282. Formatting a value that is not text with
`:s` is a `ValueError` for numbers and a `TypeError` for others. -/
def callback (ty : Yaml) : Except Err TypeInd :=
  if !ty.hashable then .error .type
  else match ty with
    | .str s => match TypeInd.ofString s with
      | some t => .ok t
      | none => .error .reader
    | .bool _ | .int _ | .float _ => .error .value
    | .other _ _ _ => .error .other
    | _ => .error .type

/-- `definitions_registry.GetDefinitionByName(name)` and the error when there is
no such definition, dtfabric/reader.py:398-402, 765-771, 1075-1078, 1093-1097,
1141-1144, 1154-1158, 1174-1178. -/
def resolve (E : Env) (reg : Registry) (n : Yaml) : Except Err Defn :=
  match n with
  | .str s => match reg.getByName E s with
    | some d => .ok d
    | none => .error .reader
  | .bytes _ => .error .type
  | _ => .error .attribute

/-- _ReadDataTypeDefinition, dtfabric/reader.py:190-223 (and the same for the
semantic and layout definitions, :635-658, :836-859): the attributes all
definitions have. -/
def readHdr (supported : List String) (d : Yaml) (name : String) : Except Err Hdr := do
  let _ ← checkKeys supported d
  let aliases ← d.get "aliases"
  let description ← d.get "description"
  let as ← aliases.names
  let desc ← description.text?
  .ok { name := name, aliases := as, description := desc }

/-- The byte order attribute, dtfabric/reader.py:265-268, 548-551, 934-937. -/
def readOrder (attributes : Yaml) : Except Err Order := do
  let o ← attributes.getD "byte_order" (.str "native")
  if !o.hashable then .error .type
  else match o with
    | .str "big-endian" => .ok .big
    | .str "little-endian" => .ok .little
    | .str "native" => .ok .native
    | _ => .error .reader

/-- The attributes of a definition whose only attribute is the byte order,
dtfabric/reader.py:256-270, 539-553, 925-939; `none` when no attributes are set. -/
def readAttrs (supported : List String) (d : Yaml) : Except Err (Option Order) := do
  let attributes ← d.get "attributes"
  if attributes.truthy then do
    let _ ← checkKeys supported attributes
    let o ← readOrder attributes
    .ok (some o)
  else .ok none

/-- _ReadStorageDataTypeDefinition, dtfabric/reader.py:892-941. -/
def readStorage (attrs : List String) (isMember : Bool) (d : Yaml) (name : String) :
    Except Err Hdr := do
  let h ← readHdr (if isMember then valuesMember else valuesStorage) d name
  let o ← readAttrs attrs d
  .ok { h with order := o.getD .native }

/-- The size attribute, dtfabric/reader.py:466-478: a number in `sizes` or the
text `native`. -/
def readSize (E : Env) (sizes : List Nat) (size : Yaml) : Except Err Size :=
  match size with
  | .str "native" => .ok .native
  | size =>
    match E.toInt size with
    | .error .value => .error .reader
    | .error e => .error e
    | .ok _ =>
      if !(sizes.any fun (n : Nat) => litEq size.lit (.int n)) then .error .reader
      else match size with
        | .int i => .ok (.bytes i.toNat)
        | _ => .error .other

/-- _ReadFixedSizeDataTypeDefinition, dtfabric/reader.py:432-481. `dflt` is the
default of the attribute, `init` the size of a definition without attributes
(dtfabric/data_types.py:126, 242). -/
def readFixed (E : Env) (attrs : List String) (dflt : Yaml) (init : Size) (sizes : List Nat)
    (isMember : Bool) (d : Yaml) (name : String) : Except Err (Hdr × Size × String) := do
  let h ← readStorage attrs isMember d name
  let attributes ← d.get "attributes"
  if attributes.truthy then do
    let size ← attributes.getD "size" dflt
    let s ← readSize E sizes size
    let units ← attributes.getD "units" (.str "bytes")
    let u ← units.text
    .ok (h, s, u)
  else .ok (h, init, "bytes")

/-- _ReadBooleanDataTypeDefinition, dtfabric/reader.py:109-129. The attributes
`false_value` and `true_value` are not looked at; the definition keeps the
defaults 0 and None (dtfabric/data_types.py:155-171). -/
def readBoolean (E : Env) (isMember : Bool) (d : Yaml) (name : String) : Except Err Defn := do
  let (h, s, u) ← readFixed E attrsBoolean (.str "native") .native [1, 2, 4] isMember d name
  .ok (.prim h (.boolean (some 0) none) s u)

/-- _ReadCharacterDataTypeDefinition, dtfabric/reader.py:131-151. -/
def readCharacter (E : Env) (isMember : Bool) (d : Yaml) (name : String) : Except Err Defn := do
  let (h, s, u) ← readFixed E attrsFixed (.str "native") .native [1, 2, 4] isMember d name
  .ok (.prim h .character s u)

/-- _ReadFloatingPointDataTypeDefinition, dtfabric/reader.py:483-503. -/
def readFloat (E : Env) (isMember : Bool) (d : Yaml) (name : String) : Except Err Defn := do
  let (h, s, u) ← readFixed E attrsFixed (.str "native") .native [4, 8] isMember d name
  .ok (.prim h .floatingPoint s u)

/-- _ReadUUIDDataTypeDefinition, dtfabric/reader.py:1220-1244. -/
def readUuid (E : Env) (isMember : Bool) (d : Yaml) (name : String) : Except Err Defn := do
  let (h, s, u) ← readFixed E attrsFixed (.int 16) (.bytes 16) [16] isMember d name
  .ok (.uuid h s u)

/-- The format attribute of integers, dtfabric/reader.py:624-631. -/
def readSignedness (attributes : Yaml) : Except Err Bool := do
  let f ← attributes.getD "format" (.str "signed")
  if !f.hashable then .error .type
  else match f with
    | .str "signed" => .ok false
    | .str "unsigned" => .ok true
    | _ => .error .reader

/-- _ReadIntegerDataTypeDefinition, dtfabric/reader.py:598-633. -/
def readInteger (E : Env) (isMember : Bool) (d : Yaml) (name : String) : Except Err Defn := do
  let (h, s, u) ← readFixed E attrsInteger (.str "native") .native [1, 2, 4, 8] isMember d name
  let attributes ← d.get "attributes"
  if attributes.truthy then do
    let unsigned ← readSignedness attributes
    .ok (.prim h (.integer unsigned) s u)
  else .ok (.prim h (.integer false) s u)

/-- _ReadConstantDataTypeDefinition, dtfabric/reader.py:153-186. -/
def readConstant (isMember : Bool) (d : Yaml) (name : String) : Except Err Defn :=
  if isMember then .error .reader
  else do
    let value ← d.get "value"
    if value.isNone then .error .reader
    else do
      let h ← readHdr valuesConstant d name
      .ok (.constant h value.lit)

/-- The loop over enumeration values, dtfabric/reader.py:323-344. The unused name
of the previous value is left out. -/
def addValues : EnumBuilder → List Yaml → Except Err EnumBuilder
  | b, [] => .ok b
  | b, v :: vs => do
    let aliases ← v.get "aliases"
    let name ← v.get "name"
    let number ← v.get "number"
    if !name.truthy || number.isNone then .error .reader
    else do
      let n ← name.text
      let as ← aliases.names
      match b.addValue n number.lit as with
      | (.error .key, _) => .error .reader
      | (.error e, _) => .error e
      | (.ok _, b) => addValues b vs

/-- _ReadEnumerationDataTypeDefinition, dtfabric/reader.py:289-346. -/
def readEnumeration (isMember : Bool) (d : Yaml) (name : String) : Except Err Defn :=
  if isMember then .error .reader
  else do
    let values ← d.get "values"
    if !values.truthy then .error .reader
    else do
      let h ← readHdr valuesEnumeration d name
      let items ← values.iter
      let b ← addValues {} items
      .ok (.enumeration h b.values)

/-- A size or count: `int(value)`, or the value itself as expression when that is
a `ValueError`, dtfabric/reader.py:412-423. -/
def readRule (E : Env) (v : Yaml) : Except Err (Option Int × Option String) :=
  if v.isNone then .ok (none, none)
  else match E.toInt v with
    | .ok i => .ok (some i, none)
    | .error .value => match v with
      | .str s => .ok (none, some s)
      | _ => .error .other
    | .error e => .error e

/-- The terminator, dtfabric/reader.py:425-428. -/
def readTerminator (v : Yaml) : Except Err (Option Lit) :=
  match v with
  | .null => .ok none
  | .str s => match encodeBelow 128 s with
    | .ok b => .ok (some (.bytes b))
    | .error e => .error e
  | v => .ok (some v.lit)

/-- _ReadElementSequenceDataTypeDefinition, dtfabric/reader.py:348-430. The byte
order is the one of the element, dtfabric/data_types.py:322-323. -/
def readElements (E : Env) (reg : Registry) (kind : SeqKind) (supported : List String) (d : Yaml)
    (name : String) : Except Err Defn := do
  let _ ← checkKeys supported d
  let element ← d.get "element_data_type"
  if !element.truthy then .error .reader
  else do
    let size ← d.get "elements_data_size"
    let terminator ← d.get "elements_terminator"
    let number ← d.get "number_of_elements"
    if size.isNone && terminator.isNone && number.isNone then .error .reader
    else if !size.isNone && !number.isNone then .error .reader
    else do
      let e ← resolve E reg element
      let h ← readHdr supported d name
      let dt ← element.text
      let (ds, dse) ← readRule E size
      let (ne, nee) ← readRule E number
      let t ← readTerminator terminator
      .ok (.seq { h with order := e.orderOrNative }
        { kind := kind, elementDataType := some dt, dataSize := ds, dataSizeExpr := dse,
          terminator := t, numElements := ne, numElementsExpr := nee } e)

/-- _ReadSequenceDataTypeDefinition, dtfabric/reader.py:861-890. -/
def readSequence (E : Env) (reg : Registry) (isMember : Bool) (d : Yaml) (name : String) :
    Except Err Defn :=
  readElements E reg .sequence (if isMember then valuesElementsMember else valuesElements) d name

/-- _ReadStreamDataTypeDefinition, dtfabric/reader.py:943-972. -/
def readStream (E : Env) (reg : Registry) (isMember : Bool) (d : Yaml) (name : String) :
    Except Err Defn :=
  readElements E reg .stream (if isMember then valuesElementsMember else valuesElements) d name

/-- _ReadStringDataTypeDefinition, dtfabric/reader.py:974-1010. -/
def readString (E : Env) (reg : Registry) (isMember : Bool) (d : Yaml) (name : String) :
    Except Err Defn := do
  let s ← readElements E reg (.string "")
    (if isMember then valuesStringMember else valuesString) d name
  let encoding ← d.get "encoding"
  if !encoding.truthy then .error .reader
  else do
    let enc ← encoding.text
    match s with
    | .seq h info e => .ok (.seq h { info with kind := .string enc } e)
    | s => .ok s

/-- _ReadPaddingDataTypeDefinition, dtfabric/reader.py:789-834. -/
def readPadding (E : Env) (isMember : Bool) (d : Yaml) (name : String) : Except Err Defn :=
  if !isMember then .error .reader
  else do
    let h ← readHdr valuesPadding d name
    let alignment ← d.get "alignment_size"
    if !alignment.truthy then .error .reader
    else match E.toInt alignment with
      | .error .value => .error .reader
      | .error e => .error e
      | .ok _ =>
        if !([2, 4, 8, 16].any fun (n : Nat) => litEq alignment.lit (.int n)) then .error .reader
        else match alignment with
          | .int i => .ok (.padding h (some i.toNat))
          | _ => .error .other

/-- The offset of a layout element, dtfabric/reader.py:579. -/
def readOffset : Yaml → Except Err (Option Int)
  | .null => .ok none
  | .int i => .ok (some i)
  | _ => .error .other

/-- _ReadFormatLayout, dtfabric/reader.py:557-596. -/
def readLayout : List Yaml → Except Err (List (String × Option Int))
  | [] => .ok []
  | e :: es => do
    let dataType ← e.get "data_type"
    let offset ← e.get "offset"
    if !dataType.truthy then .error .reader
    else do
      let _ ← checkKeys valuesLayoutElement e
      let dt ← dataType.text
      let o ← readOffset offset
      let rest ← readLayout es
      .ok ((dt, o) :: rest)

/-- _ReadFormatDataTypeDefinition, dtfabric/reader.py:505-555 (`metadata` carries
no behaviour). -/
def readFormat (isMember : Bool) (d : Yaml) (name : String) : Except Err Defn :=
  if isMember then .error .reader
  else do
    let h ← readHdr valuesFormat d name
    let layout ← d.getD "layout" (.list [])
    let items ← layout.iter
    let l ← readLayout items
    let o ← readAttrs attrsFormat d
    .ok (.format h o l)

/-- The loop over the members of a structure family, dtfabric/reader.py:1092-1102. -/
def addFamily (E : Env) (reg : Registry) : List Defn → List Yaml → Except Err (List Defn)
  | acc, [] => .ok acc
  | acc, m :: ms => do
    let d ← resolve E reg m
    if acc.any (·.name == d.name) then .error .reader
    else addFamily E reg (acc ++ [d]) ms

/-- _ReadStructureFamilyDataTypeDefinition, dtfabric/reader.py:1040-1104. -/
def readFamily (E : Env) (reg : Registry) (isMember : Bool) (d : Yaml) (name : String) :
    Except Err Defn :=
  if isMember then .error .reader
  else do
    let _ ← checkKeys valuesFamily d
    let base ← d.get "base"
    if !base.truthy then .error .reader
    else do
      let b ← resolve E reg base
      let h ← readHdr valuesFamily d name
      let members ← d.get "members"
      if !members.truthy then .error .reader
      else do
        let items ← members.iter
        let ms ← addFamily E reg [] items
        .ok (.family h b ms)

/-- The loop over the members of a structure group, dtfabric/reader.py:1173-1192. -/
def addGroup (E : Env) (reg : Registry) (identifier : String) :
    List Defn → List Yaml → Except Err (List Defn)
  | acc, [] => .ok acc
  | acc, m :: ms => do
    let d ← resolve E reg m
    match d.members? with
    | none => .error .attribute
    | some inner =>
      if !(inner.any (·.name == identifier)) then .error .reader
      else if acc.any (·.name == d.name) then .error .reader
      else addGroup E reg identifier (acc ++ [d]) ms

/-- The default of a structure group, dtfabric/reader.py:1150-1158. -/
def readDefault (E : Env) (reg : Registry) (dflt : Yaml) : Except Err (Option Defn) :=
  if !dflt.truthy then .ok none else (resolve E reg dflt).map some

/-- _ReadStructureGroupDataTypeDefinition, dtfabric/reader.py:1106-1194. The byte
order is the one of the base, dtfabric/data_types.py:945-946. -/
def readGroup (E : Env) (reg : Registry) (isMember : Bool) (d : Yaml) (name : String) :
    Except Err Defn :=
  if isMember then .error .reader
  else do
    let _ ← checkKeys valuesGroup d
    let base ← d.get "base"
    if !base.truthy then .error .reader
    else do
      let b ← resolve E reg base
      let identifier ← d.get "identifier"
      if !identifier.truthy then .error .reader
      else do
        let dflt ← d.get "default"
        let df ← readDefault E reg dflt
        let ident ← identifier.text
        let h ← readHdr valuesGroup d name
        let members ← d.get "members"
        if !members.truthy then .error .reader
        else do
          let items ← members.iter
          let ms ← addGroup E reg ident [] items
          .ok (.group { h with order := b.orderOrNative } b ident df ms)

/-- The loop over members, dtfabric/reader.py:272-285. Formatting the message for
a second nameless member is a `TypeError` (dtfabric/data_types.py:453-454). -/
def addMembers (rm : Yaml → Except Err Defn) : Builder → List Yaml → Except Err Builder
  | b, [] => .ok b
  | b, m :: ms => do
    let sect ← m.get "section"
    if sect.truthy then do
      let n ← sect.text
      addMembers rm (b.addSection n) ms
    else do
      let d ← rm m
      match b.addMember d with
      | (.error _, _) => .error (if d.name == "" then .type else .reader)
      | (.ok _, b) => addMembers rm b ms

/-- _ReadDataTypeDefinitionWithMembers, dtfabric/reader.py:225-287, and its
callers :1012-1038, 1196-1218. `rm` reads a member. -/
def readWithMembers (rm : Yaml → Except Err Defn) (isUnion : Bool) (d : Yaml) (name : String) :
    Except Err Defn := do
  let members ← d.get "members"
  if !members.truthy then .error .reader
  else do
    let h ← readHdr valuesWithMembers d name
    let o ← readAttrs attrsStorage d
    let items ← members.iter
    let b ← addMembers rm { isUnion := isUnion } items
    let h := { h with order := o.getD .native }
    .ok (if isUnion then .union h b.members else .struct h b.members)

/-- The callbacks, dtfabric/reader.py:15-37. `rm` reads a member, its first
argument says whether conditions are supported. -/
def readTyped (E : Env) (reg : Registry) (rm : Bool → Yaml → Except Err Defn) (t : TypeInd)
    (isMember : Bool) (d : Yaml) (name : String) : Except Err Defn :=
  match t with
  | .boolean => readBoolean E isMember d name
  | .character => readCharacter E isMember d name
  | .constant => readConstant isMember d name
  | .enumeration => readEnumeration isMember d name
  | .floatingPoint => readFloat E isMember d name
  | .format => readFormat isMember d name
  | .integer => readInteger E isMember d name
  | .padding => readPadding E isMember d name
  | .sequence => readSequence E reg isMember d name
  | .stream => readStream E reg isMember d name
  | .string => readString E reg isMember d name
  | .structure =>
    if isMember then .error .reader else readWithMembers (rm true) false d name
  | .family => readFamily E reg isMember d name
  | .group => readGroup E reg isMember d name
  | .union => readWithMembers (rm false) true d name
  | .uuid => readUuid E isMember d name

/-- The name of a member: `""` stands for a missing name, so that an empty name
is outside the model. -/
def memberName (name : Yaml) : Except Err String :=
  match name with
  | .null => .ok ""
  | .str s => if s == "" then .error .other else .ok s
  | _ => .error .other

/-- One supported value, dtfabric/reader.py:731-737. -/
def supportedValue (v : Yaml) : Except Err Lit :=
  match v with
  | .str s => (encodeBelow 256 s).map .bytes
  | v => .ok v.lit

/-- `value` on its own counts as a list with one value, dtfabric/reader.py:725-726. -/
def valueList (value values : Yaml) : Yaml :=
  if !value.isNone && values.isNone then .list [value] else values

/-- The supported values, dtfabric/reader.py:728-737. -/
def supportedValues (value values : Yaml) : Except Err (Option (List Lit)) :=
  if (valueList value values).truthy then do
    let items ← (valueList value values).iter
    let ls ← items.mapM supportedValue
    .ok (some ls)
  else .ok none

/-- The condition kept in a member definition; a false value is no condition. -/
def memberCondition (c : Yaml) : Except Err (Option String) :=
  match c with
  | .str s => .ok (some s)
  | c => if c.truthy then .error .other else .ok none

/-- _ReadMemberDataTypeDefinitionMember, dtfabric/reader.py:660-787. The first
argument bounds the depth of nested unions; see `readDefinition`. -/
def readMember (E : Env) (reg : Registry) : Nat → Bool → Yaml → Except Err Defn
  | 0, _, _ => .error .diverge
  | fuel + 1, conditions, d =>
    if !d.truthy then .error .reader
    else do
      let name ← d.get "name"
      let ty ← d.get "type"
      if !name.truthy && (match ty with | .str "union" => false | _ => true) then .error .reader
      else do
        let nm ← memberName name
        let dataType ← d.get "data_type"
        if dataType.isNone && ty.isNone then .error .reader
        else if !dataType.isNone && !ty.isNone then .error .reader
        else do
          let condition ← d.get "condition"
          if !conditions && condition.truthy then .error .reader
          else do
            let value ← d.get "value"
            let values ← d.get "values"
            if !value.isNone && !values.isNone then .error .reader
            else do
              let sv ← supportedValues value values
              if !ty.isNone then do
                let t ← callback ty
                let inner ← readTyped E reg (readMember E reg fuel) t true d nm
                let cond ← memberCondition condition
                if condition.truthy || sv.isSome then
                  .ok (.member { name := nm, order := inner.orderOrNative } inner cond none sv)
                else .ok inner
              else do
                let inner ← resolve E reg dataType
                let _ ← checkKeys valuesMember d
                let aliases ← d.get "aliases"
                let description ← d.get "description"
                let as ← aliases.names
                let desc ← description.text?
                let dt ← dataType.text
                let cond ← memberCondition condition
                .ok (.member
                  { name := nm, order := inner.orderOrNative, aliases := as, description := desc }
                  inner cond (some dt) sv)

/-- _ReadDefinition, dtfabric/reader.py:1250-1284. The recursion over nested
unions is bounded by the depth of the document (`readMember_fuel` in
`Verif/ReaderLemmas.lean` shows that the bound is never reached). -/
def readDefinition (E : Env) (reg : Registry) (d : Yaml) : Except Err Defn :=
  if !d.truthy then .error .reader
  else do
    let name ← d.get "name"
    if !name.truthy then .error .reader
    else do
      let nm ← name.text
      let ty ← d.get "type"
      if !ty.truthy then .error .reader
      else do
        let t ← callback ty
        readTyped E reg (readMember E reg d.depth) t false d nm

/-- How the generator `yaml.safe_load_all` ends after the documents it yielded:
normally, with a ReaderError or ScannerError, or with another YAML error
(ParserError, ComposerError, ConstructorError). -/
inductive YamlEnd
  | done
  | scanner
  | other
deriving DecidableEq, Repr

/-- What a file holds: the documents and how the YAML parser ends. -/
structure YamlFile where
  docs : List Yaml
  ending : YamlEnd := .done

/-- `except DefinitionReaderError`, dtfabric/reader.py:1375-1377. -/
def asFormat : Err → Err
  | .reader => .format
  | e => e

/-- The loop of ReadFileObject, dtfabric/reader.py:1361-1373: the result and the
registry afterwards, also when it raises. -/
def readDocs (E : Env) (reg : Registry) : List Yaml → Except Err Unit × Registry
  | [] => (.ok (), reg)
  | d :: ds =>
    match readDefinition E reg d with
    | .error e => (.error e, reg)
    | .ok x =>
      match reg.register E x with
      | (.error e, reg) => (.error e, reg)
      | (.ok _, reg) => readDocs E reg ds

/-- ReadFileObject, dtfabric/reader.py:1343-1381. `Err.other` is a YAML error
that is not caught. -/
def readFileObject (E : Env) (reg : Registry) (f : YamlFile) : Except Err Unit × Registry :=
  match readDocs E reg f.docs with
  | (.error e, reg) => (.error (asFormat e), reg)
  | (.ok _, reg) =>
    match f.ending with
    | .done => (.ok (), reg)
    | .scanner => (.error .format, reg)
    | .other => (.error .yaml, reg)

end Dtf
