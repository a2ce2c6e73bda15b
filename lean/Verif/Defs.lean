import Verif.Struct
/-!
Data type definitions, dtfabric/data_types.py.
-/
namespace Dtf

/-- `size` attribute of fixed-size definitions, dtfabric/data_types.py:126: the
string `native` or a number. -/
inductive Size
  | native
  | bytes (n : Nat)
deriving DecidableEq, Repr

/-- The attributes of DataTypeDefinition and StorageDataTypeDefinition,
dtfabric/data_types.py:31-47, 79-93 (`urls` carries no behaviour). -/
structure Hdr where
  name : String
  order : Order := .native
  aliases : List String := []
  description : Option String := none
deriving DecidableEq, Repr

/-- The primitive definitions, dtfabric/data_types.py:141-218
(`maximum_value`/`minimum_value` are never read). -/
inductive PrimKind
  | boolean (falseValue trueValue : Option Int)
  | character
  | floatingPoint
  | integer (unsigned : Bool)
deriving DecidableEq, Repr

/-- The element sequence definitions, dtfabric/data_types.py:357-398. -/
inductive SeqKind
  | sequence
  | stream
  | string (encoding : String)
deriving DecidableEq, Repr

/-- The size rules of an element sequence, dtfabric/data_types.py:326-333. -/
structure SeqInfo where
  kind : SeqKind
  elementDataType : Option String := none
  dataSize : Option Int := none
  dataSizeExpr : Option String := none
  terminator : Option Lit := none
  numElements : Option Int := none
  numElementsExpr : Option String := none
deriving DecidableEq, Repr

/-- Enumeration value, dtfabric/data_types.py:677-703. -/
structure EnumVal where
  name : String
  number : Lit
  aliases : List String := []
deriving DecidableEq, Repr

/-- Data type definitions. `member` is MemberDataTypeDefinition
(dtfabric/data_types.py:493-556). A nameless union member has the name `""`
(Python `None`; simplification). -/
inductive Defn
  | prim (h : Hdr) (k : PrimKind) (size : Size) (units : String)
  | uuid (h : Hdr) (size : Size) (units : String)
  | padding (h : Hdr) (alignment : Option Nat)
  | seq (h : Hdr) (info : SeqInfo) (elem : Defn)
  | struct (h : Hdr) (members : List Defn)
  | union (h : Hdr) (members : List Defn)
  | constant (h : Hdr) (value : Lit)
  | enumeration (h : Hdr) (values : List EnumVal)
  /-- `order` is `none` when the definition has no attribute `byte_order`:
  dtfabric/data_types.py:814-839, dtfabric/reader.py:539-553. -/
  | format (h : Hdr) (order : Option Order) (layout : List (String × Option Int))
  | family (h : Hdr) (base : Defn) (members : List Defn)
  | group (h : Hdr) (base : Defn) (identifier : String) (default : Option Defn)
      (members : List Defn)
  | member (h : Hdr) (inner : Defn) (condition : Option String)
      (dataType : Option String) (values : Option (List Lit))

def Defn.hdr : Defn → Hdr
  | .prim h _ _ _ | .uuid h _ _ | .padding h _ | .seq h _ _ | .struct h _ | .union h _
  | .constant h _ | .enumeration h _ | .format h _ _ | .family h _ _ | .group h _ _ _ _
  | .member h _ _ _ _ => h

def Defn.name (d : Defn) : String := d.hdr.name

/-- Attribute `byte_order`; `none` when reading it is an `AttributeError`:
only storage definitions (dtfabric/data_types.py:93), structure groups (:945)
and formats with a byte order attribute have it. A member definition copies the
byte order of its data type at construction (:527). -/
def Defn.order? : Defn → Option Order
  | .constant _ _ | .enumeration _ _ | .family _ _ _ => none
  | .format _ o _ => o
  | .member _ d _ _ _ => some (d.order?.getD .native)
  | .prim h _ _ _ | .uuid h _ _ | .padding h _ | .seq h _ _ | .struct h _ | .union h _
  | .group h _ _ _ _ => some h.order

/-- `getattr(definition, 'byte_order', BYTE_ORDER_NATIVE)`. -/
def Defn.orderOrNative (d : Defn) : Order := d.order?.getD .native

/-- FixedSizeDataTypeDefinition.GetByteSize, dtfabric/data_types.py:129-138. -/
def fixedByteSize (s : Size) (units : String) : Option Int :=
  match s with
  | .native => none
  | .bytes n => if units == "bytes" then some n else none

/-- `divmod(total, alignment)` and the padding that follows from it,
dtfabric/data_types.py:601-604 and dtfabric/runtime/data_maps.py:1406-1408. -/
def paddingSize (offset alignment : Int) : Int :=
  let r := offset % alignment
  if r > 0 then alignment - r else r

mutual
/-- GetByteSize of every definition class: dtfabric/data_types.py:129-138,
276-282, 335-354, 535-544, 584-608, 616-632, 642-648, 784-790. The cached value
`_byte_size` of structures and unions is modelled in `Verif/Builder.lean`. -/
def Defn.byteSize : Defn → Option Int
  | .prim _ _ s u => fixedByteSize s u
  | .uuid _ s u => fixedByteSize s u
  | .padding _ _ => none
  | .seq _ info e =>
    if truthyInt info.dataSize then info.dataSize
    else if truthyInt info.numElements then
      match e.byteSize with
      | some s => if s = 0 then none else info.numElements.map (s * ·)
      | none => none
    else none
  | .struct _ ms => match ms with
    | [] => none
    | m :: ms => structSize 0 (m :: ms)
  | .union _ ms => match ms with
    | [] => none
    | m :: ms => unionSize 0 (m :: ms)
  | .constant _ _ | .enumeration _ _ | .format _ _ _ | .family _ _ _ | .group _ _ _ _ _ => none
  | .member _ d c _ _ => if truthyStr c then none else d.byteSize
termination_by structural d => d
/-- The loop of StructureDefinition.GetByteSize, dtfabric/data_types.py:591-606. -/
def structSize (total : Int) : List Defn → Option Int
  | [] => some total
  | d :: ds =>
    match d with
    | .padding _ (some (a + 1)) => structSize (total + paddingSize total (a + 1)) ds
    | d =>
      match d.byteSize with
      | none => none
      | some s => structSize (total + s) ds
termination_by structural ds => ds
/-- The loop of UnionDefinition.GetByteSize, dtfabric/data_types.py:623-630. -/
def unionSize (total : Int) : List Defn → Option Int
  | [] => some total
  | d :: ds =>
    match d.byteSize with
    | none => none
    | some s => unionSize (max total s) ds
termination_by structural ds => ds
end

/-- IsComposite: dtfabric/data_types.py:57-65, 226, 303, 413, 546-556, 782. -/
def Defn.isComposite : Defn → Bool
  | .prim _ _ _ _ | .padding _ _ | .constant _ _ | .enumeration _ _ => false
  | .uuid _ _ _ | .seq _ _ _ | .struct _ _ | .union _ _ | .format _ _ _ | .family _ _ _
  | .group _ _ _ _ _ => true
  | .member _ d c _ _ => truthyStr c || d.isComposite

/-- The members of definitions with members, `none` when there is no such
attribute: dtfabric/data_types.py:434-441, 873-880, 950-957. -/
def Defn.members? : Defn → Option (List Defn)
  | .struct _ ms | .union _ ms | .family _ _ ms | .group _ _ _ _ ms => some ms
  | _ => none

end Dtf
