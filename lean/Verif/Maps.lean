import Verif.Runtime
/-!
Data type maps and their construction, dtfabric/runtime/data_maps.py.
-/
namespace Dtf

/-- What a structure map keeps of a member definition: its name and, for
MemberDataTypeDefinition, the attributes `condition` and `values`
(dtfabric/runtime/data_maps.py:1748-1751, 1792, 1945-1949). -/
structure MemInfo where
  name : String
  condition : Option String := none
  values : Option (List Lit) := none
deriving DecidableEq, Repr

/-- What an element sequence map keeps of its element definition: GetByteSize,
IsComposite and the attribute `elements_terminator` (`none`: no such attribute,
dtfabric/runtime/data_maps.py:1008-1013). -/
structure ElemInfo where
  byteSize : Option Int
  composite : Bool
  terminator : Option (Option Lit)

/-- Data type maps. `missing` is Python `None`, returned by the factory for
definitions without map (dtfabric/runtime/data_maps.py:2454-2457). `byteSize` is
GetByteSize of the definition, read when the map is created (simplification:
definitions do not change afterwards). `h` carries the name and byte order of
the possibly copied definition. -/
inductive DMap
  | missing
  | prim (h : Hdr) (k : PrimKind) (size : Size) (units : String)
  | uuid (h : Hdr) (size : Size) (units : String)
  | padding (h : Hdr) (alignment : Option Nat)
  | seq (h : Hdr) (info : SeqInfo) (ei : ElemInfo) (byteSize : Option Int) (elem : DMap)
  | struct (h : Hdr) (byteSize : Option Int) (linear instOk : Bool)
      (infos : List MemInfo) (maps : List DMap)
  | constant (h : Hdr)
  | enumeration (h : Hdr) (values : List EnumVal)
  | format (h : Hdr) (layout : List (String × Option Int))
  | group (h : Hdr) (identifier : String) (base : DMap) (default : Option DMap)
      (keys : List Lit) (maps : List DMap)

/-- GetStructFormatString of the primitive maps,
dtfabric/runtime/data_maps.py:343-347/366-374 (boolean), 428-442 (character),
476-489 (floating-point), 497-525 (integer). -/
def primCode (k : PrimKind) (s : Size) : Option Code :=
  match k, s with
  | .boolean _ _, .bytes 1 => some .B
  | .boolean _ _, .bytes 2 => some .H
  | .boolean _ _, .bytes 4 => some .I
  | .character, .bytes 1 => some .b
  | .character, .bytes 2 => some .h
  | .character, .bytes 4 => some .i
  | .floatingPoint, .bytes 4 => some .f
  | .floatingPoint, .bytes 8 => some .d
  | .integer true, .bytes 1 => some .B
  | .integer true, .bytes 2 => some .H
  | .integer true, .bytes 4 => some .I
  | .integer true, .bytes 8 => some .Q
  | .integer false, .bytes 1 => some .b
  | .integer false, .bytes 2 => some .h
  | .integer false, .bytes 4 => some .i
  | .integer false, .bytes 8 => some .q
  | _, _ => none

/-- `f'{number_of_elements:d}{format_string:s}'` or `None`,
dtfabric/runtime/data_maps.py:1227-1231. -/
def seqFmt (n : Option Int) (f : Option (List Char)) : Option (List Char) :=
  match n, f with
  | some n, some f => if n = 0 ∨ f = [] then none else some (decStr n ++ f)
  | _, _ => none

mutual
/-- GetStructFormatString, dtfabric/runtime/data_maps.py:198-205, 1205-1231
(sequence), 1300-1311 (stream, string), 1458-1465 (padding), 2038-2059
(structure). Maps without this method raise `AttributeError`. -/
def DMap.fmt : DMap → Except Err (Option (List Char))
  | .missing => .error .attribute
  | .prim _ k s _ => .ok ((primCode k s).map fun c => [c.char])
  | .uuid _ _ _ => .ok none
  | .padding _ _ => .ok none
  | .seq _ info ei bsz e =>
    match info.kind with
    | .stream | .string _ =>
      .ok (if truthyInt bsz then bsz.map fun n => decStr n ++ ['B'] else none)
    | .sequence =>
      match e with
      | .missing => .ok none
      | e =>
        if truthyInt info.dataSize then
          match ei.byteSize, info.dataSize with
          | none, _ => .ok none
          | some es, some ds =>
            if es = 0 then .error .zeroDiv
            else
              match e.fmt with
              | .error x => .error x
              | .ok f => .ok (seqFmt (some (Int.fdiv ds es)) f)
          | _, none => .ok none
        else
          match e.fmt with
          | .error x => .error x
          | .ok f => .ok (seqFmt info.numElements f)
  | .struct _ _ _ _ _ maps => fmts maps
  | .constant _ | .enumeration _ _ | .format _ _ | .group _ _ _ _ _ _ => .error .attribute
termination_by structural m => m
/-- The loop of StructureMap.GetStructFormatString, dtfabric/runtime/data_maps.py:2046-2057. -/
def fmts : List DMap → Except Err (Option (List Char))
  | [] => .ok (some [])
  | m :: ms =>
    match m with
    | .missing => .ok none
    | m =>
      match m.fmt with
      | .error x => .error x
      | .ok none => .ok none
      | .ok (some f) =>
        match fmts ms with
        | .error x => .error x
        | .ok none => .ok none
        | .ok (some g) => .ok (some (f ++ g))
termination_by structural ms => ms
end

/-- GetStructByteOrderString, dtfabric/runtime/data_maps.py:185-196, 909-919. -/
def DMap.orderStr : DMap → Except Err (Option Order)
  | .prim h _ _ _ | .uuid h _ _ | .struct h _ _ _ _ _ => .ok (some h.order)
  | .seq _ _ _ _ e =>
    match e with
    | .missing => .ok none
    | e => e.orderStr
  | _ => .error .attribute

/-- StorageDataTypeMap._GetByteStreamOperation, dtfabric/runtime/data_maps.py:171-183. -/
def DMap.operation (m : DMap) : Except Err (Option Op) :=
  match m.orderStr with
  | .error x => .error x
  | .ok o =>
    match m.fmt with
    | .error x => .error x
    | .ok none => .ok none
    | .ok (some []) => .ok none
    | .ok (some (c :: f)) =>
      match o with
      | none => .error .type
      | some o =>
        match mkOp o (c :: f) with
        | .error x => .error x
        | .ok op => .ok (some op)

/-- The operation kept by a map; construction fails when it cannot be created. -/
def DMap.op (m : DMap) : Option Op :=
  match m.operation with
  | .ok o => o
  | .error _ => none

/-- StructureMap._CheckLinearMap, dtfabric/runtime/data_maps.py:1618-1655. -/
def checkLinear (last : Order) : List Defn → Except Err Bool
  | [] => .ok true
  | d :: ds =>
    let isPadding := match d with
      | .padding _ _ => true
      | _ => false
    if d.isComposite || isPadding then .ok false
    else
      match d.order? with
      | none => .error .attribute
      | some o =>
        if last ≠ .native ∧ o ≠ .native ∧ last ≠ o then .ok false
        else checkLinear o ds

/-- Whether a sequence map reads all elements with one operation,
dtfabric/runtime/data_maps.py:951-960. -/
def seqLinear (info : SeqInfo) (ei : ElemInfo) : Bool :=
  !(ei.composite || info.dataSizeExpr.isSome || info.terminator.isSome ||
    info.numElementsExpr.isSome)

/-- Attribute `elements_terminator` of an element definition. -/
def Defn.terminator? : Defn → Option (Option Lit)
  | .seq _ info _ => some info.terminator
  | _ => none

/-- Name and byte order of the definition used for a structure member: a copy
named `_<structure>_<type>` in the structure's byte order when only the
structure declares a byte order, dtfabric/runtime/data_maps.py:1849-1856. -/
def memberNameOrder (sname : String) (so : Order) (d : Defn) : Except Err (String × Order) :=
  if so = .native then .ok (d.name, d.orderOrNative)
  else
    match d.order? with
    | none => .error .attribute
    | some .native => .ok ("_" ++ sname ++ "_" ++ d.name, so)
    | some o => .ok (d.name, o)

/-- GetMemberDefinitionByName, dtfabric/data_types.py:480-490; an
`AttributeError` for definitions without this method. -/
def memberByName (d : Defn) (n : String) : Except Err (Option Defn) :=
  match d with
  | .struct _ ms | .union _ ms => .ok (ms.find? (·.name == n))
  | _ => .error .attribute

/-- The values of the identifier member of a group member,
dtfabric/runtime/data_maps.py:2251-2264. -/
def groupValues (ident : String) (g : Defn) : Except Err (List Lit) :=
  match memberByName g ident with
  | .error e => .error e
  | .ok none => .error .format
  | .ok (some (.member _ _ _ _ none)) => .error .format
  | .ok (some (.member _ _ _ _ (some vs))) => .ok vs
  | .ok (some _) => .error .attribute

/-- Adding identifier values to the dictionary of a group map,
dtfabric/runtime/data_maps.py:2266-2275. -/
def addKeys (keys : List Lit) : List Lit → Except Err (List Lit)
  | [] => .ok keys
  | v :: vs =>
    if !v.isHashable then .error .type
    else if keys.any (litEq · v) then .error .format
    else addKeys (keys ++ [v]) vs

/-- Whether a size expression is accepted at construction,
dtfabric/runtime/data_maps.py:629-639. -/
def exprOk (E : Env) (x : Option String) : Bool :=
  match x with
  | some s => s == "" || E.parses s
  | none => true

/-- The checks of the SequenceMap and StreamMap constructors after the element
map has been created, dtfabric/runtime/data_maps.py:629-639, 951-960, 1266-1267. -/
def finishSeq (E : Env) (info : SeqInfo) (m : DMap) (ei : ElemInfo) : Except Err DMap :=
  if !exprOk E info.dataSizeExpr || !exprOk E info.numElementsExpr then .error .syntax
  else
    match info.kind with
    | .stream | .string _ => if ei.composite then .error .format else .ok m
    | .sequence =>
      if seqLinear info ei then
        match m.operation with
        | .error e => .error e
        | .ok _ => .ok m
      else .ok m

/-- The end of the StructureMap constructor, dtfabric/runtime/data_maps.py:1610-1616. -/
def finishStruct (m : DMap) (linear : Bool) : Except Err DMap :=
  if linear then
    match m.operation with
    | .error e => .error e
    | .ok _ => .ok m
  else .ok m

mutual
/-- DataTypeMapFactory.CreateDataTypeMapByType, dtfabric/runtime/data_maps.py:2398-2459,
on a definition whose name and byte order are `nm` and `o` (a copy made with
`copy.copy` differs from the original only in these two attributes:
:795-799, :1853-1856). -/
def createAs (E : Env) (nm : String) (o : Order) : Defn → Except Err DMap
  | .prim h k s u =>
    match k with
    | .boolean none none => .error .format
    | _ => .ok (.prim { h with name := nm, order := o } k s u)
  | .uuid h s u => .ok (.uuid { h with name := nm, order := o } s u)
  | .padding h a => .ok (.padding { h with name := nm, order := o } a)
  | .seq h info e =>
    match e.order? with
    | none => .error .attribute
    | some eo =>
      let copied : Bool := o ≠ .native && eo = .native && !e.isComposite
      match createAs E (if copied then "_" ++ nm ++ "_" ++ e.name else e.name)
          (if copied then o else eo) e with
      | .error x => .error x
      | .ok em =>
        let ei : ElemInfo := ⟨e.byteSize, e.isComposite, e.terminator?⟩
        finishSeq E info
          (.seq { h with name := nm, order := o } info ei (Defn.seq h info e).byteSize em) ei
  | .struct h ms =>
    match createClass E nm h.description ms with
    | .error x => .error x
    | .ok instOk =>
      match createMembers E nm o [] ms with
      | .error x => .error x
      | .ok (infos, maps) =>
        match checkLinear o ms with
        | .error x => .error x
        | .ok linear =>
          finishStruct
            (.struct { h with name := nm, order := o } (Defn.struct h ms).byteSize linear instOk
              infos maps) linear
  | .union _ _ => .ok .missing
  | .constant h _ => .ok (.constant { h with name := nm })
  | .enumeration h vs => .ok (.enumeration { h with name := nm } vs)
  | .format h _ l => .ok (.format { h with name := nm } l)
  | .family _ _ _ => .ok .missing
  | .group h base ident dflt ms =>
    match createOpt E dflt with
    | .error x => .error x
    | .ok dm =>
      match createAs E base.name base.orderOrNative base with
      | .error x => .error x
      | .ok bm =>
        if ms.isEmpty then .error .format
        else
          match createGroup E ident [] ms with
          | .error x => .error x
          | .ok (keys, maps) =>
            .ok (.group { h with name := nm, order := o } ident bm dm keys maps)
  | .member _ _ _ _ _ => .ok .missing
termination_by structural d => d
/-- The default map of a group, dtfabric/runtime/data_maps.py:2218-2221. -/
def createOpt (E : Env) : Option Defn → Except Err (Option DMap)
  | none => .ok none
  | some d =>
    match createAs E d.name d.orderOrNative d with
    | .error x => .error x
    | .ok m => .ok (some m)
termination_by structural d => d
/-- StructureMap._GetMemberDataTypeMaps, dtfabric/runtime/data_maps.py:1820-1873,
with its cache of maps by definition name. -/
def createMembers (E : Env) (sname : String) (so : Order) (cache : List (String × DMap)) :
    List Defn → Except Err (List MemInfo × List DMap)
  | [] => .ok ([], [])
  | d :: ds =>
    match d with
    | .member h inner c _ vs =>
      match memberNameOrder sname so inner with
      | .error x => .error x
      | .ok (n, o) =>
        match (match cache.find? (·.1 == n) with
          | some p => Except.ok p.2
          | none => createAs E n o inner) with
        | .error x => .error x
        | .ok m =>
          match createMembers E sname so ((n, m) :: cache) ds with
          | .error x => .error x
          | .ok (infos, maps) => .ok (⟨h.name, c, vs⟩ :: infos, m :: maps)
    | d =>
      match memberNameOrder sname so d with
      | .error x => .error x
      | .ok (n, o) =>
        match (match cache.find? (·.1 == n) with
          | some p => Except.ok p.2
          | none => createAs E n o d) with
        | .error x => .error x
        | .ok m =>
          match createMembers E sname so ((n, m) :: cache) ds with
          | .error x => .error x
          | .ok (infos, maps) => .ok (⟨d.name, none, none⟩ :: infos, m :: maps)
termination_by structural ds => ds
/-- StructureGroupMap._GetMemberDataTypeMaps, dtfabric/runtime/data_maps.py:2231-2275.
One map is created per identifier value; they are all equal, so the model
creates it once per group member. -/
def createGroup (E : Env) (ident : String) (keys : List Lit) :
    List Defn → Except Err (List Lit × List DMap)
  | [] => .ok (keys, [])
  | g :: gs =>
    match groupValues ident g with
    | .error x => .error x
    | .ok [] => createGroup E ident keys gs
    | .ok (v :: vs) =>
      match addKeys keys [v] with
      | .error x => .error x
      | .ok _ =>
        match createAs E g.name g.orderOrNative g with
        | .error x => .error x
        | .ok m =>
          match addKeys keys (v :: vs) with
          | .error x => .error x
          | .ok keys' =>
            match createGroup E ident keys' gs with
            | .error x => .error x
            | .ok (ks, maps) => .ok (ks, List.replicate (v :: vs).length m ++ maps)
termination_by structural gs => gs
end

/-- DataTypeMapFactory.CreateDataTypeMapByType, dtfabric/runtime/data_maps.py:2443-2459. -/
def createMap (E : Env) (d : Defn) : Except Err DMap :=
  createAs E d.name d.orderOrNative d

end Dtf
