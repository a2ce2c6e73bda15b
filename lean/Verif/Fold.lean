import Verif.MapStream
/-!
FoldByteStream of every data type map, dtfabric/runtime/data_maps.py.

Folding never stores state in a context, so a call is modelled by the values of
the context alone (simplification: contexts holding the unfinished state of a
mapping are not passed to folding).
-/
namespace Dtf

/-- FoldValue: dtfabric/runtime/data_maps.py:272-284, 376-394 (boolean), 444-456
(character). `none` is any exception. `ord` accepts one-character strings and
byte strings of length one. -/
def foldValue (k : PrimKind) (v : Val) : Option Val :=
  match k with
  | .boolean f t =>
    match v with
    | .bool false => f.map .int
    | .bool true => t.map .int
    | _ => none
  | .character =>
    match v with
    | .str [c] => some (.int c)
    | .bytes [b] => some (.int b.toNat)
    | _ => none
  | .floatingPoint | .integer _ => some v

/-- PrimitiveDataTypeMap.FoldByteStream, dtfabric/runtime/data_maps.py:250-270. -/
def primFold (E : Env) (o : Order) (k : PrimKind) (s : Size) (v : Val) : Except Err Val :=
  match foldValue k v, primCode k s with
  | some x, some c =>
    match packOne E o c x with
    | some b => .ok (.bytes b)
    | none => .error .folding
  | _, _ => .error .folding

/-- `value.bytes` and `value.bytes_le` of an object; `none` is `AttributeError`. -/
def uuidAttr (n : String) (f : Bytes → Bytes) (v : Val) : Option Val :=
  match v with
  | .uuid b => some (.bytes (f b))
  | .struct _ attrs => nsGet attrs n
  | _ => none

/-- UUIDMap.FoldByteStream, dtfabric/runtime/data_maps.py:540-566; with native
byte order the result is `None`. -/
def uuidFold (o : Order) (v : Val) : Except Err Val :=
  match o with
  | .native => .ok .pyNone
  | .big => match uuidAttr "bytes" id v with
    | some x => .ok x
    | none => .error .folding
  | .little => match uuidAttr "bytes_le" uuidSwap v with
    | some x => .ok x
    | none => .error .folding

/-- `mapped_value[-k:]` of a byte string. -/
def lastN (k : Nat) (b : Bytes) : Bytes := if k = 0 then b else b.drop (b.length - k)

/-- StreamMap.FoldByteStream, dtfabric/runtime/data_maps.py:1269-1298. Joining or
slicing an object that is no byte string is a `TypeError`. -/
def streamFold (E : Env) (info : SeqInfo) (ei : ElemInfo) (v : Val) (ns : Namespace) :
    Except Err Val :=
  match (calcDataSize E info ei { values := ns }).1 with
  | .error e => .error e
  | .ok (some n) =>
    match v.len with
    | none => .error .type
    | some l => if n ≠ l then .error .folding else .ok v
  | .ok none =>
    match info.terminator with
    | none => .error .folding
    | some (.bytes t) =>
      match v with
      | .bytes b => .ok (.bytes (if lastN t.length b == t then b else b ++ t))
      | _ => .error .type
    | some _ => .error .type

/-- StringMap.FoldByteStream, dtfabric/runtime/data_maps.py:1519-1540. -/
def stringFold (E : Env) (enc : String) (info : SeqInfo) (ei : ElemInfo) (v : Val)
    (ns : Namespace) : Except Err Val :=
  match v with
  | .str cs =>
    match E.encode enc cs with
    | none => .error .folding
    | some b => streamFold E info ei (.bytes b) ns
  | _ => .error .folding

/-- SequenceMap._LinearFoldByteStream, dtfabric/runtime/data_maps.py:1116-1135. -/
def linearSeqFold (E : Env) (op : Option Op) (v : Val) : Except Err Val :=
  match op, v.iter with
  | some op, some vs =>
    match op.writeTo E vs with
    | some b => .ok (.bytes b)
    | none => .error .folding
  | _, _ => .error .folding

/-- The list of attribute values that are not `None`,
dtfabric/runtime/data_maps.py:1889-1893. -/
def presentValues (v : Val) : List String → List Val
  | [] => []
  | n :: ns =>
    match getAttr v n with
    | .pyNone => presentValues v ns
    | x => x :: presentValues v ns

/-- StructureMap._LinearFoldByteStream, dtfabric/runtime/data_maps.py:1875-1899. -/
def linearStructFold (E : Env) (op : Option Op) (names : List String) (v : Val) :
    Except Err Val :=
  match op with
  | none => .error .folding
  | some op =>
    match op.writeTo E (presentValues v names) with
    | some b => .ok (.bytes b)
    | none => .error .folding

/-- `b''.join(list)`; `none` is a `TypeError`. -/
def joinBytes : List Val → Option Bytes
  | [] => some []
  | .bytes b :: vs => (joinBytes vs).map (b ++ ·)
  | _ :: _ => none

mutual
/-- FoldByteStream of every map class. -/
def fold (E : Env) (m : DMap) (v : Val) (ns : Namespace) : Except Err Val :=
  match m with
  | .missing => .error .attribute
  | .prim h k s _ => primFold E h.order k s v
  | .uuid h _ _ => uuidFold h.order v
  -- PaddingMap.FoldByteStream, dtfabric/runtime/data_maps.py:1412-1425
  | .padding _ _ => .ok v
  | .seq h info ei bsz e =>
    match info.kind with
    | .stream => streamFold E info ei v ns
    | .string enc => stringFold E enc info ei v ns
    | .sequence =>
      if seqLinear info ei then linearSeqFold E (DMap.seq h info ei bsz e).op v
      -- SequenceMap._CompositeFoldByteStream, dtfabric/runtime/data_maps.py:962-977
      else .ok .pyNone
  | .struct h bsz linear instOk infos maps =>
    if linear then
      linearStructFold E (DMap.struct h bsz linear instOk infos maps).op (infos.map (·.name)) v
    else
      -- StructureMap._CompositeFoldByteStream, dtfabric/runtime/data_maps.py:1657-1701
      match foldMembers E v infos maps with
      | .error e => .error e
      | .ok none => .ok .pyNone
      | .ok (some parts) =>
        match joinBytes parts with
        | none => .error .type
        | some b => .ok (.bytes b)
  -- SemanticDataTypeMap.FoldByteStream and LayoutDataTypeMap.FoldByteStream,
  -- dtfabric/runtime/data_maps.py:2080-2095, 2142-2157
  | .constant _ | .enumeration _ _ | .format _ _ | .group _ _ _ _ _ _ => .error .folding
termination_by structural m
/-- The loop over the members, dtfabric/runtime/data_maps.py:1683-1696; `none`
is the early `return None`. -/
def foldMembers (E : Env) (v : Val) (infos : List MemInfo) (maps : List DMap) :
    Except Err (Option (List Val)) :=
  match maps with
  | [] => .ok (some [])
  | m :: maps =>
    match infos with
    | [] => .ok (some [])
    | info :: infos =>
      match m with
      | .missing => foldMembers E v infos maps
      | m =>
        match getAttr v info.name with
        | .pyNone => foldMembers E v infos maps
        | x =>
          match fold E m x [(v.typeName, v)] with
          | .error e => .error e
          | .ok .pyNone => .ok none
          | .ok b =>
            match foldMembers E v infos maps with
            | .error e => .error e
            | .ok none => .ok none
            | .ok (some bs) => .ok (some (b :: bs))
termination_by structural maps
end

/-- StructureMap.CreateStructureValues, dtfabric/runtime/data_maps.py:1972-1978.
Other maps have no such method. -/
def createValues (m : DMap) (args : List Val) (kw : Namespace) : Except Err Val :=
  match m with
  | .struct h _ _ instOk infos _ =>
    match newInstanceCall (infos.map (·.name)) args kw with
    | none => .error .type
    | some attrs => if instOk then .ok (.struct h.name attrs) else .error .type
  | _ => .error .attribute

end Dtf
