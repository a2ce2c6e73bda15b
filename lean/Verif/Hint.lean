import Verif.MapStream
/-!
GetSizeHint of every data type map, dtfabric/runtime/data_maps.py.
-/
namespace Dtf

/-- An evaluation whose MappingError is ignored, dtfabric/runtime/data_maps.py:873-877,
891-895. -/
def ignoreMapping (r : Except Err Int) : Except Err (Option Int) :=
  match r with
  | .ok n => .ok (some n)
  | .error .mapping => .ok none
  | .error e => .error e

/-- ElementSequenceDataTypeMap.GetSizeHint, dtfabric/runtime/data_maps.py:848-907.
`elemHint` is GetSizeHint of the element map. The hint for a number of elements that is no
whole number (-1, see `countable`) is not modelled: `Err.other`. -/
def seqHint (E : Env) (info : SeqInfo) (ei : ElemInfo) (byteSize : Option Int)
    (elemHint : Ctx → Except Err (Option Int)) (ctx : Ctx) : Except Err (Option Int) :=
  match ctx.byteSize with
  | some n => .ok (some n)
  | none =>
    if truthyInt ctx.elementsDataSize then .ok ctx.elementsDataSize
    else if info.hasDataSize then
      match byteSize with
      | some n => .ok (some n)
      | none => ignoreMapping (evalDataSize E info ctx.values)
    else
      let scanned : Except Err (Option Int) → Except Err (Option Int)
        | .error e => .error e
        | .ok none => .ok ctx.elementsDataSize
        | .ok (some n) => .ok (some ((ctx.elementsDataOffset.getD 0 : Nat) + n))
      if info.terminator.isSome then
        match ei.byteSize with
        | some n => scanned (.ok (some n))
        | none => scanned (elemHint (ctx.sub.getD {}))
      else if info.hasNumElements then
        match (match ctx.numberOfElements with
          | some n => if n < 0 then Except.error Err.other else Except.ok (some n)
          | none => ignoreMapping (evalNumElements E info ctx.values)) with
        | .error e => .error e
        | .ok none => .ok ctx.elementsDataSize
        | .ok (some n) =>
          if truthyInt ei.byteSize then .ok (ei.byteSize.map (n * ·))
          else scanned (elemHint (ctx.sub.getD {}))
      else .ok ctx.elementsDataSize

mutual
/-- GetSizeHint of every map class; `off` is the argument `byte_offset`. Base
class: dtfabric/runtime/data_maps.py:95-104. -/
def sizeHint (E : Env) (m : DMap) (off : Int) (ctx : Ctx) : Except Err (Option Int) :=
  match m with
  | .missing => .error .attribute
  | .prim _ _ s u => .ok (fixedByteSize s u)
  | .uuid _ s u => .ok (fixedByteSize s u)
  -- PaddingMap.GetSizeHint, dtfabric/runtime/data_maps.py:1441-1456
  | .padding _ a =>
    match ctx.byteSize with
    | some n => .ok (some n)
    | none =>
      match calcPadding a off with
      | .error e => .error e
      | .ok n => .ok (some n)
  | .seq _ info ei bsz e => seqHint E info ei bsz (fun c => sizeHint E e 0 c) ctx
  -- StructureMap.GetSizeHint, dtfabric/runtime/data_maps.py:1995-2036
  | .struct h _ _ instOk infos maps =>
    match ctx.byteSize with
    | some n => .ok (some n)
    | none =>
      if ctx.mappedStruct.isNone && !instOk then .error .type
      else
        let attrs := ctx.mappedStruct.getD (newInstance (infos.map (·.name)))
        let sub : Ctx := ctx.sub.getD {}
        match hintMembers E maps (ctx.attributeIndex.getD 0) (ctx.membersDataSize.getD 0)
            { sub with values := structNs h.name attrs sub.values } with
        | .error e => .error e
        | .ok n => .ok (some n)
  | .constant _ | .enumeration _ _ | .format _ _ => .ok none
  -- StructureGroupMap.GetSizeHint, dtfabric/runtime/data_maps.py:2288-2314
  | .group _ _ base _ keys maps =>
    match ctx.byteSize with
    | some n => .ok (some n)
    | none =>
      match groupIndex keys (ctx.memberIdentifier.getD .pyNone) with
      | some i =>
        if groupMapMissing maps[i]? then sizeHint E base off (ctx.sub.getD {})
        else hintNth E maps i off (ctx.sub.getD {})
      | none => sizeHint E base off (ctx.sub.getD {})
termination_by structural m
/-- The hint of a group member by position in the dictionary. -/
def hintNth (E : Env) (ms : List DMap) (i : Nat) (off : Int) (ctx : Ctx) :
    Except Err (Option Int) :=
  match ms with
  | [] => .error .attribute
  | m :: ms =>
    match i with
    | 0 => sizeHint E m off ctx
    | i + 1 => hintNth E ms i off ctx
termination_by structural ms
/-- The loop over the members of a structure, dtfabric/runtime/data_maps.py:2021-2034.
`skip` members are passed over first. -/
def hintMembers (E : Env) (maps : List DMap) (skip : Nat) (total : Int) (sub : Ctx) :
    Except Err Int :=
  match maps with
  | [] => .ok total
  | m :: maps =>
    match skip with
    | skip + 1 => hintMembers E maps skip total sub
    | 0 =>
      match sizeHint E m total sub with
      | .error e => .error e
      | .ok none => .ok total
      | .ok (some n) => hintMembers E maps 0 (total + n) {}
termination_by structural maps
end

/-- The context values after GetSizeHint: evaluating a number of elements
expression leaves `__builtins__` in them, dtfabric/runtime/data_maps.py:729-733. -/
def hintValues (m : DMap) (ctx : Ctx) : Namespace :=
  match m with
  | .seq _ info _ _ _ =>
    if ctx.byteSize.isSome || truthyInt ctx.elementsDataSize || info.hasDataSize
        || info.terminator.isSome || !info.hasNumElements || ctx.numberOfElements.isSome then
      ctx.values
    else valuesAfterNum info ctx.values
  | _ => ctx.values

/-- GetSizeHint as called by users: the hint and the context afterwards. -/
def getSizeHint (E : Env) (m : DMap) (ctx : Ctx) : Except Err (Option Int) × Ctx :=
  (sizeHint E m 0 ctx, { ctx with values := hintValues m ctx })

end Dtf
