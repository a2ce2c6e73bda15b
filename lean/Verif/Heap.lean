import Verif.Builder
/-!
Definition objects that refer to each other and are changed by method calls,
dtfabric/data_types.py: the byte sizes that structures and unions keep.
-/
namespace Dtf

/-- A definition object. Objects refer to others by position in the heap. -/
inductive Obj
  /-- A definition that refers to no definitions that can still change. -/
  | plain (d : Defn)
  /-- ElementSequenceDataTypeDefinition, dtfabric/data_types.py:305-333. -/
  | elements (h : Hdr) (info : SeqInfo) (element : Nat)
  /-- MemberDataTypeDefinition, dtfabric/data_types.py:505-533. -/
  | member (h : Hdr) (target : Nat) (condition : Option String) (dataType : Option String)
      (values : Option (List Lit))
  /-- StructureDefinition or UnionDefinition, dtfabric/data_types.py:415-432, with
  `_byte_size` and the values of `_members_by_name`. -/
  | record (isUnion : Bool) (h : Hdr) (cache : Option Int) (members : List Nat)

def Obj.name : Obj → String
  | .plain d => d.name
  | .elements h _ _ | .member h _ _ _ _ | .record _ h _ _ => h.name

/-- All definition objects, oldest first. -/
abbrev Heap := List Obj

/-- Attribute `_byte_size`. -/
def Heap.cache (H : Heap) (i : Nat) : Option Int :=
  match H[i]? with
  | some (.record _ _ c _) => c
  | _ => none

/-- Sets attribute `_byte_size`. -/
def Heap.setCache (H : Heap) (i : Nat) (c : Option Int) : Heap :=
  match H[i]? with
  | some (.record u h _ ms) => H.set i (.record u h c ms)
  | _ => H

/-- The loops of StructureDefinition.GetByteSize and UnionDefinition.GetByteSize,
dtfabric/data_types.py:591-608, 623-632. `step` is GetByteSize of a member. The
running total is kept in `_byte_size`, adding to `None` is a `TypeError`. -/
def Heap.loop (step : Heap → Nat → Except Err (Option Int) × Heap) (isUnion : Bool) (i : Nat) :
    Heap → List Nat → Except Err (Option Int) × Heap
  | H, [] => (.ok (H.cache i), H)
  | H, m :: ms =>
    match isUnion, H[m]? with
    | false, some (.plain (.padding _ (some (a + 1)))) =>
      match H.cache i with
      | none => (.error .type, H)
      | some t => Heap.loop step isUnion i (H.setCache i (some (t + paddingSize t (a + 1)))) ms
    | _, _ =>
      match step H m with
      | (.error e, H) => (.error e, H)
      | (.ok none, H) => (.ok none, H.setCache i none)
      | (.ok (some s), H) =>
        match H.cache i with
        | none => (.error .type, H)
        | some t => Heap.loop step isUnion i (H.setCache i (some (if isUnion then max t s else t + s))) ms

/-- GetByteSize of a definition object: dtfabric/data_types.py:335-354, 535-544,
584-608, 616-632. The first argument bounds the calls that wait for each other;
the limit of the interpreter is not modelled. -/
def Heap.size : Nat → Heap → Nat → Except Err (Option Int) × Heap
  | 0, H, _ => (.error .diverge, H)
  | fuel + 1, H, i =>
    match H[i]? with
    | none => (.error .attribute, H)
    | some (.plain d) => (.ok d.byteSize, H)
    | some (.elements _ info e) =>
      if truthyInt info.dataSize then (.ok info.dataSize, H)
      else if truthyInt info.numElements then
        match Heap.size fuel H e with
        | (.error e, H) => (.error e, H)
        | (.ok none, H) => (.ok none, H)
        | (.ok (some s), H) => (.ok (if s = 0 then none else info.numElements.map (s * ·)), H)
      else (.ok none, H)
    | some (.member _ t c _ _) => if truthyStr c then (.ok none, H) else Heap.size fuel H t
    | some (.record u _ c ms) =>
      match c with
      | some n => (.ok (some n), H)
      | none =>
        if ms.isEmpty then (.ok none, H)
        else Heap.loop (Heap.size fuel) u i (H.setCache i (some 0)) ms

/-- GetByteSize with a bound that is never reached (`C66_returns`). -/
def Heap.getByteSize (H : Heap) (i : Nat) : Except Err (Option Int) × Heap :=
  Heap.size ((H.length + 1) * (H.length + 1)) H i

/-- AddMemberDefinition of a structure or union, dtfabric/data_types.py:443-461.
The sections are in `Verif/Builder.lean`. -/
def Heap.addMember (H : Heap) (i m : Nat) : Except Err Unit × Heap :=
  match H[i]?, H[m]? with
  | some (.record u h _ ms), some o =>
    if ms.any fun k => (H[k]?.map Obj.name) == some o.name then (.error .key, H)
    else (.ok (), H.set i (.record u h none (ms ++ [m])))
  | _, _ => (.error .attribute, H)

/-- A call that makes or uses a definition object. -/
inductive HeapOp
  | newPlain (d : Defn)
  | newElements (h : Hdr) (info : SeqInfo) (element : Nat)
  | newMember (h : Hdr) (target : Nat) (condition : Option String) (dataType : Option String)
      (values : Option (List Lit))
  | newRecord (isUnion : Bool) (h : Hdr)
  | addMember (i m : Nat)
  | getByteSize (i : Nat)

/-- The objects after a call. References to objects that do not exist have no
effect; they cannot occur in Python. -/
def Heap.step (H : Heap) : HeapOp → Heap
  | .newPlain d => H ++ [.plain d]
  | .newElements h info e => if e < H.length then H ++ [.elements h info e] else H
  | .newMember h t c dt vs => if t < H.length then H ++ [.member h t c dt vs] else H
  | .newRecord u h => H ++ [.record u h none []]
  | .addMember i m => (H.addMember i m).2
  | .getByteSize i => (H.getByteSize i).2

/-- The objects after a history of calls. -/
def Heap.run (ops : List HeapOp) : Heap := ops.foldl Heap.step []

end Dtf
