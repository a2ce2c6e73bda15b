import Verif.RoundTrip
/-!
# Properties C31 and C32: folding
-/
namespace Dtf
open Spec

/-! ### C31 -/

/-- **C31** (partial) Folding the object a structure map produced gives back exactly the
bytes it was mapped from, whatever the context of the folding call. The single precision
numbers in it must convert back (`Kept`; in CPython all but NaNs do, see C60). The
structure and everything in it is `Foldable`: what is missing are the maps for which the code does
not do this, see `C31_refuted` and `C31_sequence_refuted`, and strings of a fixed size
that are cut at a terminator. -/
theorem C31_partial (E : Env) (d : Defn) (hd : d.Every TypesDistinct) (h : Hdr) (bsz : Option Int)
    (linear io : Bool) (infos : List MemInfo) (maps : List DMap)
    (hm : createMap E d = .ok (.struct h bsz linear io infos maps))
    (c : Ctx) (hc : c.Clean)
    (hf : Foldable E (c.values.map (·.1)) (.struct h bsz linear io infos maps))
    (bs : Bytes) (off depth : Nat) (v : Val)
    (hv : (mapStream E (.struct h bsz linear io infos maps) bs off depth c).1 = .ok v)
    (hk : Kept E v) (ns : Namespace) :
    ∃ n, (mapStream E (.struct h bsz linear io infos maps) bs off depth c).2.byteSize = some n ∧
      fold E (.struct h bsz linear io infos maps) v ns = .ok (.bytes (window bs off n)) := by
  obtain ⟨n, hp, hb⟩ := mapStream_ok hc hv
  refine ⟨n, hb, ?_⟩
  have hev := createAs_every (Q := NodeOk) (fun d nm o m => nodeOk_of_create d nm o m) d _ _ _ hm hd
  refine (fold_back hf hev bs off depth c.values ns v n ?_ trivial hp hk).2
  intro k hk
  apply Classical.byContradiction
  intro hn
  exact hk (nsGet_none hn)

/-- **C31** (partial, other maps) The same for a map of any kind when the folding call is
given the same values. -/
theorem C31_any_partial (E : Env) (d : Defn) (hd : d.Every TypesDistinct) (m : DMap)
    (hm : createMap E d = .ok m) (c : Ctx) (hc : c.Clean) (hf : Foldable E (c.values.map (·.1)) m)
    (bs : Bytes) (off depth : Nat) (v : Val) (hv : (mapStream E m bs off depth c).1 = .ok v)
    (hk : Kept E v) :
    ∃ n, (mapStream E m bs off depth c).2.byteSize = some n ∧
      fold E m v c.values = .ok (.bytes (window bs off n)) := by
  obtain ⟨n, hp, hb⟩ := mapStream_ok hc hv
  refine ⟨n, hb, ?_⟩
  have hev := createAs_every (Q := NodeOk) (fun d nm o m => nodeOk_of_create d nm o m) d _ _ _ hm hd
  refine (fold_back hf hev bs off depth c.values c.values v n ?_ ?_ hp hk).2
  · intro k hk
    apply Classical.byContradiction
    intro hn
    exact hk (nsGet_none hn)
  · cases m <;> simp [SizeAgree]

/-- `struct { uint8 a; stream(T.a bytes) s; uint16 w if T.a == 1; struct U { uint16 x; uint16 y; } u; }`. -/
def exSized : Defn :=
  .struct { name := "T" }
    [.member { name := "a" } exU8 none (some "uint8") none,
      .seq { name := "s" }
        { kind := .stream, elementDataType := some "uint8", dataSizeExpr := some "T.a" } exU8,
      .member { name := "w" } exU16 (some "T.a == 1") (some "uint16") none,
      .member { name := "u" }
        (.struct { name := "U" }
          [.member { name := "x" } exU16 none (some "uint16") none,
            .member { name := "y" } exU16 none (some "uint16") none]) none (some "U") none]

example : exSized.Every TypesDistinct ∧ ∃ h bsz linear io infos maps,
    createMap exEnvE exSized = .ok (.struct h bsz linear io infos maps) ∧
    Foldable exEnvE [] (.struct h bsz linear io infos maps) ∧
    (mapStream exEnvE (.struct h bsz linear io infos maps) [9, 1, 7, 2, 0, 3, 0, 4, 0, 8] 1 0 {}).1 =
      .ok (.struct "T" [("a", .int 1), ("s", .bytes [7]), ("w", .int 2), ("u", .struct "U" [("x", .int 3), ("y", .int 4)])]) ∧
    (mapStream exEnvE (.struct h bsz linear io infos maps) [9, 1, 7, 2, 0, 3, 0, 4, 0, 8] 1 0 {}).2.byteSize =
      some 8 ∧
    fold exEnvE (.struct h bsz linear io infos maps)
      (.struct "T" [("a", .int 1), ("s", .bytes [7]), ("w", .int 2), ("u", .struct "U" [("x", .int 3), ("y", .int 4)])]) [] =
      .ok (.bytes [1, 7, 2, 0, 3, 0, 4, 0]) := by
  refine ⟨?_, _, _, _, _, _, _, rfl, ?_, rfl, rfl, rfl⟩
  · simp [exSized, Defn.Every, everyDefn, TypesDistinct, DistinctTypes, Defn.target, Defn.name, Defn.hdr,
      exU8, exU16]
  · refine .composite (by simp) (by decide) ?_ ?_
    · intro m hm
      simp only [List.mem_cons, List.not_mem_nil, or_false] at hm
      rcases hm with rfl | rfl | rfl | rfl
      · exact .number trivial
      · exact .stream rfl (by simp [exU8, Defn.byteSize, fixedByteSize])
      · exact .number trivial
      · refine .linear ?_
        intro m hm h k s u he
        simp only [List.mem_cons, List.not_mem_nil, or_false] at hm
        rcases hm with rfl | rfl <;> cases he <;> trivial
    · intro i m hm
      match i, hm with
      | 0, hm => cases hm; trivial
      | 1, hm =>
        cases hm
        intro text ht
        simp only [Option.some.injEq, reduceCtorEq, or_false] at ht
        subst ht
        intro ns ns' t t' h1 h2 h3
        have h1 : nsGet ns "T" = some t := h1
        have h2 : nsGet ns' "T" = some t' := h2
        have h3 : getAttr t "a" = getAttr t' "a" := h3 "a" (by decide)
        simp [exEnvE, h1, h2, h3]
      | 2, hm => cases hm; trivial
      | 3, hm => cases hm; trivial
      | i + 4, hm => simp at hm

/-- A linear structure with one boolean that is true for 2. -/
def exTwoBool : Defn :=
  .struct { name := "T", order := .little }
    [.member { name := "a" } (.prim { name := "flag" } (.boolean (some 0) (some 2)) (.bytes 1) "bytes") none
      (some "flag") none]

/-- **C31** (refuted) A structure whose members are all primitive is folded without
FoldValue: a boolean that is true for 2 maps from the byte 2 and folds to the byte 1. -/
theorem C31_refuted : ∃ m v, createMap exEnv exTwoBool = .ok m ∧
    (mapStream exEnv m [2] 0 0 {}).1 = .ok v ∧ (mapStream exEnv m [2] 0 0 {}).2.byteSize = some 1 ∧
    fold exEnv m v [] = .ok (.bytes [1]) :=
  ⟨_, _, rfl, rfl, rfl, rfl⟩

/-- A structure with a sequence of one UUID. -/
def exUuids : Defn :=
  .struct { name := "T", order := .little }
    [.seq { name := "s" } { kind := .sequence, elementDataType := some "uuid", numElements := some 1 } exUuid]

/-- **C31** (refuted, sequences) A structure with a sequence of elements that are not
primitive maps but folds to `None`. -/
theorem C31_sequence_refuted : ∃ m, createMap exEnv exUuids = .ok m ∧
    (mapStream exEnv m [1, 2, 3, 4, 5, 6, 7, 8, 9, 10, 11, 12, 13, 14, 15, 16] 0 0 {}).1 =
      .ok (.struct "T" [("s", .tuple [.uuid [1, 2, 3, 4, 5, 6, 7, 8, 9, 10, 11, 12, 13, 14, 15, 16]])]) ∧
    fold exEnv m (.struct "T" [("s", .tuple [.uuid [1, 2, 3, 4, 5, 6, 7, 8, 9, 10, 11, 12, 13, 14, 15, 16]])]) [] =
      .ok .pyNone :=
  ⟨_, rfl, rfl, rfl⟩

/-- **C31** (refuted, strings) A structure with a string of fixed size that is cut at its
terminator maps but cannot be folded. -/
theorem C31_string_refuted : ∃ m,
    createMap exEnv (.struct { name := "T" } [exStr (some 4) (some (.bytes [0]))]) = .ok m ∧
    (mapStream exEnv m [65, 66, 0, 67] 0 0 {}).1 = .ok (.struct "T" [("str", .str [65, 66])]) ∧
    fold exEnv m (.struct "T" [("str", .str [65, 66])]) [] = .error .folding :=
  ⟨_, rfl, rfl, rfl⟩

/-! ### C32 -/

namespace Spec

/-- Primitive maps, and structure and sequence maps whose members or elements are all
read with one operation. -/
def SingleOperation : DMap → Prop
  | .prim _ _ _ _ => True
  | .struct _ _ linear _ _ _ => linear = true
  | .seq _ info ei _ _ => info.kind = .sequence ∧ seqLinear info ei = true
  | _ => False

/-- FoldByteStream returns bytes or raises FoldingError. -/
def BytesOrFoldingError (r : Except Err Val) : Prop :=
  r = .error .folding ∨ ∃ b, r = .ok (.bytes b)

/-- UUIDs and the objects of built-in types. -/
def NoForeignObject : Val → Prop
  | .struct _ _ => False
  | _ => True

end Spec

/-- **C32** (partial) FoldByteStream of a primitive map, or of a structure or sequence map
that reads with one operation, returns bytes or raises FoldingError, whatever the
value. What is missing is the UUID map, see `C32_uuid_partial` and `C32_refuted`. -/
theorem C32_partial (E : Env) (m : DMap) (hm : SingleOperation m) (v : Val) (ns : Namespace) :
    BytesOrFoldingError (fold E m v ns) := by
  cases m with
  | prim h k s u =>
    rw [fold]
    unfold primFold
    split
    · split
      · exact .inr ⟨_, rfl⟩
      · exact .inl rfl
    · exact .inl rfl
  | struct h bsz linear io infos maps =>
    simp only [SingleOperation] at hm
    subst hm
    rw [fold]
    simp only [if_true]
    unfold linearStructFold
    split
    · exact .inl rfl
    · split
      · exact .inr ⟨_, rfl⟩
      · exact .inl rfl
  | seq h info ei bsz e =>
    obtain ⟨hk, hl⟩ := hm
    rw [fold]
    simp only [hk, hl, if_true]
    unfold linearSeqFold
    split
    · split
      · exact .inr ⟨_, rfl⟩
      · exact .inl rfl
    · exact .inl rfl
  | _ => exact absurd hm (by simp [SingleOperation])

/-- **C32** (partial, UUIDs) The same for UUID maps with little- or big-endian byte order
and values that are UUIDs or objects of built-in types. -/
theorem C32_uuid_partial (E : Env) (h : Hdr) (s : Size) (u : String) (ho : h.order ≠ .native) (v : Val)
    (hv : NoForeignObject v) (ns : Namespace) : BytesOrFoldingError (fold E (.uuid h s u) v ns) := by
  rw [fold]
  unfold uuidFold
  split
  · exact absurd (by assumption) ho
  all_goals
    cases v with
    | struct => exact absurd hv (by simp [NoForeignObject])
    | uuid b => exact .inr ⟨_, rfl⟩
    | _ => exact .inl rfl

/-- Values that can and that cannot be folded. -/
example : ∃ m m', createMap exEnv exU16 = .ok m ∧ SingleOperation m ∧
    createMap exEnv exLin = .ok m' ∧ SingleOperation m' ∧
    fold exEnv m (.int 258) [] = .ok (.bytes [2, 1]) ∧ fold exEnv m (.int 65536) [] = .error .folding ∧
    fold exEnv m (.str [65]) [] = .error .folding ∧
    fold exEnv m' (.struct "T" [("c", .int 1), ("e", .int 2)]) [] = .ok (.bytes [1, 2]) ∧
    fold exEnv m' (.int 1) [] = .error .folding :=
  ⟨_, _, rfl, trivial, rfl, rfl, rfl, rfl, rfl, rfl, rfl⟩

/-- **C32** (refuted) A UUID map with native byte order folds every value to `None`. -/
theorem C32_refuted : ∃ d m, createMap exEnv d = .ok m ∧ ∀ v, fold exEnv m v [] = .ok .pyNone :=
  ⟨.uuid { name := "uuid" } (.bytes 16) "bytes", _, rfl, fun _ => rfl⟩

end Dtf
