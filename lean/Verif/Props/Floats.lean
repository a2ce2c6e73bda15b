import Verif.Float
import Verif.Props.Folding
/-!
# Property C60: floating-point values

`Ieee E` says that `struct` converts between single and double precision as CPython does.
`singleVal` and `fVal` are the values 32 and 64 bits denote.
-/
namespace Dtf
open Spec

/-- The single precision number with the bits `u` is the one nearest to `a` (in units of
`2 ^ -1074`), and the one with an even last bit when two are as near. -/
def Spec.NearestSingle (a : Int) (u : Nat) : Prop :=
  ∃ b, singleVal u = .fin b ∧ ∀ u' b', singleVal u' = .fin b' →
    (a - b).natAbs ≤ (a - b').natAbs ∧ (b' ≠ b → (a - b).natAbs = (a - b').natAbs → u % 2 = 0)

/-- The number is too large for single precision: it lies at least half a step above the
largest finite single precision number `(2 ^ 24 - 1) * 2 ^ 104` (in units of 1), or as far
below the smallest. -/
def Spec.TooLarge (a : Int) : Prop := (2 ^ 25 - 1) * 2 ^ 1178 ≤ 2 * a.natAbs

/-- **C60** A 4-byte floating-point map gives exactly the number the four bytes denote. -/
theorem C60_map (E : Env) (hE : Ieee E) (h : Hdr) (m : DMap)
    (hm : createMap E (.prim h .floatingPoint (.bytes 4) "bytes") = .ok m)
    (bs : Bytes) (off d : Nat) (ctx : Ctx) (hl : off + 4 ≤ bs.length) :
    ∃ f, (mapStream E m bs off d ctx).1 = .ok (.float f) ∧
      fVal f = singleVal (stored E h.order (window bs off 4)) := by
  obtain rfl := createMap_prim _ _ _ _ _ _ hm
  rw [prim_map_eq E h _ 4 .f rfl bs off d ctx hl]
  refine ⟨_, rfl, ?_⟩
  rw [hE.wide, fVal_widen, stored_eq]

/-- **C60** Folding a finite number into a 4-byte map gives the bytes of the nearest single
precision number, and fails exactly when the number is too large. -/
theorem C60_fold (E : Env) (hE : Ieee E) (h : Hdr) (m : DMap)
    (hm : createMap E (.prim h .floatingPoint (.bytes 4) "bytes") = .ok m)
    (x : Nat) (a : Int) (hx : fVal x = .fin a) (ns : Namespace) :
    (TooLarge a → fold E m (.float x) ns = .error .folding) ∧
    (¬ TooLarge a → ∃ b, fold E m (.float x) ns = .ok (.bytes b) ∧ b.length = 4 ∧
      NearestSingle a (stored E h.order b)) := by
  obtain rfl := createMap_prim _ _ _ _ _ _ hm
  rw [prim_fold_eq E h _ _ _ .f rfl]
  simp only [foldValue, Option.bind, packOne, Val.toFloat, hE.thin]
  constructor
  · intro hl
    rw [(narrow_none x).mpr ⟨a, hx, hl⟩]
    rfl
  · intro hl
    cases hn : narrow x with
    | none =>
      obtain ⟨a', h1, h2⟩ := (narrow_none x).mp hn
      rw [hx] at h1
      cases h1
      exact absurd h2 hl
    | some u =>
      obtain ⟨h1, h2⟩ := narrow_nearest hx hn
      refine ⟨_, rfl, bytesOf_length .., ?_⟩
      rw [stored_eq, unsignedOf_bytesOf, Nat.mod_eq_of_lt (by omega)]
      exact h2

/-- **C60** Folding an infinity or a NaN into a 4-byte map gives the bytes of an infinity
of the same sign, or of a NaN. -/
theorem C60_special (E : Env) (hE : Ieee E) (h : Hdr) (m : DMap)
    (hm : createMap E (.prim h .floatingPoint (.bytes 4) "bytes") = .ok m)
    (x : Nat) (hx : ∀ a, fVal x ≠ .fin a) (ns : Namespace) :
    ∃ b, fold E m (.float x) ns = .ok (.bytes b) ∧ b.length = 4 ∧
      singleVal (stored E h.order b) = fVal x := by
  obtain rfl := createMap_prim _ _ _ _ _ _ hm
  rw [prim_fold_eq E h _ _ _ .f rfl]
  simp only [foldValue, Option.bind, packOne, Val.toFloat, hE.thin]
  obtain ⟨u, h1, h2, h3⟩ := narrow_special hx
  rw [h2]
  refine ⟨_, rfl, bytesOf_length .., ?_⟩
  rw [stored_eq, unsignedOf_bytesOf, Nat.mod_eq_of_lt (by omega)]
  exact h3

/-- **C60** Mapping four bytes that do not denote a NaN and folding the number gives them
back. -/
theorem C60_round_trip (E : Env) (hE : Ieee E) (h : Hdr) (m : DMap)
    (hm : createMap E (.prim h .floatingPoint (.bytes 4) "bytes") = .ok m)
    (bs : Bytes) (off d : Nat) (ctx : Ctx) (hl : off + 4 ≤ bs.length) (ns : Namespace)
    (hn : singleVal (stored E h.order (window bs off 4)) ≠ .nan) :
    ∃ v, (mapStream E m bs off d ctx).1 = .ok v ∧ fold E m v ns = .ok (.bytes (window bs off 4)) := by
  obtain rfl := createMap_prim _ _ _ _ _ _ hm
  rw [prim_map_eq E h _ 4 .f rfl bs off d ctx hl]
  refine ⟨_, rfl, ?_⟩
  rw [prim_fold_eq E h _ _ _ .f rfl]
  have hinv := bytesOf_unsignedOf (E.isLittle h.order) (window bs off 4)
  rw [window_length hl] at hinv
  have hlt := unsignedOf_lt (E.isLittle h.order) (window bs off 4)
  rw [window_length hl] at hlt
  rw [stored_eq] at hn
  have hconv : E.f64to32 (E.f32to64 (unsignedOf (E.isLittle h.order) (window bs off 4))) =
      some (unsignedOf (E.isLittle h.order) (window bs off 4)) := by
    rw [hE.wide, hE.thin]
    exact narrow_widen (by omega) (.inl hn)
  simp only [foldValue, Option.bind, unpackOne, packOne, Val.toFloat, hconv, Option.map, hinv]

/-- **C60** (with C31) What a foldable structure map gave for bytes without NaNs folds back
to these bytes, with the conversions of CPython. -/
theorem C60_structure (E : Env) (hE : Ieee E) (d : Defn) (hd : d.Every TypesDistinct) (h : Hdr)
    (bsz : Option Int) (linear io : Bool) (infos : List MemInfo) (maps : List DMap)
    (hm : createMap E d = .ok (.struct h bsz linear io infos maps)) (c : Ctx) (hc : c.Clean)
    (hf : Foldable E (c.values.map (·.1)) (.struct h bsz linear io infos maps))
    (bs : Bytes) (off depth : Nat) (v : Val)
    (hv : (mapStream E (.struct h bsz linear io infos maps) bs off depth c).1 = .ok v)
    (hn : ∀ f, FloatIn f v → fVal f ≠ .nan) (ns : Namespace) :
    ∃ n, (mapStream E (.struct h bsz linear io infos maps) bs off depth c).2.byteSize = some n ∧
      fold E (.struct h bsz linear io infos maps) v ns = .ok (.bytes (window bs off n)) :=
  C31_partial E d hd h bsz linear io infos maps hm c hc hf bs off depth v hv (kept_ieee hE hn) ns

/-! ### Examples -/

/-- An environment with the conversions of CPython. -/
def exEnvF : Env := { exEnv with f32to64 := widen, f64to32 := narrow }

example : Ieee exEnvF := ⟨rfl, rfl⟩

/-- `struct { float32 x; float64 y; }`. -/
def exFloats : Defn :=
  .struct { name := "T", order := .little }
    [.member { name := "x" } (.prim { name := "float32", order := .little } .floatingPoint (.bytes 4) "bytes")
        none (some "float32") none,
      .member { name := "y" } (.prim { name := "float64", order := .little } .floatingPoint (.bytes 8) "bytes")
        none (some "float64") none]

/-- The bits of 1.5, of the smallest positive number, of minus infinity, and of a NaN that is not quiet. -/
example : widen 0x3fc00000 = 0x3ff8000000000000 ∧ narrow 0x3ff8000000000000 = some 0x3fc00000 ∧
    widen 1 = 0x36a0000000000000 ∧ narrow 0x36a0000000000000 = some 1 ∧
    widen 0xff800000 = 0xfff0000000000000 ∧ narrow 0xfff0000000000000 = some 0xff800000 ∧
    widen 0x7f800001 = 0x7ff8000020000000 ∧ narrow 0x7ff8000020000000 = some 0x7fc00001 := by decide

/-- 0.1 in double precision is rounded; the largest double is too large; a third of the
smallest single rounds to zero. -/
example : narrow 0x3fb999999999999a = some 0x3dcccccd ∧ narrow 0x7fefffffffffffff = none ∧
    narrow 0x3685555555555555 = some 0 := by decide

example : ∃ m, createMap exEnvF (.prim { name := "t", order := .big } .floatingPoint (.bytes 4) "bytes") = .ok m ∧
    (mapStream exEnvF m [9, 0x3f, 0xc0, 0, 0] 1 0 {}).1 = .ok (.float 0x3ff8000000000000) ∧
    fold exEnvF m (.float 0x3ff8000000000000) [] = .ok (.bytes [0x3f, 0xc0, 0, 0]) ∧
    fold exEnvF m (.float 0x7fefffffffffffff) [] = .error .folding ∧
    fold exEnvF m (.float 0x3fb999999999999a) [] = .ok (.bytes [0x3d, 0xcc, 0xcc, 0xcd]) :=
  ⟨_, rfl, rfl, rfl, rfl, rfl⟩

/-- A structure with both sizes: foldable, and its numbers are no NaNs. -/
example : exFloats.Every TypesDistinct ∧ ∃ h bsz linear io infos maps,
    createMap exEnvF exFloats = .ok (.struct h bsz linear io infos maps) ∧
    Foldable exEnvF [] (.struct h bsz linear io infos maps) ∧
    (mapStream exEnvF (.struct h bsz linear io infos maps) [0, 0, 0xc0, 0x3f, 1, 0, 0, 0, 0, 0, 0, 0] 0 0 {}).1 =
      .ok (.struct "T" [("x", .float 0x3ff8000000000000), ("y", .float 1)]) ∧
    (∀ f, FloatIn f (.struct "T" [("x", .float 0x3ff8000000000000), ("y", .float 1)]) → fVal f ≠ .nan) := by
  refine ⟨?_, _, _, _, _, _, _, rfl, ?_, rfl, ?_⟩
  · simp [exFloats, Defn.Every, everyDefn, TypesDistinct, DistinctTypes, Defn.target, Defn.name, Defn.hdr]
  · refine .linear ?_
    intro m hm h k s u he
    simp only [List.mem_cons, List.not_mem_nil, or_false] at hm
    rcases hm with rfl | rfl <;> cases he <;> trivial
  · intro f hf
    cases hf with
    | struct hm hx =>
      simp only [List.mem_cons, List.not_mem_nil, or_false] at hm
      rcases hm with h | h <;> cases h <;> cases hx <;> decide

end Dtf
