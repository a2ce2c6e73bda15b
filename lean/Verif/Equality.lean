import Verif.PyLemmas
/-!
What Python equality of the values and literals of the model means.
-/
namespace Dtf

namespace Spec

/-- A number, finite ones in units of `2 ^ -1074`. -/
inductive Quantity
  | finite (units : Int)
  | infinite (negative : Prop)

/-- The number a double stands for (IEEE 754 binary64: a sign, eleven bits of
exponent and 52 bits of fraction). -/
inductive Double (bits : Nat) : Quantity → Prop
  | small {s f : Nat} : bits % 2 ^ 64 = s * 2 ^ 63 + f → s < 2 → f < 2 ^ 52 →
      Double bits (.finite ((-1) ^ s * f))
  | normal {s e f : Nat} : bits % 2 ^ 64 = s * 2 ^ 63 + e * 2 ^ 52 + f → s < 2 → f < 2 ^ 52 → 0 < e →
      e < 2047 → Double bits (.finite ((-1) ^ s * ((2 ^ 52 + f) * 2 ^ (e - 1))))
  | infinite {s : Nat} : bits % 2 ^ 64 = s * 2 ^ 63 + 2047 * 2 ^ 52 → s < 2 → Double bits (.infinite (s = 1))

/-- The number a value is; booleans are the integers 0 and 1. -/
inductive Counts : Val → Quantity → Prop
  | no : Counts (.bool false) (.finite 0)
  | yes : Counts (.bool true) (.finite (1 * 2 ^ 1074))
  | int {i : Int} : Counts (.int i) (.finite (i * 2 ^ 1074))
  | float {b : Nat} {q : Quantity} : Double b q → Counts (.float b) q

/-- The number a literal is. -/
inductive LitCounts : Lit → Quantity → Prop
  | no : LitCounts (.bool false) (.finite 0)
  | yes : LitCounts (.bool true) (.finite (1 * 2 ^ 1074))
  | int {i : Int} : LitCounts (.int i) (.finite (i * 2 ^ 1074))
  | float {b : Nat} {q : Quantity} : Double b q → LitCounts (.float b) q

/-- A value equals a literal. -/
inductive Equals : Val → Lit → Prop
  | nothing : Equals .pyNone .null
  | bytes {b : Bytes} : Equals (.bytes b) (.bytes b)
  | text {s : String} : Equals (.str (s.toList.map Char.toNat)) (.str s)
  | number {v : Val} {l : Lit} {q : Quantity} : Counts v q → LitCounts l q → Equals v l

/-- Two literals are equal. -/
inductive Alike : Lit → Lit → Prop
  | nothing : Alike .null .null
  | bytes {b : Bytes} : Alike (.bytes b) (.bytes b)
  | text {s : String} : Alike (.str s) (.str s)
  | other {h h' : Bool} {i : Nat} : Alike (.other h i) (.other h' i)
  | number {a b : Lit} {q : Quantity} : LitCounts a q → LitCounts b q → Alike a b

end Spec
open Spec

/-- The number `fVal` stands for. -/
def FVal.quantity? : FVal → Option Quantity
  | .nan => none
  | .inf n => some (.infinite (n = true))
  | .fin u => some (.finite u)

theorem bits_fields (bits : Nat) : bits % 2 ^ 64 = bits / 2 ^ 63 % 2 * 2 ^ 63 + fExp bits * 2 ^ 52 + bits % 2 ^ 52 := by
  unfold fExp
  omega

theorem fields_unique {bits s e f : Nat} (h : bits % 2 ^ 64 = s * 2 ^ 63 + e * 2 ^ 52 + f) (hs : s < 2) (he : e < 2048)
    (hf : f < 2 ^ 52) : s = bits / 2 ^ 63 % 2 ∧ e = fExp bits ∧ f = bits % 2 ^ 52 := by
  unfold fExp
  omega

theorem double_iff (bits : Nat) (q : Quantity) : Double bits q ↔ (fVal bits).quantity? = some q := by
  have hb := bits_fields bits
  have hs : bits / 2 ^ 63 % 2 < 2 := Nat.mod_lt _ (by decide)
  have he : fExp bits < 2048 := Nat.mod_lt _ (by decide)
  have hf : bits % 2 ^ 52 < 2 ^ 52 := Nat.mod_lt _ (by decide)
  have sgn : ∀ (s : Nat), s < 2 → ∀ x : Nat, (-1 : Int) ^ s * x = if s = 1 then -(x : Int) else x := by
    intro s hs x
    rcases (by omega : s = 0 ∨ s = 1) with rfl | rfl <;> simp
  constructor
  · intro h
    cases h with
    | @small s f h1 h2 h3 =>
      obtain ⟨a, b, c⟩ := fields_unique (e := 0) (by simpa using h1) h2 (by omega) h3
      unfold fVal
      rw [← a, ← b, ← c, if_neg (by omega), sgn s h2]
      simp only [FVal.quantity?, decide_eq_true_eq, if_true]
    | @normal s e f h1 h2 h3 h4 h5 =>
      obtain ⟨a, b, c⟩ := fields_unique h1 h2 (by omega) h3
      unfold fVal
      have e1 : ((2 ^ 52 + (f : Int)) * 2 ^ (e - 1)) = (((2 ^ 52 + f) * 2 ^ (e - 1) : Nat) : Int) := by
        simp
      rw [← a, ← b, ← c, if_neg (by omega), e1, sgn s h2]
      simp only [FVal.quantity?, decide_eq_true_eq, if_neg (show ¬ e = 0 by omega)]
    | @infinite s h1 h2 =>
      obtain ⟨a, b, c⟩ := fields_unique (e := 2047) (f := 0) (by omega) h2 (by omega) (by decide)
      unfold fVal
      rw [← a, ← b, ← c, if_pos rfl, if_pos rfl]
      simp only [FVal.quantity?, decide_eq_true_eq]
  · intro h
    unfold fVal at h
    generalize bits / 2 ^ 63 % 2 = s at *
    generalize fExp bits = e at *
    generalize bits % 2 ^ 52 = f at *
    simp only at h
    split at h
    · rename_i h1
      split at h
      · rename_i h2
        simp only [FVal.quantity?, Option.some.injEq, decide_eq_true_eq] at h
        subst h1; subst h2; subst h
        exact .infinite (by simpa using hb) hs
      · cases h
    · simp only [FVal.quantity?, Option.some.injEq, decide_eq_true_eq] at h
      subst h
      rw [← sgn s hs]
      split
      · rename_i h2
        subst h2
        exact .small (by simpa using hb) hs hf
      · have := Double.normal (bits := bits) (e := e) hb hs hf (by omega) (by omega)
        simpa using this

/-- The number of a Python number. -/
def Num.quantity? : Num → Option Quantity
  | .int i => some (.finite (i * 2 ^ 1074))
  | .float b => (fVal b).quantity?

theorem val_number (v : Val) (q : Quantity) :
    Counts v q ↔ v.num?.bind Num.quantity? = some q := by
  constructor
  · intro h
    cases h with
    | no => simp only [Val.num?, Option.bind_some, Num.quantity?, boolInt, Bool.false_eq_true, if_false, Int.zero_mul]
    | yes => simp only [Val.num?, Option.bind_some, Num.quantity?, boolInt, if_true]
    | int => rfl
    | float h => exact (double_iff _ _).mp h
  · intro h
    cases v with
    | bool b =>
      cases b with
      | false =>
        simp only [Val.num?, Option.bind_some, Num.quantity?, boolInt, Bool.false_eq_true, if_false,
          Option.some.injEq, Int.zero_mul] at h
        subst h
        exact .no
      | true =>
        simp only [Val.num?, Option.bind_some, Num.quantity?, boolInt, if_true, Option.some.injEq] at h
        subst h
        exact .yes
    | int i =>
      simp only [Val.num?, Option.bind_some, Num.quantity?, Option.some.injEq] at h
      subst h
      exact .int
    | float b => exact .float ((double_iff _ _).mpr h)
    | _ => simp [Val.num?] at h

theorem lit_number (v : Lit) (q : Quantity) :
    LitCounts v q ↔ v.num?.bind Num.quantity? = some q := by
  constructor
  · intro h
    cases h with
    | no => simp only [Lit.num?, Option.bind_some, Num.quantity?, boolInt, Bool.false_eq_true, if_false, Int.zero_mul]
    | yes => simp only [Lit.num?, Option.bind_some, Num.quantity?, boolInt, if_true]
    | int => rfl
    | float h => exact (double_iff _ _).mp h
  · intro h
    cases v with
    | bool b =>
      cases b with
      | false =>
        simp only [Lit.num?, Option.bind_some, Num.quantity?, boolInt, Bool.false_eq_true, if_false,
          Option.some.injEq, Int.zero_mul] at h
        subst h
        exact .no
      | true =>
        simp only [Lit.num?, Option.bind_some, Num.quantity?, boolInt, if_true, Option.some.injEq] at h
        subst h
        exact .yes
    | int i =>
      simp only [Lit.num?, Option.bind_some, Num.quantity?, Option.some.injEq] at h
      subst h
      exact .int
    | float b => exact .float ((double_iff _ _).mpr h)
    | _ => simp [Lit.num?] at h

theorem quantity_fin (x : FVal) (u : Int) : x.quantity? = some (.finite u) ↔ x = .fin u := by
  cases x <;> simp [FVal.quantity?]

theorem quantity_eq (x y : FVal) : (x ≠ .nan ∧ x = y) ↔ ∃ q, x.quantity? = some q ∧ y.quantity? = some q := by
  constructor
  · rintro ⟨h, rfl⟩
    cases x with
    | nan => exact absurd rfl h
    | inf n => exact ⟨_, rfl, rfl⟩
    | fin u => exact ⟨_, rfl, rfl⟩
  · rintro ⟨q, h1, h2⟩
    cases x with
    | nan => cases h1
    | fin u =>
      simp only [FVal.quantity?, Option.some.injEq] at h1
      subst h1
      rw [quantity_fin] at h2
      exact ⟨by simp, h2.symm⟩
    | inf n =>
      simp only [FVal.quantity?, Option.some.injEq] at h1
      subst h1
      cases y with
      | nan => cases h2
      | fin u => simp [FVal.quantity?] at h2
      | inf k =>
        simp only [FVal.quantity?, Option.some.injEq, Quantity.infinite.injEq, eq_iff_iff] at h2
        refine ⟨by simp, ?_⟩
        cases n <;> cases k <;> simp_all

theorem num_eq_iff (a b : Num) : a.eq b = true ↔ ∃ q, a.quantity? = some q ∧ b.quantity? = some q := by
  cases a with
  | int i =>
    cases b with
    | int j =>
      simp only [Num.eq, beq_iff_eq, Num.quantity?, Option.some.injEq]
      constructor
      · rintro rfl; exact ⟨_, rfl, rfl⟩
      · rintro ⟨q, rfl, h⟩
        injection h with h
        exact (int_mul_pow_cancel h).symm
    | float b =>
      simp only [Num.eq, floatEqInt, Num.quantity?, decide_eq_true_eq, Option.some.injEq, exists_eq_left',
        quantity_fin]
  | float a =>
    cases b with
    | int j =>
      simp only [Num.eq, floatEqInt, Num.quantity?, decide_eq_true_eq, Option.some.injEq, exists_eq_right',
        quantity_fin]
    | float b =>
      simp only [Num.eq, floatEq, Num.quantity?, Bool.and_eq_true, decide_eq_true_eq]
      exact quantity_eq _ _

/-- Python equality of a value and a literal. -/
theorem pyEq_iff (v : Val) (l : Lit) : pyEq v l = true ↔ Equals v l := by
  have hn : (∃ a b, v.num? = some a ∧ l.num? = some b ∧ a.eq b = true) ↔ ∃ q, Counts v q ∧ LitCounts l q := by
    simp only [val_number, lit_number]
    constructor
    · rintro ⟨a, b, ha, hb, h⟩
      obtain ⟨q, h1, h2⟩ := (num_eq_iff a b).mp h
      exact ⟨q, by rw [ha]; exact h1, by rw [hb]; exact h2⟩
    · rintro ⟨q, h1, h2⟩
      obtain ⟨a, ha, h1⟩ := Option.bind_eq_some_iff.mp h1
      obtain ⟨b, hb, h2⟩ := Option.bind_eq_some_iff.mp h2
      exact ⟨a, b, ha, hb, (num_eq_iff a b).mpr ⟨q, h1, h2⟩⟩
  constructor
  · intro h
    unfold pyEq at h
    split at h
    · rename_i a b ha hb
      obtain ⟨q, h1, h2⟩ := hn.mp ⟨a, b, ha, hb, h⟩
      exact .number h1 h2
    · split at h
      · exact .nothing
      · rw [beq_iff_eq] at h; subst h; exact .bytes
      · rw [beq_iff_eq] at h; subst h; exact .text
      · cases h
  · intro h
    cases h with
    | nothing => rfl
    | bytes => simp [pyEq, Val.num?]
    | text => simp [pyEq, Val.num?]
    | number h1 h2 =>
      obtain ⟨a, b, ha, hb, h⟩ := hn.mpr ⟨_, h1, h2⟩
      unfold pyEq
      rw [ha, hb]
      exact h

/-- Python equality of literals. -/
theorem litEq_iff (v l : Lit) : litEq v l = true ↔ Alike v l := by
  have hn : (∃ a b, v.num? = some a ∧ l.num? = some b ∧ a.eq b = true) ↔ ∃ q, LitCounts v q ∧ LitCounts l q := by
    simp only [lit_number]
    constructor
    · rintro ⟨a, b, ha, hb, h⟩
      obtain ⟨q, h1, h2⟩ := (num_eq_iff a b).mp h
      exact ⟨q, by rw [ha]; exact h1, by rw [hb]; exact h2⟩
    · rintro ⟨q, h1, h2⟩
      obtain ⟨a, ha, h1⟩ := Option.bind_eq_some_iff.mp h1
      obtain ⟨b, hb, h2⟩ := Option.bind_eq_some_iff.mp h2
      exact ⟨a, b, ha, hb, (num_eq_iff a b).mpr ⟨q, h1, h2⟩⟩
  constructor
  · intro h
    unfold litEq at h
    split at h
    · rename_i a b ha hb
      obtain ⟨q, h1, h2⟩ := hn.mp ⟨a, b, ha, hb, h⟩
      exact .number h1 h2
    · split at h
      · exact .nothing
      · rw [beq_iff_eq] at h; subst h; exact .bytes
      · rw [beq_iff_eq] at h; subst h; exact .text
      · rw [beq_iff_eq] at h; subst h; exact .other
      · cases h
  · intro h
    cases h with
    | nothing => rfl
    | bytes => simp [litEq, Lit.num?]
    | text => simp [litEq, Lit.num?]
    | other => simp [litEq, Lit.num?]
    | number h1 h2 =>
      obtain ⟨a, b, ha, hb, h⟩ := hn.mpr ⟨_, h1, h2⟩
      unfold litEq
      rw [ha, hb]
      exact h

theorem pyEq_ff_iff (v : Val) (l : Lit) : pyEq v l = false ↔ ¬ Equals v l := by
  rw [← pyEq_iff]; simp

theorem litEq_ff_iff (v l : Lit) : litEq v l = false ↔ ¬ Alike v l := by
  rw [← litEq_iff]; simp

end Dtf
