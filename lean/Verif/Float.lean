import Verif.RoundTrip
/-!
# The floating-point conversions of CPython

What `struct` does for the codes `f` and `d` on the platforms CPython runs on: IEEE 754
conversions between single and double precision, on bit patterns. The model takes these
as parameters of `Env`; this file gives them a definition, and proves what the
properties about floating-point maps need.
-/
namespace Dtf

/-- A NaN fraction field of `bits` bits made quiet: its highest bit is set. -/
def quiet (bits f : Nat) : Nat := if f < 2 ^ (bits - 1) then f + 2 ^ (bits - 1) else f

/-- `(double)` of a C `float`: `PyFloat_Unpack4` as called by `struct.unpack`
(data_maps.py:129-143 is where the code calls `struct`). NaNs are made quiet and keep
their payload, as the processors do; CPython does not promise more. -/
def widen (u : Nat) : Nat :=
  u / 2 ^ 31 % 2 * 2 ^ 63 +
    if u / 2 ^ 23 % 256 = 255 then
      2047 * 2 ^ 52 + (if u % 2 ^ 23 = 0 then 0 else quiet 23 (u % 2 ^ 23) * 2 ^ 29)
    else if u / 2 ^ 23 % 256 = 0 then
      if u % 2 ^ 23 = 0 then 0
      else
        ((u % 2 ^ 23).log2 + 874) * 2 ^ 52 +
          (u % 2 ^ 23 - 2 ^ (u % 2 ^ 23).log2) * 2 ^ (52 - (u % 2 ^ 23).log2)
    else (u / 2 ^ 23 % 256 + 896) * 2 ^ 52 + u % 2 ^ 23 * 2 ^ 29

/-- `m / 2 ^ d` rounded to the nearest integer, a half to the even one. -/
def roundEven (m d : Nat) : Nat :=
  if 2 ^ d < 2 * (m % 2 ^ d) ∨ 2 ^ d = 2 * (m % 2 ^ d) ∧ m / 2 ^ d % 2 = 1 then m / 2 ^ d + 1
  else m / 2 ^ d

/-- The bits of the magnitude of the single nearest to a finite double with exponent field
`e` and fraction field `f`. -/
def narrowMag (e f : Nat) : Nat :=
  roundEven (if e = 0 then f else 2 ^ 52 + f) (if 897 ≤ e then 29 else 926 - max e 1) +
    (e - 897) * 2 ^ 23

/-- `(float)` of a C `double`: `PyFloat_Pack4` as called by `struct.pack`. `none` is the
`OverflowError` for a finite number that becomes infinite. -/
def narrow (x : Nat) : Option Nat :=
  if fExp x = 2047 then
    some (x / 2 ^ 63 % 2 * 2 ^ 31 + 255 * 2 ^ 23 +
      (if x % 2 ^ 52 = 0 then 0 else quiet 23 (x % 2 ^ 52 / 2 ^ 29)))
  else if narrowMag (fExp x) (x % 2 ^ 52) < 255 * 2 ^ 23 then
    some (x / 2 ^ 63 % 2 * 2 ^ 31 + narrowMag (fExp x) (x % 2 ^ 52))
  else none

/-- The environment converts floating-point numbers as CPython does. -/
structure Ieee (E : Env) : Prop where
  wide : E.f32to64 = widen
  thin : E.f64to32 = narrow

namespace Spec

/-- The magnitude of a finite single in units of `2 ^ -149`, from its bits without the
sign. -/
def singleUnits (p : Nat) : Nat :=
  if p / 2 ^ 23 = 0 then p else (2 ^ 23 + p % 2 ^ 23) * 2 ^ (p / 2 ^ 23 - 1)

/-- The value 32 bits denote (IEEE 754 binary32), finite ones in units of `2 ^ -1074`
like those of doubles. -/
def singleVal (u : Nat) : FVal :=
  let negative : Bool := u / 2 ^ 31 % 2 = 1
  if u / 2 ^ 23 % 256 = 255 then
    if u % 2 ^ 23 = 0 then .inf negative else .nan
  else
    .fin ((if negative then -1 else 1) * (singleUnits (u % 2 ^ 31) * 2 ^ 925 : Nat))

end Spec
open Spec

/-! ### Single to double is exact -/

theorem log2_bounds {n : Nat} (h : n ≠ 0) : 2 ^ n.log2 ≤ n ∧ n < 2 ^ (n.log2 + 1) :=
  ⟨Nat.log2_self_le h, Nat.lt_log2_self⟩

theorem sub_pow_split {f k : Nat} (hk : k ≤ 52) (h : 2 ^ k ≤ f) :
    2 ^ 52 + (f - 2 ^ k) * 2 ^ (52 - k) = f * 2 ^ (52 - k) := by
  have : 2 ^ 52 = 2 ^ k * 2 ^ (52 - k) := by rw [← Nat.pow_add]; congr 1; omega
  rw [this, ← Nat.add_mul]
  congr 1
  omega

/-- The fields of a pattern put together from a sign, an exponent and a fraction. -/
theorem fields64 {s e f : Nat} (hs : s < 2) (he : e < 2048) (hf : f < 2 ^ 52) :
    (s * 2 ^ 63 + (e * 2 ^ 52 + f)) / 2 ^ 63 % 2 = s ∧ fExp (s * 2 ^ 63 + (e * 2 ^ 52 + f)) = e ∧
      (s * 2 ^ 63 + (e * 2 ^ 52 + f)) % 2 ^ 52 = f := by
  unfold fExp
  omega

theorem fVal_fields {s e f : Nat} (hs : s < 2) (he : e < 2048) (hf : f < 2 ^ 52) :
    fVal (s * 2 ^ 63 + (e * 2 ^ 52 + f)) =
      if e = 2047 then if f = 0 then .inf (decide (s = 1)) else .nan
      else .fin ((if s = 1 then -1 else 1) *
        ((if e = 0 then f else (2 ^ 52 + f) * 2 ^ (e - 1) : Nat) : Int)) := by
  obtain ⟨h1, h2, h3⟩ := fields64 hs he hf
  unfold fVal
  rw [h1, h2, h3]
  by_cases hs1 : s = 1 <;> simp [hs1]

/-- The three fields of a widened pattern. -/
theorem widen_fields (u : Nat) (hn : ¬ (u / 2 ^ 23 % 256 = 255 ∧ u % 2 ^ 23 ≠ 0)) :
    ∃ e f, e < 2048 ∧ f < 2 ^ 52 ∧ widen u = u / 2 ^ 31 % 2 * 2 ^ 63 + (e * 2 ^ 52 + f) ∧
      ((u / 2 ^ 23 % 256 = 255 ∧ e = 2047 ∧ f = 0) ∨
       (u / 2 ^ 23 % 256 ≠ 255 ∧ u % 2 ^ 31 = 0 ∧ e = 0 ∧ f = 0) ∨
       (u / 2 ^ 23 % 256 = 0 ∧ u % 2 ^ 23 ≠ 0 ∧ e = (u % 2 ^ 23).log2 + 874 ∧ (u % 2 ^ 23).log2 < 23 ∧
          2 ^ 52 + f = (u % 2 ^ 23) * 2 ^ (52 - (u % 2 ^ 23).log2)) ∨
       (u / 2 ^ 23 % 256 ≠ 0 ∧ u / 2 ^ 23 % 256 < 255 ∧ e = u / 2 ^ 23 % 256 + 896 ∧
          f = u % 2 ^ 23 * 2 ^ 29)) := by
  unfold widen
  by_cases h255 : u / 2 ^ 23 % 256 = 255
  · have h0 : u % 2 ^ 23 = 0 := Classical.byContradiction fun h => hn ⟨h255, h⟩
    refine ⟨2047, 0, by omega, by omega, ?_, Or.inl ⟨h255, rfl, rfl⟩⟩
    rw [if_pos h255, if_pos h0]
  · rw [if_neg h255]
    by_cases he : u / 2 ^ 23 % 256 = 0
    · rw [if_pos he]
      by_cases hf : u % 2 ^ 23 = 0
      · rw [if_pos hf]
        exact ⟨0, 0, by omega, by omega, by omega, Or.inr (Or.inl ⟨h255, by omega, rfl, rfl⟩)⟩
      · rw [if_neg hf]
        obtain ⟨h1, h2⟩ := log2_bounds hf
        have hl : (u % 2 ^ 23).log2 < 23 := (Nat.log2_lt hf).mpr (by omega)
        have hs := sub_pow_split (by omega : (u % 2 ^ 23).log2 ≤ 52) h1
        have hlt : u % 2 ^ 23 * 2 ^ (52 - (u % 2 ^ 23).log2) < 2 ^ 53 := by
          calc u % 2 ^ 23 * 2 ^ (52 - (u % 2 ^ 23).log2)
              < 2 ^ ((u % 2 ^ 23).log2 + 1) * 2 ^ (52 - (u % 2 ^ 23).log2) :=
                Nat.mul_lt_mul_of_pos_right h2 (Nat.two_pow_pos _)
            _ = 2 ^ 53 := by rw [← Nat.pow_add]; congr 1; omega
        refine ⟨(u % 2 ^ 23).log2 + 874, (u % 2 ^ 23 - 2 ^ (u % 2 ^ 23).log2) * 2 ^ (52 - (u % 2 ^ 23).log2),
          by omega, ?_, ?_, ?_⟩
        · generalize (u % 2 ^ 23 - 2 ^ (u % 2 ^ 23).log2) * 2 ^ (52 - (u % 2 ^ 23).log2) = x at hs ⊢
          omega
        · rfl
        · exact Or.inr (Or.inr (Or.inl ⟨he, hf, rfl, hl, hs⟩))
    · rw [if_neg he]
      exact ⟨u / 2 ^ 23 % 256 + 896, u % 2 ^ 23 * 2 ^ 29, by omega, by omega, by omega,
        Or.inr (Or.inr (Or.inr ⟨he, by omega, rfl, rfl⟩))⟩

theorem singleUnits_fields (u : Nat) : singleUnits (u % 2 ^ 31) =
    if u / 2 ^ 23 % 256 = 0 then u % 2 ^ 23
    else (2 ^ 23 + u % 2 ^ 23) * 2 ^ (u / 2 ^ 23 % 256 - 1) := by
  unfold singleUnits
  have h1 : u % 2 ^ 31 / 2 ^ 23 = u / 2 ^ 23 % 256 := by omega
  have h2 : u % 2 ^ 31 % 2 ^ 23 = u % 2 ^ 23 := by omega
  rw [h1, h2]
  split <;> omega

/-- A single converted to double has the same value. -/
theorem fVal_widen (u : Nat) : fVal (widen u) = singleVal u := by
  have hs : u / 2 ^ 31 % 2 < 2 := by omega
  by_cases hn : u / 2 ^ 23 % 256 = 255 ∧ u % 2 ^ 23 ≠ 0
  · obtain ⟨h1, h2⟩ := hn
    have hq : quiet 23 (u % 2 ^ 23) ≠ 0 ∧ quiet 23 (u % 2 ^ 23) < 2 ^ 23 := by
      unfold quiet; split <;> omega
    have : widen u = u / 2 ^ 31 % 2 * 2 ^ 63 + (2047 * 2 ^ 52 + quiet 23 (u % 2 ^ 23) * 2 ^ 29) := by
      unfold widen
      rw [if_pos h1, if_neg h2]
    rw [this, fVal_fields hs (by omega) (by omega), if_pos rfl, if_neg (by omega)]
    unfold singleVal
    simp only [h1, h2, if_true, if_false]
  · obtain ⟨e, f, he, hf, hw, h⟩ := widen_fields u hn
    rw [hw, fVal_fields hs he hf]
    unfold singleVal
    rw [singleUnits_fields]
    rcases h with ⟨h1, rfl, rfl⟩ | ⟨h1, h2, rfl, rfl⟩ | ⟨h1, h2, rfl, hl, h3⟩ | ⟨h1, h2, rfl, rfl⟩
    · have h0 : u % 2 ^ 23 = 0 := Classical.byContradiction fun h => hn ⟨h1, h⟩
      rw [if_pos rfl, if_pos rfl, if_pos h1, if_pos h0]
    · have h3 : u / 2 ^ 23 % 256 = 0 := by omega
      have h4 : u % 2 ^ 23 = 0 := by omega
      rw [if_neg (by omega), if_neg h1, if_pos h3, h4, if_pos rfl]
      simp
    · have h4 : ¬ (u % 2 ^ 23).log2 + 874 = 2047 := by omega
      have h5 : ¬ (u % 2 ^ 23).log2 + 874 = 0 := by omega
      have h6 : ¬ u / 2 ^ 23 % 256 = 255 := by omega
      rw [if_neg h4, if_neg h6, if_pos h1, if_neg h5, h3]
      have h7 : 52 - (u % 2 ^ 23).log2 + ((u % 2 ^ 23).log2 + 874 - 1) = 925 := by omega
      rw [Nat.mul_assoc, ← Nat.pow_add, h7]
      simp only [decide_eq_true_eq]
    · have h4 : ¬ u / 2 ^ 23 % 256 + 896 = 2047 := by omega
      have h5 : ¬ u / 2 ^ 23 % 256 + 896 = 0 := by omega
      have h6 : ¬ u / 2 ^ 23 % 256 = 255 := by omega
      rw [if_neg h4, if_neg h6, if_neg h1, if_neg h5]
      have : 2 ^ 52 + u % 2 ^ 23 * 2 ^ 29 = (2 ^ 23 + u % 2 ^ 23) * 2 ^ 29 := by omega
      have h7 : 29 + (u / 2 ^ 23 % 256 + 896 - 1) = u / 2 ^ 23 % 256 - 1 + 925 := by omega
      rw [this, Nat.mul_assoc, Nat.mul_assoc, ← Nat.pow_add, ← Nat.pow_add, h7]
      simp only [decide_eq_true_eq]

/-! ### Rounding -/

/-- Rounding a multiple of the unit gives it back. -/
theorem roundEven_exact (q d : Nat) : roundEven (q * 2 ^ d) d = q := by
  unfold roundEven
  have h := Nat.two_pow_pos d
  rw [Nat.mul_mod_left, Nat.mul_div_cancel _ h, if_neg (by omega)]

/-- The rounded number is within half a unit. -/
theorem roundEven_half (m d : Nat) :
    2 * m ≤ 2 * (roundEven m d * 2 ^ d) + 2 ^ d ∧ 2 * (roundEven m d * 2 ^ d) ≤ 2 * m + 2 ^ d := by
  unfold roundEven
  have h := Nat.div_add_mod m (2 ^ d)
  have hlt := Nat.mod_lt m (Nat.two_pow_pos d)
  rw [Nat.mul_comm] at h
  generalize m / 2 ^ d = q at h ⊢
  generalize m % 2 ^ d = r at h hlt ⊢
  generalize 2 ^ d = D at h hlt ⊢
  split
  · rw [Nat.add_mul]; omega
  · omega

/-- A half rounds to the even neighbour. -/
theorem roundEven_tie (m d : Nat)
    (h : 2 * m = 2 * (roundEven m d * 2 ^ d) + 2 ^ d ∨ 2 * (roundEven m d * 2 ^ d) = 2 * m + 2 ^ d) :
    roundEven m d % 2 = 0 := by
  revert h
  unfold roundEven
  have h := Nat.div_add_mod m (2 ^ d)
  have hlt := Nat.mod_lt m (Nat.two_pow_pos d)
  have hpos := Nat.two_pow_pos d
  rw [Nat.mul_comm] at h
  generalize m / 2 ^ d = q at h ⊢
  generalize m % 2 ^ d = r at h hlt ⊢
  generalize 2 ^ d = D at h hlt hpos ⊢
  split
  · rw [Nat.add_mul]; omega
  · omega

/-- No multiple of the unit is nearer than the rounded number, and when another one is as
near the rounded number is even. -/
theorem roundEven_near (m d j : Nat) :
    ((m : Int) - (roundEven m d * 2 ^ d : Nat)).natAbs ≤ ((m : Int) - (j * 2 ^ d : Nat)).natAbs ∧
    (j ≠ roundEven m d →
      ((m : Int) - (roundEven m d * 2 ^ d : Nat)).natAbs = ((m : Int) - (j * 2 ^ d : Nat)).natAbs →
      roundEven m d % 2 = 0) := by
  obtain ⟨h1, h2⟩ := roundEven_half m d
  have h3 := roundEven_tie m d
  generalize roundEven m d = r at *
  by_cases hj : j = r
  · subst hj; exact ⟨Nat.le_refl _, fun h => absurd rfl h⟩
  · have h4 : j * 2 ^ d + 2 ^ d ≤ r * 2 ^ d ∨ r * 2 ^ d + 2 ^ d ≤ j * 2 ^ d := by
      rcases Nat.lt_or_gt_of_ne hj with h | h
      · left
        have := Nat.mul_le_mul_right (2 ^ d) h
        rwa [Nat.succ_mul] at this
      · right
        have := Nat.mul_le_mul_right (2 ^ d) h
        rwa [Nat.succ_mul] at this
    generalize j * 2 ^ d = J at *
    generalize r * 2 ^ d = R at *
    generalize 2 ^ d = D at *
    refine ⟨by omega, fun _ he => h3 (by omega)⟩

theorem roundEven_le {m d q : Nat} (h : m ≤ q * 2 ^ d) : roundEven m d ≤ q := by
  apply Classical.byContradiction
  intro hn
  have h1 := (roundEven_half m d).2
  have h2 := Nat.mul_le_mul_right (2 ^ d) (by omega : q + 1 ≤ roundEven m d)
  rw [Nat.succ_mul] at h2
  have := Nat.two_pow_pos d
  omega

theorem le_roundEven {m d q : Nat} (h : q * 2 ^ d ≤ m) : q ≤ roundEven m d := by
  unfold roundEven
  have := (Nat.le_div_iff_mul_le (Nat.two_pow_pos d)).mpr h
  split <;> omega

/-! ### Double to single -/

/-- A rounded significand with its exponent, as magnitude. -/
theorem singleUnits_put {q k : Nat} (h : k = 0 ∧ q ≤ 2 ^ 23 ∨ 2 ^ 23 ≤ q ∧ q ≤ 2 ^ 24) :
    singleUnits (q + k * 2 ^ 23) = q * 2 ^ k := by
  unfold singleUnits
  by_cases h0 : (q + k * 2 ^ 23) / 2 ^ 23 = 0
  · have hk : k = 0 := by omega
    rw [if_pos h0, hk]
    omega
  · rw [if_neg h0]
    by_cases hq : q = 2 ^ 24
    · have h1 : (q + k * 2 ^ 23) / 2 ^ 23 = k + 2 := by omega
      have h2 : (q + k * 2 ^ 23) % 2 ^ 23 = 0 := by omega
      rw [h1, h2, hq]
      have h3 : k + 2 - 1 = k + 1 := by omega
      rw [h3, Nat.pow_succ 2 k]
      generalize 2 ^ k = K
      omega
    · have h1 : (q + k * 2 ^ 23) / 2 ^ 23 = k + 1 := by omega
      have h2 : (q + k * 2 ^ 23) % 2 ^ 23 = q - 2 ^ 23 := by omega
      rw [h1, h2]
      have h3 : k + 1 - 1 = k := by omega
      have h4 : 2 ^ 23 + (q - 2 ^ 23) = q := by omega
      rw [h3, h4]

/-- A single is a multiple of the unit of a binade, or below the binade. -/
theorem singleUnits_grid (p k : Nat) :
    (∃ j, singleUnits p = j * 2 ^ k) ∨ (0 < k ∧ singleUnits p < 2 ^ 23 * 2 ^ k) := by
  unfold singleUnits
  by_cases hk : k = 0
  · left
    subst hk
    exact ⟨_, (Nat.mul_one _).symm⟩
  · split
    · right
      have : 2 ^ 23 * 1 ≤ 2 ^ 23 * 2 ^ k := Nat.mul_le_mul_left _ (Nat.two_pow_pos k)
      omega
    · by_cases hp : k ≤ p / 2 ^ 23 - 1
      · left
        refine ⟨(2 ^ 23 + p % 2 ^ 23) * 2 ^ (p / 2 ^ 23 - 1 - k), ?_⟩
        have : p / 2 ^ 23 - 1 = (p / 2 ^ 23 - 1 - k) + k := by omega
        rw [Nat.mul_assoc, ← Nat.pow_add, ← this]
      · right
        refine ⟨by omega, ?_⟩
        have h1 : 2 ^ 23 + p % 2 ^ 23 < 2 ^ 24 := by omega
        calc (2 ^ 23 + p % 2 ^ 23) * 2 ^ (p / 2 ^ 23 - 1)
            < 2 ^ 24 * 2 ^ (p / 2 ^ 23 - 1) := Nat.mul_lt_mul_of_pos_right h1 (Nat.two_pow_pos _)
          _ = 2 ^ 23 * 2 ^ (p / 2 ^ 23 - 1 + 1) := by rw [← Nat.pow_add, ← Nat.pow_add]; congr 1; omega
          _ ≤ 2 ^ 23 * 2 ^ k := Nat.mul_le_mul_left _ (Nat.pow_le_pow_right (by omega) (by omega))

/-- The magnitude of a finite double in units of `2 ^ -1074`. -/
def doubleUnits (e f : Nat) : Nat := (if e = 0 then f else 2 ^ 52 + f) * 2 ^ (max e 1 - 1)

/-- How far the exponents of a double and of its single are apart. -/
theorem narrow_exps (e : Nat) :
    max e 1 - 1 + (if 897 ≤ e then 29 else 926 - max e 1) = e - 897 + 925 := by
  split <;> omega

/-- The significand of the rounded number. -/
theorem narrow_significand {e f : Nat} (hf : f < 2 ^ 52) :
    let q := roundEven (if e = 0 then f else 2 ^ 52 + f) (if 897 ≤ e then 29 else 926 - max e 1)
    e - 897 = 0 ∧ q ≤ 2 ^ 23 ∨ 2 ^ 23 ≤ q ∧ q ≤ 2 ^ 24 := by
  by_cases he : 897 ≤ e
  · right
    have h0 : ¬ e = 0 := by omega
    simp only [if_pos he, if_neg h0]
    exact ⟨le_roundEven (by omega), roundEven_le (by omega)⟩
  · left
    refine ⟨by omega, ?_⟩
    rw [if_neg he]
    apply roundEven_le
    have h1 : (if e = 0 then f else 2 ^ 52 + f) ≤ 2 ^ 23 * 2 ^ 30 := by split <;> omega
    have h2 : 2 ^ 23 * 2 ^ 30 ≤ 2 ^ 23 * 2 ^ (926 - max e 1) :=
      Nat.mul_le_mul_left _ (Nat.pow_le_pow_right (by omega) (by omega))
    exact Nat.le_trans h1 h2

theorem natAbs_scale (a b w : Nat) :
    (((a * w : Nat) : Int) - (b * w : Nat)).natAbs = ((a : Int) - b).natAbs * w := by
  rw [Int.natCast_mul, Int.natCast_mul, ← Int.sub_mul, Int.natAbs_mul, Int.natAbs_natCast]

/-- The value of the rounded magnitude, in units of the double. -/
theorem narrowMag_units {e f : Nat} (hf : f < 2 ^ 52) :
    singleUnits (narrowMag e f) * 2 ^ 925 =
      roundEven (if e = 0 then f else 2 ^ 52 + f) (if 897 ≤ e then 29 else 926 - max e 1) *
        2 ^ (if 897 ≤ e then 29 else 926 - max e 1) * 2 ^ (max e 1 - 1) := by
  unfold narrowMag
  rw [singleUnits_put (narrow_significand hf), Nat.mul_assoc, Nat.mul_assoc, ← Nat.pow_add, ← Nat.pow_add,
    Nat.add_comm _ (max e 1 - 1), narrow_exps]

/-- No single is nearer to a double than the rounded one, and when another one is as near
the rounded one is even. -/
theorem narrowMag_near {e f : Nat} (hf : f < 2 ^ 52) (p : Nat) :
    ((doubleUnits e f : Int) - (singleUnits (narrowMag e f) * 2 ^ 925 : Nat)).natAbs ≤
      ((doubleUnits e f : Int) - (singleUnits p * 2 ^ 925 : Nat)).natAbs ∧
    (singleUnits p ≠ singleUnits (narrowMag e f) →
      ((doubleUnits e f : Int) - (singleUnits (narrowMag e f) * 2 ^ 925 : Nat)).natAbs =
        ((doubleUnits e f : Int) - (singleUnits p * 2 ^ 925 : Nat)).natAbs →
      narrowMag e f % 2 = 0) := by
  have hm := narrowMag_units (e := e) hf
  have hev : roundEven (if e = 0 then f else 2 ^ 52 + f) (if 897 ≤ e then 29 else 926 - max e 1) % 2 = 0 →
      narrowMag e f % 2 = 0 := by
    unfold narrowMag; omega
  have hexp := narrow_exps e
  have hm1 : 0 < e - 897 → 2 ^ 23 * 2 ^ (if 897 ≤ e then 29 else 926 - max e 1) ≤
      (if e = 0 then f else 2 ^ 52 + f) := by
    intro h
    have h1 : 897 ≤ e := by omega
    have h2 : ¬ e = 0 := by omega
    rw [if_pos h1, if_neg h2]
    omega
  unfold doubleUnits
  have hnear := roundEven_near (if e = 0 then f else 2 ^ 52 + f) (if 897 ≤ e then 29 else 926 - max e 1)
  rw [hm]
  generalize (if e = 0 then f else 2 ^ 52 + f) = m at *
  generalize (if 897 ≤ e then 29 else 926 - max e 1) = d at *
  generalize max e 1 - 1 = w at *
  have hw := Nat.two_pow_pos w
  rcases singleUnits_grid p (e - 897) with ⟨j, hj⟩ | ⟨h0, hlt⟩
  · have hj' : singleUnits p * 2 ^ 925 = j * 2 ^ d * 2 ^ w := by
      rw [hj, Nat.mul_assoc, Nat.mul_assoc, ← Nat.pow_add, ← Nat.pow_add, Nat.add_comm d w, hexp]
    rw [hj', natAbs_scale, natAbs_scale]
    obtain ⟨n1, n2⟩ := hnear j
    refine ⟨Nat.mul_le_mul_right _ n1, fun hne heq => hev (n2 ?_ (Nat.eq_of_mul_eq_mul_right hw heq))⟩
    rintro rfl
    apply hne
    apply Nat.eq_of_mul_eq_mul_right (Nat.two_pow_pos 925)
    rw [hm, hj']
  · obtain ⟨n1, -⟩ := hnear (2 ^ 23)
    have h1 := hm1 h0
    have h2 : singleUnits p * 2 ^ 925 < 2 ^ 23 * 2 ^ d * 2 ^ w := by
      have := Nat.mul_lt_mul_of_pos_right hlt (Nat.two_pow_pos 925)
      rwa [Nat.mul_assoc, ← Nat.pow_add, ← hexp, Nat.add_comm w d, Nat.pow_add, ← Nat.mul_assoc] at this
    have h3 := Nat.mul_le_mul_right (2 ^ w) n1
    rw [← natAbs_scale, ← natAbs_scale] at h3
    have h4 := Nat.mul_le_mul_right (2 ^ w) h1
    generalize roundEven m d * 2 ^ d * 2 ^ w = B at *
    generalize m * 2 ^ w = A at *
    generalize singleUnits p * 2 ^ 925 = C at *
    generalize 2 ^ 23 * 2 ^ d * 2 ^ w = L at *
    refine ⟨by omega, fun _ _ => ?_⟩
    omega

theorem fVal_units (x : Nat) (h : fExp x ≠ 2047) :
    fVal x = .fin ((if x / 2 ^ 63 % 2 = 1 then -1 else 1) * (doubleUnits (fExp x) (x % 2 ^ 52) : Int)) := by
  unfold fVal doubleUnits
  rw [if_neg h]
  have h1 : (if fExp x = 0 then x % 2 ^ 52 else (2 ^ 52 + x % 2 ^ 52) * 2 ^ (fExp x - 1)) =
      (if fExp x = 0 then x % 2 ^ 52 else 2 ^ 52 + x % 2 ^ 52) * 2 ^ (max (fExp x) 1 - 1) := by
    by_cases h0 : fExp x = 0
    · rw [if_pos h0, if_pos h0, h0]
      simp
    · rw [if_neg h0, if_neg h0]
      have : max (fExp x) 1 = fExp x := by omega
      rw [this]
  rw [h1]
  simp only [decide_eq_true_eq]
  split
  · rw [Int.neg_mul, Int.one_mul]
  · rw [Int.one_mul]

/-- A finite double is narrowed to a single of the same sign, with the rounded magnitude. -/
theorem narrow_some {x u : Nat} (hx : fExp x ≠ 2047) (h : narrow x = some u) :
    u < 2 ^ 32 ∧ u / 2 ^ 31 % 2 = x / 2 ^ 63 % 2 ∧ u % 2 ^ 31 = narrowMag (fExp x) (x % 2 ^ 52) ∧
      u / 2 ^ 23 % 256 ≠ 255 := by
  unfold narrow at h
  rw [if_neg hx] at h
  split at h
  · have h := Option.some.inj h
    generalize narrowMag (fExp x) (x % 2 ^ 52) = r at *
    omega
  · cases h

theorem singleVal_units (u : Nat) (h : u / 2 ^ 23 % 256 ≠ 255) : singleVal u =
    .fin ((if u / 2 ^ 31 % 2 = 1 then -1 else 1) * (singleUnits (u % 2 ^ 31) * 2 ^ 925 : Nat)) := by
  unfold singleVal
  rw [if_neg h]
  simp only [decide_eq_true_eq]

theorem singleVal_fin {u : Nat} {b : Int} (h : singleVal u = .fin b) : u / 2 ^ 23 % 256 ≠ 255 := by
  intro h1
  unfold singleVal at h
  rw [if_pos h1] at h
  split at h <;> cases h

theorem fVal_fin {x : Nat} {a : Int} (h : fVal x = .fin a) : fExp x ≠ 2047 := by
  intro h1
  unfold fVal at h
  rw [if_pos h1] at h
  split at h <;> cases h

/-- The single a finite double is narrowed to: no other is nearer, and when another one is
as near its last bit is zero. -/
theorem narrow_nearest {x u : Nat} {a : Int} (hx : fVal x = .fin a) (h : narrow x = some u) :
    u < 2 ^ 32 ∧ ∃ b, singleVal u = .fin b ∧ ∀ u' b', singleVal u' = .fin b' →
      (a - b).natAbs ≤ (a - b').natAbs ∧
      (b' ≠ b → (a - b).natAbs = (a - b').natAbs → u % 2 = 0) := by
  have he := fVal_fin hx
  obtain ⟨h1, h2, h3, h4⟩ := narrow_some he h
  rw [fVal_units x he] at hx
  refine ⟨h1, _, singleVal_units u h4, ?_⟩
  intro u' b' hu'
  rw [singleVal_units u' (singleVal_fin hu')] at hu'
  have hf : x % 2 ^ 52 < 2 ^ 52 := Nat.mod_lt _ (by omega)
  obtain ⟨n1, n2⟩ := narrowMag_near (e := fExp x) hf (u' % 2 ^ 31)
  have hev : narrowMag (fExp x) (x % 2 ^ 52) % 2 = 0 → u % 2 = 0 := by omega
  have hsne : singleUnits (u' % 2 ^ 31) * 2 ^ 925 ≠ singleUnits (narrowMag (fExp x) (x % 2 ^ 52)) * 2 ^ 925 →
      singleUnits (u' % 2 ^ 31) ≠ singleUnits (narrowMag (fExp x) (x % 2 ^ 52)) := fun h h' => h (by rw [h'])
  obtain ⟨n0, -⟩ := narrowMag_near (e := fExp x) hf 0
  have hz : singleUnits 0 * 2 ^ 925 = 0 := by
    rw [show singleUnits 0 = 0 from rfl, Nat.zero_mul]
  rw [hz] at n0
  rw [h2, h3]
  generalize doubleUnits (fExp x) (x % 2 ^ 52) = A at *
  generalize singleUnits (narrowMag (fExp x) (x % 2 ^ 52)) * 2 ^ 925 = B at *
  generalize singleUnits (u' % 2 ^ 31) * 2 ^ 925 = C at *
  have hx := FVal.fin.inj hx
  have hu' := FVal.fin.inj hu'
  subst hx hu'
  by_cases s1 : x / 2 ^ 63 % 2 = 1 <;> by_cases s2 : u' / 2 ^ 31 % 2 = 1 <;>
    simp only [s1, s2, if_true, if_false] <;>
    refine ⟨by omega, fun hne heq => hev ?_⟩
  all_goals exact n2 (hsne (by omega)) (by omega)

theorem narrowMag_large {e f : Nat} (he : e < 2048) (hx : e ≠ 2047) (hf : f < 2 ^ 52) :
    255 * 2 ^ 23 ≤ narrowMag e f ↔ (2 ^ 25 - 1) * 2 ^ 1178 ≤ 2 * doubleUnits e f := by
  have hsig := narrow_significand (e := e) hf
  simp only at hsig
  unfold narrowMag doubleUnits
  rcases Nat.lt_trichotomy e 1150 with h | h | h
  · have h1 : ¬ 255 * 2 ^ 23 ≤ roundEven (if e = 0 then f else 2 ^ 52 + f)
        (if 897 ≤ e then 29 else 926 - max e 1) + (e - 897) * 2 ^ 23 := by
      generalize roundEven _ _ = q at *
      omega
    refine ⟨fun h => absurd h h1, fun h' => ?_⟩
    exfalso
    have h2 : (if e = 0 then f else 2 ^ 52 + f) < 2 ^ 53 := by split <;> omega
    have h3 : 2 ^ (max e 1 - 1) ≤ 2 ^ 1148 := Nat.pow_le_pow_right (by omega) (by omega)
    have h4 : (if e = 0 then f else 2 ^ 52 + f) * 2 ^ (max e 1 - 1) ≤ 2 ^ 53 * 2 ^ 1148 :=
      Nat.mul_le_mul (by omega) h3
    rw [show (2 : Nat) ^ 1178 = 2 ^ 30 * 2 ^ 1148 by rw [← Nat.pow_add]] at h'
    have hW := Nat.two_pow_pos 1148
    generalize (2 : Nat) ^ 1148 = W at *
    omega
  · subst h
    have h5 : ¬ 1150 = 0 := by omega
    have h6 : 897 ≤ 1150 := by omega
    rw [if_neg h5, if_pos h6] at *
    have h1 := roundEven_half (2 ^ 52 + f) 29
    have h2 := roundEven_tie (2 ^ 52 + f) 29
    have h7 : max 1150 1 - 1 = 1149 := rfl
    rw [h7, show (2 : Nat) ^ 1178 = 2 ^ 29 * 2 ^ 1149 by rw [← Nat.pow_add]]
    have hW := Nat.two_pow_pos 1149
    rw [← Nat.mul_assoc, ← Nat.mul_assoc]
    have h8 : (2 ^ 25 - 1) * 2 ^ 29 * 2 ^ 1149 ≤ 2 * (2 ^ 52 + f) * 2 ^ 1149 ↔
        (2 ^ 25 - 1) * 2 ^ 29 ≤ 2 * (2 ^ 52 + f) := Nat.mul_le_mul_right_iff hW
    rw [h8]
    generalize roundEven (2 ^ 52 + f) 29 = q at *
    omega
  · have h5 : ¬ e = 0 := by omega
    have h6 : 897 ≤ e := by omega
    rw [if_neg h5, if_pos h6] at *
    have h1 : 255 * 2 ^ 23 ≤ roundEven (2 ^ 52 + f) 29 + (e - 897) * 2 ^ 23 := by
      generalize roundEven (2 ^ 52 + f) 29 = q at *
      omega
    refine ⟨fun _ => ?_, fun _ => h1⟩
    have h3 : 2 ^ 1150 ≤ 2 ^ (max e 1 - 1) := Nat.pow_le_pow_right (by omega) (by omega)
    have h4 : 2 ^ 52 * 2 ^ 1150 ≤ (2 ^ 52 + f) * 2 ^ (max e 1 - 1) := Nat.mul_le_mul (by omega) h3
    rw [show (2 : Nat) ^ 1178 = 2 ^ 28 * 2 ^ 1150 by rw [← Nat.pow_add]]
    generalize (2 : Nat) ^ 1150 = W at *
    omega

/-- A finite double has no single exactly when its magnitude is at least half a unit above
the largest finite single. -/
theorem narrow_none (x : Nat) :
    narrow x = none ↔ ∃ a, fVal x = .fin a ∧ (2 ^ 25 - 1) * 2 ^ 1178 ≤ 2 * a.natAbs := by
  have hf : x % 2 ^ 52 < 2 ^ 52 := Nat.mod_lt _ (by omega)
  have he : fExp x < 2048 := Nat.mod_lt _ (by omega)
  by_cases hx : fExp x = 2047
  · constructor
    · intro h; unfold narrow at h; rw [if_pos hx] at h; cases h
    · rintro ⟨a, h, -⟩; exact absurd hx (fVal_fin h)
  · have hnone : narrow x = none ↔ 255 * 2 ^ 23 ≤ narrowMag (fExp x) (x % 2 ^ 52) := by
      unfold narrow
      rw [if_neg hx]
      by_cases h : narrowMag (fExp x) (x % 2 ^ 52) < 255 * 2 ^ 23
      · rw [if_pos h]
        exact ⟨(by intro h; cases h), fun h' => by omega⟩
      · rw [if_neg h]
        exact ⟨fun _ => by omega, fun _ => rfl⟩
    have habs : (∃ a, fVal x = .fin a ∧ (2 ^ 25 - 1) * 2 ^ 1178 ≤ 2 * a.natAbs) ↔
        (2 ^ 25 - 1) * 2 ^ 1178 ≤ 2 * doubleUnits (fExp x) (x % 2 ^ 52) := by
      rw [fVal_units x hx]
      generalize doubleUnits (fExp x) (x % 2 ^ 52) = A
      have hA : ((if x / 2 ^ 63 % 2 = 1 then -1 else 1) * (A : Int)).natAbs = A := by split <;> omega
      constructor
      · rintro ⟨a, h, h'⟩
        have h := FVal.fin.inj h
        rwa [← h, hA] at h'
      · intro h
        exact ⟨_, rfl, by rwa [hA]⟩
    rw [hnone, habs]
    exact narrowMag_large he hx hf

/-- Narrowing a widened single gives it back, NaNs that are not quiet aside. -/
theorem narrow_widen {u : Nat} (hu : u < 2 ^ 32) (hn : singleVal u ≠ .nan ∨ 2 ^ 22 ≤ u % 2 ^ 23) :
    narrow (widen u) = some u := by
  have hs : u / 2 ^ 31 % 2 < 2 := by omega
  by_cases hn' : u / 2 ^ 23 % 256 = 255 ∧ u % 2 ^ 23 ≠ 0
  · obtain ⟨h1, h2⟩ := hn'
    have hq : 2 ^ 22 ≤ u % 2 ^ 23 := by
      rcases hn with hn | hn
      · exact absurd (by unfold singleVal; simp only [h1, h2, if_true, if_false]) hn
      · exact hn
    have hq' : quiet 23 (u % 2 ^ 23) = u % 2 ^ 23 := by unfold quiet; rw [if_neg]; omega
    have : widen u = u / 2 ^ 31 % 2 * 2 ^ 63 + (2047 * 2 ^ 52 + u % 2 ^ 23 * 2 ^ 29) := by
      unfold widen
      rw [if_pos h1, if_neg h2, hq']
    have hf : u % 2 ^ 23 * 2 ^ 29 < 2 ^ 52 := by omega
    obtain ⟨f1, f2, f3⟩ := fields64 hs (by omega : 2047 < 2048) hf
    have h4 : u % 2 ^ 23 * 2 ^ 29 ≠ 0 := by omega
    have h5 : u % 2 ^ 23 * 2 ^ 29 / 2 ^ 29 = u % 2 ^ 23 := by omega
    unfold narrow
    rw [this, f1, f2, f3, if_pos rfl, if_neg h4, h5, hq']
    refine congrArg some ?_
    omega
  · obtain ⟨e, f, he, hf, hw, h⟩ := widen_fields u hn'
    obtain ⟨f1, f2, f3⟩ := fields64 hs he hf
    unfold narrow
    rw [hw, f1, f2, f3]
    rcases h with ⟨h1, rfl, rfl⟩ | ⟨h1, h2, rfl, rfl⟩ | ⟨h1, h2, rfl, hl, h3⟩ | ⟨h1, h2, rfl, rfl⟩
    · rw [if_pos rfl, if_pos rfl]
      refine congrArg some ?_
      omega
    · have hm : narrowMag 0 0 = 0 := by
        unfold narrowMag
        have := roundEven_exact 0 (if 897 ≤ 0 then 29 else 926 - max 0 1)
        rw [Nat.zero_mul] at this
        rw [if_pos rfl, this]
      rw [hm]
      rw [if_neg (by omega), if_pos (by omega)]
      refine congrArg some ?_
      omega
    · have hm : narrowMag ((u % 2 ^ 23).log2 + 874) f = u % 2 ^ 23 := by
        unfold narrowMag
        have e1 : ¬ (u % 2 ^ 23).log2 + 874 = 0 := by omega
        have e2 : ¬ 897 ≤ (u % 2 ^ 23).log2 + 874 := by omega
        have e3 : 926 - max ((u % 2 ^ 23).log2 + 874) 1 = 52 - (u % 2 ^ 23).log2 := by omega
        rw [if_neg e1, if_neg e2, e3, h3, roundEven_exact]
        omega
      have e4 : ¬ (u % 2 ^ 23).log2 + 874 = 2047 := by omega
      have e5 : u % 2 ^ 23 < 255 * 2 ^ 23 := by omega
      rw [hm, if_neg e4, if_pos e5]
      refine congrArg some ?_
      omega
    · have hm : narrowMag (u / 2 ^ 23 % 256 + 896) (u % 2 ^ 23 * 2 ^ 29) = u % 2 ^ 31 := by
        unfold narrowMag
        have e1 : ¬ u / 2 ^ 23 % 256 + 896 = 0 := by omega
        have e2 : 897 ≤ u / 2 ^ 23 % 256 + 896 := by omega
        have e3 : 2 ^ 52 + u % 2 ^ 23 * 2 ^ 29 = (2 ^ 23 + u % 2 ^ 23) * 2 ^ 29 := by omega
        rw [if_neg e1, if_pos e2, e3, roundEven_exact]
        omega
      have e4 : ¬ u / 2 ^ 23 % 256 + 896 = 2047 := by omega
      have e5 : u % 2 ^ 31 < 255 * 2 ^ 23 := by omega
      rw [hm, if_neg e4, if_pos e5]
      refine congrArg some ?_
      omega

theorem fVal_nofin {x : Nat} (h : ∀ a, fVal x ≠ .fin a) : fExp x = 2047 := by
  apply Classical.byContradiction
  intro hn
  exact h _ (fVal_units x hn)

/-- Infinities and NaNs stay what they are. -/
theorem narrow_special {x : Nat} (h : ∀ a, fVal x ≠ .fin a) :
    ∃ u, u < 2 ^ 32 ∧ narrow x = some u ∧ singleVal u = fVal x := by
  have hx := fVal_nofin h
  have hs : x / 2 ^ 63 % 2 < 2 := by omega
  by_cases h0 : x % 2 ^ 52 = 0
  · refine ⟨x / 2 ^ 63 % 2 * 2 ^ 31 + 255 * 2 ^ 23 + 0, by omega, ?_, ?_⟩
    · unfold narrow
      rw [if_pos hx, if_pos h0]
    · unfold singleVal fVal
      have h1 : (x / 2 ^ 63 % 2 * 2 ^ 31 + 255 * 2 ^ 23 + 0) / 2 ^ 23 % 256 = 255 := by omega
      have h2 : (x / 2 ^ 63 % 2 * 2 ^ 31 + 255 * 2 ^ 23 + 0) % 2 ^ 23 = 0 := by omega
      have h3 : (x / 2 ^ 63 % 2 * 2 ^ 31 + 255 * 2 ^ 23 + 0) / 2 ^ 31 % 2 = x / 2 ^ 63 % 2 := by omega
      rw [if_pos h1, if_pos h2, if_pos hx, if_pos h0, h3]
  · have hq : quiet 23 (x % 2 ^ 52 / 2 ^ 29) ≠ 0 ∧ quiet 23 (x % 2 ^ 52 / 2 ^ 29) < 2 ^ 23 := by
      unfold quiet; split <;> omega
    refine ⟨x / 2 ^ 63 % 2 * 2 ^ 31 + 255 * 2 ^ 23 + quiet 23 (x % 2 ^ 52 / 2 ^ 29), by omega, ?_, ?_⟩
    · unfold narrow
      rw [if_pos hx, if_neg h0]
    · unfold singleVal fVal
      generalize quiet 23 (x % 2 ^ 52 / 2 ^ 29) = q at *
      have h1 : (x / 2 ^ 63 % 2 * 2 ^ 31 + 255 * 2 ^ 23 + q) / 2 ^ 23 % 256 = 255 := by omega
      have h2 : ¬ (x / 2 ^ 63 % 2 * 2 ^ 31 + 255 * 2 ^ 23 + q) % 2 ^ 23 = 0 := by omega
      rw [if_pos h1, if_neg h2, if_pos hx, if_neg h0]

/-- With the conversions of CPython the numbers in a value without NaNs are kept. -/
theorem kept_ieee {E : Env} (hE : Ieee E) {v : Val} (h : ∀ f, FloatIn f v → fVal f ≠ .nan) : Kept E v := by
  intro f hf u hu huf
  rw [hE.wide] at huf
  subst huf
  rw [hE.thin]
  refine narrow_widen (by omega) (.inl ?_)
  rw [← fVal_widen]
  exact h _ hf

end Dtf
