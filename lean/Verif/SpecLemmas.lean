import Verif.Spec
import Verif.StructLemmas
/-! The specifications of `Verif/Spec.lean` related to the model. -/
namespace Dtf

theorem sum_map_mul (c : Nat) (l : List Nat) (f : Nat → Nat) :
    (l.map fun i => c * f i).sum = c * (l.map f).sum := by
  induction l with
  | nil => simp
  | cons a l ih => simp [ih, Nat.mul_add]

theorem number_cons (b : UInt8) (bs : Bytes) :
    Spec.number (b :: bs) = b.toNat + 256 * Spec.number bs := by
  unfold Spec.number
  rw [List.length_cons, List.range_succ_eq_map]
  simp only [List.map_cons, List.map_map, List.sum_cons, List.getD_cons_zero, Nat.pow_zero,
    Nat.mul_one]
  congr 1
  rw [← sum_map_mul]
  congr 1
  apply List.map_congr_left
  intro i _
  simp [Nat.pow_succ]
  ac_rfl

theorem number_eq (bs : Bytes) : Spec.number bs = leNat bs := by
  induction bs with
  | nil => rfl
  | cons b bs ih => rw [number_cons, ih]; rfl

theorem leastFirst_iff (E : Env) (o : Order) : Spec.LeastFirst E o ↔ E.isLittle o = true := by
  cases o <;> simp [Spec.LeastFirst, Env.isLittle]

theorem stored_eq (E : Env) (o : Order) (bs : Bytes) :
    Spec.stored E o bs = unsignedOf (E.isLittle o) bs := by
  unfold Spec.stored unsignedOf
  simp only [leastFirst_iff, number_eq]
  split <;> rfl

theorem stored_lt (E : Env) (o : Order) (bs : Bytes) : Spec.stored E o bs < 256 ^ bs.length := by
  rw [stored_eq]; exact unsignedOf_lt _ _

theorem window_length {bs : Bytes} {off n : Nat} (h : off + n ≤ bs.length) :
    (Spec.window bs off n).length = n := by
  simp [Spec.window]; omega

theorem window_append (pre b suf : Bytes) : Spec.window (pre ++ b ++ suf) pre.length b.length = b := by
  simp [Spec.window]

theorem window_append' (pre b suf : Bytes) (n : Nat) (h : b.length = n) :
    Spec.window (pre ++ b ++ suf) pre.length n = b := by
  subst h; exact window_append pre b suf

end Dtf
