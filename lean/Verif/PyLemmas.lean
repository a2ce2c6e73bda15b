import Verif.Py
/-! Facts about Python equality. -/
namespace Dtf

theorem int_mul_pow_cancel {a b : Int} {k : Nat} (h : a * 2 ^ k = b * 2 ^ k) : a = b :=
  Int.eq_of_mul_eq_mul_right (Int.ne_of_gt (Int.pow_pos (by decide))) h

theorem Num.eq_symm {a b : Num} (h : a.eq b = true) : b.eq a = true := by
  cases a <;> cases b <;> simp_all [Num.eq, floatEq]
  obtain ⟨h1, h2⟩ := h
  rw [← h2]; exact h1

theorem Num.eq_trans {a b c : Num} (h1 : a.eq b = true) (h2 : b.eq c = true) : a.eq c = true := by
  generalize hk : 1074 = k
  cases a <;> cases b <;> cases c <;>
    simp_all only [Num.eq, floatEq, floatEqInt, beq_iff_eq, decide_eq_true_eq, Bool.and_eq_true,
      FVal.fin.injEq] <;> first
    | exact int_mul_pow_cancel ‹_›
    | exact int_mul_pow_cancel (Eq.symm ‹_›)
    | simp_all

theorem litEq_symm {a b : Lit} (h : litEq a b = true) : litEq b a = true := by
  unfold litEq at *
  cases a <;> cases b <;> simp_all [Lit.num?] <;> exact Num.eq_symm h

theorem litEq_trans {a b c : Lit} (h1 : litEq a b = true) (h2 : litEq b c = true) :
    litEq a c = true := by
  unfold litEq at *
  cases a <;> cases b <;> cases c <;> simp_all [Lit.num?] <;> exact Num.eq_trans h1 h2

/-- `value == a` and `value == b` make the literals equal. -/
theorem litEq_of_pyEq {v : Val} {a b : Lit} (h1 : pyEq v a = true) (h2 : pyEq v b = true) :
    litEq a b = true := by
  unfold pyEq litEq at *
  cases v <;> cases a <;> cases b <;> simp_all [Lit.num?, Val.num?] <;>
    first
      | exact Num.eq_trans (Num.eq_symm h1) h2
      | skip
  apply String.toList_inj.mp
  exact List.map_inj_right (fun a b h => Char.ext (UInt32.toNat_inj.mp h)) |>.mp h2

end Dtf
