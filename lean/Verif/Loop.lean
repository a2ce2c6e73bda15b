import Verif.Refine
/-!
The loops of the model have a fuel argument. This file proves that the fuel used
is enough: with more fuel the result is the same, so `Err.diverge` is only
reported for a loop that never ends.
-/
namespace Dtf

/-- The iterations left: one per remaining byte and one per remaining element. -/
def seqBound (len off : Nat) (num : Option Int) (index : Nat) : Nat :=
  len - off + (num.getD 0 - index).toNat

/-- A loop whose element takes no bytes and does not end it never ends. -/
theorem seqParse_stuck (step : Nat → PRes) (len : Nat) (num dataSize : Option Int)
    (term : Option Lit) (off used : Nat) (v : Val) (hs : step off = .ok (v, 0))
    (hl : ¬ len ≤ off) (hd : atDataSize dataSize used = false) (ht : atTerm term v = false)
    (fuel index : Nat) (last : Val) (hn : ∀ i, index ≤ i → atNumber num i = false) :
    seqParse step len num dataSize term fuel off used index last = .error .diverge := by
  induction fuel generalizing index last with
  | zero => rfl
  | succ fuel ih =>
    rw [seqParse]
    simp only [hl, decide_false, hn index (Nat.le_refl _), hd, Bool.or_false, Bool.false_eq_true,
      if_false, hs, ht, Nat.add_zero]
    rw [ih (index + 1) v (fun i hi => hn i (by omega))]

theorem seqParse_fuel (step : Nat → PRes) (len : Nat) (num dataSize : Option Int)
    (term : Option Lit) (fuel fuel' off used index : Nat) (last : Val)
    (h : seqBound len off num index < fuel) (h' : seqBound len off num index < fuel') :
    seqParse step len num dataSize term fuel off used index last =
      seqParse step len num dataSize term fuel' off used index last := by
  induction fuel generalizing fuel' off used index last with
  | zero => omega
  | succ fuel ih =>
    cases fuel' with
    | zero => omega
    | succ fuel' =>
      rw [seqParse, seqParse]
      split
      · rfl
      rename_i hex
      simp only [Bool.or_eq_true, decide_eq_true_eq, not_or, Bool.not_eq_true] at hex
      cases hst : step off with
      | error e => rfl
      | ok r =>
        obtain ⟨v, n⟩ := r
        simp only
        cases ht : atTerm term v
        · simp only [Bool.false_eq_true, if_false]
          -- the next iteration has a smaller bound, or the loop is stuck
          by_cases hb : seqBound len (off + n) num (index + 1) < seqBound len off num index
          · rw [ih fuel' (off + n) (used + n) (index + 1) v (by omega) (by omega)]
          · have hn0 : n = 0 := by
              unfold seqBound at hb
              omega
            subst hn0
            have hnum : ∀ i, index + 1 ≤ i → atNumber num i = false := by
              intro i hi
              unfold atNumber
              split
              · rename_i k
                simp only [seqBound, Option.getD_some] at hb
                simp only [beq_eq_false_iff_ne]
                omega
              · rfl
            have hst' : step (off + 0) = .ok (v, 0) := by rw [Nat.add_zero]; exact hst
            rw [seqParse_stuck step len num dataSize term (off + 0) (used + 0) v hst'
              hex.1.1 hex.2 ht fuel (index + 1) v hnum]
            rw [seqParse_stuck step len num dataSize term (off + 0) (used + 0) v hst'
              hex.1.1 hex.2 ht fuel' (index + 1) v hnum]
        · rfl

/-- The fuel given to the loop is enough. -/
theorem seqParse_adequate (step : Nat → PRes) (len : Nat) (num dataSize : Option Int)
    (term : Option Lit) (off used : Nat) (last : Val) (fuel : Nat)
    (h : seqFuel len off num 0 ≤ fuel) :
    seqParse step len num dataSize term (seqFuel len off num 0) off used 0 last =
      seqParse step len num dataSize term fuel off used 0 last := by
  apply seqParse_fuel
  · unfold seqBound seqFuel; omega
  · unfold seqBound; unfold seqFuel at h; omega

/-- The terminator search ends within the given fuel when elements have a size. -/
theorem scanTerm_fuel (bs : Bytes) (es : Nat) (t : Lit) (hes : 0 < es) (fuel fuel' cur next : Nat)
    (h : bs.length - cur + 1 ≤ fuel) (h' : bs.length - cur + 1 ≤ fuel') (hcn : cur < next) :
    scanTerm bs es t fuel cur next = scanTerm bs es t fuel' cur next := by
  induction fuel generalizing fuel' cur next with
  | zero => omega
  | succ fuel ih =>
    cases fuel' with
    | zero => omega
    | succ fuel' =>
      rw [scanTerm, scanTerm]
      split
      · split
        · rfl
        · exact ih fuel' next (next + es) (by omega) (by omega) (by omega)
      · rfl

/-- The terminator search does not run out of fuel when elements have a size. -/
theorem scanTerm_no_diverge (bs : Bytes) (es : Nat) (t : Lit) (hes : 0 < es) (fuel cur next : Nat)
    (h : bs.length - cur + 1 ≤ fuel) (hcn : cur < next) :
    scanTerm bs es t fuel cur next ≠ .diverge := by
  induction fuel generalizing cur next with
  | zero => omega
  | succ fuel ih =>
    rw [scanTerm]
    split
    · split
      · simp
      · exact ih next (next + es) (by omega) (by omega)
    · split <;> simp

/-- With elements of size zero the search ends at once or never. -/
theorem scanTerm_zero (bs : Bytes) (t : Lit) (fuel fuel' : Nat) (h : 0 < fuel) (h' : 0 < fuel') :
    scanTerm bs 0 t fuel 0 0 = scanTerm bs 0 t fuel' 0 0 := by
  have key : ∀ fuel, 0 < fuel → scanTerm bs 0 t fuel 0 0 =
      if 0 < bs.length then (if isTerm [] t then .found 0 else .diverge)
      else if isTerm [] t then .emptyMatch else .notFound 0 := by
    intro fuel
    induction fuel with
    | zero => omega
    | succ fuel ih =>
      intro _
      rw [scanTerm]
      simp only [slice, List.drop_zero, Nat.sub_self, List.take_zero, Nat.add_zero]
      split
      · rename_i hl
        split
        · rfl
        · rename_i ht
          cases fuel with
          | zero => rfl
          | succ fuel => rw [ih (by omega), if_pos hl, if_neg ht]
      · rfl
  rw [key fuel h, key fuel' h']

/-- The search for the end of a string does not depend on extra fuel. -/
theorem cutOffset_fuel (bs t : Bytes) (ht : t ≠ []) (fuel fuel' off : Nat)
    (h : bs.length - off ≤ fuel) (h' : bs.length - off ≤ fuel') :
    cutOffset bs t fuel off = cutOffset bs t fuel' off := by
  have hl : 0 < t.length := List.length_pos_iff.mpr ht
  induction fuel generalizing fuel' off with
  | zero =>
    cases fuel' with
    | zero => rfl
    | succ fuel' => rw [cutOffset, cutOffset, if_neg (by omega)]
  | succ fuel ih =>
    cases fuel' with
    | zero => rw [cutOffset, cutOffset, if_neg (by omega)]
    | succ fuel' =>
      rw [cutOffset, cutOffset]
      split
      · split
        · rfl
        · exact ih fuel' (off + t.length) (by omega) (by omega)
      · rfl

end Dtf
