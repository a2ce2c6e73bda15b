import Verif.Layout
/-!
The elements of sequences: what a successful mapping of a sequence means for its
elements, for the composite and the linear path.
-/
namespace Dtf

/-- `vs` are the results of a step repeated from position `p` on, ending at `e`. -/
inductive Elems (step : Nat → PRes) : Nat → List Val → Nat → Prop
  | nil (p : Nat) : Elems step p [] p
  | cons {p k e : Nat} {v : Val} {vs : List Val} (h : step p = .ok (v, k))
      (t : Elems step (p + k) vs e) : Elems step p (v :: vs) e

theorem Elems.mono {step : Nat → PRes} {p e : Nat} {vs : List Val} (h : Elems step p vs e) : p ≤ e := by
  induction h with
  | nil => exact Nat.le_refl _
  | cons _ _ ih => omega

/-- How the loop over elements ends. -/
def EndsOk (num dataSize : Option Int) (term : Option Lit) (index used : Nat) (last : Val) (vs : List Val)
    (u : Nat) : Prop :=
  (∀ n, num = some n → (index + vs.length : Int) = n) ∧
  (∀ t, term = some t →
    (pyEq (vs.getLastD last) t = true ∨ atDataSize dataSize u = true) ∧
    ∀ v ∈ vs.dropLast, pyEq v t = false) ∧
  (∀ n, dataSize = some n → vs.length ≠ 0 → (used : Int) < n)

theorem seqEnd_ok {num dataSize : Option Int} {term : Option Lit} {index used u : Nat} {last : Val}
    {vs : List Val} (h : seqEnd num dataSize term index used last = .ok (vs, u)) :
    vs = [] ∧ u = used ∧ EndsOk num dataSize term index used last [] u := by
  unfold seqEnd at h
  split at h
  · cases h
  rename_i hn
  have hnum : ∀ n, num = some n → (index + ([] : List Val).length : Int) = n := by
    rintro n rfl
    simp [atNumber] at hn
    simpa using hn
  cases term with
  | none =>
    simp only [Bool.false_eq_true, if_false] at h
    cases h
    exact ⟨rfl, rfl, hnum, by simp, by simp⟩
  | some t =>
    simp only at h
    split at h
    · cases h
    rename_i ht
    cases h
    refine ⟨rfl, rfl, hnum, ?_, by simp⟩
    rintro t' ⟨⟩
    simp only [Bool.and_eq_true, Bool.not_eq_true', not_and, Bool.not_eq_false] at ht
    refine ⟨?_, by simp⟩
    simp only [List.getLastD_nil]
    cases hp : pyEq last t
    · exact .inr (ht hp)
    · exact .inl rfl

theorem seqParse_elems (step : Nat → PRes) (len : Nat) (num dataSize : Option Int) (term : Option Lit)
    (fuel off used index : Nat) (last : Val) (vs : List Val) (u : Nat)
    (h : seqParse step len num dataSize term fuel off used index last = .ok (vs, u)) :
    (∃ e, Elems step off vs e ∧ e + used = off + u) ∧
      EndsOk num dataSize term index used last vs u := by
  induction fuel generalizing off used index last vs u with
  | zero => simp [seqParse] at h
  | succ fuel ih =>
    rw [seqParse] at h
    split at h
    · obtain ⟨rfl, rfl, he⟩ := seqEnd_ok h
      exact ⟨⟨off, .nil _, rfl⟩, he⟩
    rename_i hg
    simp only [Bool.or_eq_true, decide_eq_true_eq, not_or, Bool.not_eq_true] at hg
    have hds : ∀ n, dataSize = some n → (used : Int) < n := by
      rintro n rfl
      have := hg.2
      simp [atDataSize] at this
      omega
    rcases hst : step off with e | ⟨v, n⟩
    · rw [hst] at h; cases h
    rw [hst] at h
    simp only at h
    split at h
    · cases h
    rename_i vs' u' hr
    cases h
    split at hr
    · rename_i hterm
      obtain ⟨rfl, rfl, h1, h2, -⟩ := seqEnd_ok hr
      refine ⟨⟨off + n, .cons hst (.nil _), by omega⟩, ?_, ?_, fun n hn _ => hds n hn⟩
      · intro n hn
        have := h1 n hn
        simp at this ⊢
        omega
      · intro t ht
        refine ⟨.inl ?_, by simp⟩
        simpa [atTerm, ht] using hterm
    · rename_i hterm
      obtain ⟨⟨e, he, hu⟩, h1, h2, -⟩ := ih _ _ _ _ _ _ hr
      refine ⟨⟨e, .cons hst he, by omega⟩, ?_, ?_, fun n hn _ => hds n hn⟩
      · intro n hn
        have := h1 n hn
        simp at this ⊢
        omega
      · intro t ht
        obtain ⟨h3, h4⟩ := h2 t ht
        have hv : pyEq v t = false := by simpa [atTerm, ht] using hterm
        cases vs' with
        | nil => exact ⟨by simpa using h3, by simp⟩
        | cons w ws =>
          refine ⟨?_, ?_⟩
          · simpa [List.getLast?_cons] using h3
          · intro x hx
            rw [List.dropLast_cons_of_ne_nil (by simp), List.mem_cons] at hx
            rcases hx with rfl | hx
            · exact hv
            · exact h4 x hx

/-- Elements of a fixed size can be read by the loop. -/
theorem seqParse_of_elems (step : Nat → PRes) (len es : Nat) (hes : 0 < es)
    (hstep : ∀ p v k, step p = .ok (v, k) → k = es ∧ p + es ≤ len)
    (num : Int) (dataSize : Option Int) (hds : ∀ n, dataSize = some n → n = num * es)
    (fuel off used index : Nat) (last : Val) (vs : List Val) (e : Nat)
    (h : Elems step off vs e) (hnum : (index + vs.length : Int) = num) (hu : used = index * es)
    (hf : vs.length < fuel) :
    seqParse step len (some num) dataSize none fuel off used index last = .ok (vs, used + (e - off)) := by
  induction h generalizing fuel used index last with
  | nil p =>
    cases fuel with
    | zero => omega
    | succ fuel =>
      have : atNumber (some num) index = true := by simp [atNumber]; simpa using hnum
      rw [seqParse, this]
      simp [seqEnd, this]
  | @cons p k e v vs hst t ih =>
    obtain ⟨rfl, hl⟩ := hstep _ _ _ hst
    cases fuel with
    | zero => omega
    | succ fuel =>
      have hlt : (index : Int) < num := by simp at hnum; omega
      have h1 : atNumber (some num) index = false := by simp [atNumber]; omega
      have h2 : atDataSize dataSize used = false := by
        cases dataSize with
        | none => rfl
        | some n =>
          have := hds n rfl
          subst this
          simp only [atDataSize, decide_eq_false_iff_not, Int.not_le]
          rw [hu]
          have : (index : Int) * k < num * k := Int.mul_lt_mul_of_pos_right hlt (by omega)
          simpa using this
      have h3 : ¬ len ≤ p := by omega
      rw [seqParse]
      simp only [h3, decide_false, h1, h2, Bool.or_self, Bool.false_eq_true, if_false, hst, atTerm]
      rw [ih fuel (used + k) (index + 1) v (by simp at hnum ⊢; omega) (by rw [hu, Nat.add_mul]; omega)
        (by simp at hf; omega)]
      simp only
      have := t.mono
      rw [show used + k + (e - (p + k)) = used + (e - p) by omega]

/-! ### The linear path -/

/-- Reading one primitive value. -/
theorem primParse_iff {E : Env} {h : Hdr} {k : PrimKind} {s : Size} {u : String} {c : Code}
    (hc : primCode k s = some c) (hs : fixedByteSize s u = some (c.size : Int)) (bs : Bytes) (p : Nat)
    (v : Val) (n : Nat) :
    primParse E h k s u bs p = .ok (v, n) ↔
      n = c.size ∧ p + c.size ≤ bs.length ∧
        mapValue k (unpackOne E h.order c ((bs.drop p).take c.size)) = some v := by
  have hcs : 0 < c.size := by cases c <;> simp [Code.size]
  unfold primParse primRead
  simp only [hs, hc]
  by_cases hts : tooSmall bs p (c.size : Int) = true
  · rw [if_pos hts]
    simp [tooSmall] at hts
    simp
    intro _ h; omega
  · rw [if_neg hts]
    simp [tooSmall] at hts
    have hl : ¬ (bs.drop p).length < c.size := by simp; omega
    rw [if_neg hl]
    cases mapValue k (unpackOne E h.order c ((bs.drop p).take c.size)) with
    | none => simp
    | some x =>
      simp only [Except.ok.injEq, Prod.mk.injEq, Int.toNat_natCast, Option.some.injEq]
      constructor
      · rintro ⟨rfl, rfl⟩; exact ⟨rfl, by omega, rfl⟩
      · rintro ⟨rfl, -, rfl⟩; exact ⟨rfl, rfl⟩

theorem linear_elems {E : Env} {h : Hdr} {k : PrimKind} {s : Size} {u : String} {c : Code}
    (hc : primCode k s = some c) (hs : fixedByteSize s u = some (c.size : Int)) (bs : Bytes) (p n : Nat)
    (xs : List Val) (e : Nat) :
    (p + n * c.size ≤ bs.length ∨ n = 0) ∧ e = p + n * c.size ∧
      mapValues k (unpackAll E h.order (List.replicate n c) (bs.drop p)) = .ok xs ↔
    Elems (fun p => primParse E h k s u bs p) p xs e ∧ xs.length = n := by
  induction n generalizing p xs with
  | zero =>
    simp only [Nat.zero_mul, Nat.add_zero, or_true, true_and, List.replicate_zero, unpackAll, mapValues,
      Except.ok.injEq]
    constructor
    · rintro ⟨rfl, rfl⟩; exact ⟨.nil _, rfl⟩
    · rintro ⟨h1, h2⟩
      have : xs = [] := List.length_eq_zero_iff.mp h2
      subst this
      cases h1
      exact ⟨rfl, rfl⟩
  | succ n ih =>
    simp only [List.replicate_succ, unpackAll, mapValues, List.drop_drop, Nat.add_one_ne_zero, or_false]
    have hmul : (n + 1) * c.size = n * c.size + c.size := Nat.succ_mul _ _
    constructor
    · rintro ⟨h1, h2, h3⟩
      split at h3
      · cases h3
      rename_i x hx
      split at h3
      · cases h3
      rename_i ys hys
      cases h3
      obtain ⟨h4, h5⟩ := (ih (p + c.size) ys).mp ⟨.inl (by omega), by omega, hys⟩
      refine ⟨.cons ((primParse_iff hc hs bs p x c.size).mpr ⟨rfl, by omega, hx⟩) h4, by simp [h5]⟩
    · rintro ⟨h1, h2⟩
      cases h1 with
      | nil => simp at h2
      | @cons _ k' _ v vs hst t =>
        obtain ⟨rfl, h3, h4⟩ := (primParse_iff hc hs bs p v k').mp hst
        obtain ⟨h5, h6, h7⟩ := (ih (p + c.size) vs).mpr ⟨t, by simpa using h2⟩
        refine ⟨?_, by omega, ?_⟩
        · rcases h5 with h5 | rfl
          · omega
          · simpa using h3
        · rw [h4]
          simp only
          rw [h7]

end Dtf
