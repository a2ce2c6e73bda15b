import Verif.Props.SequenceLinear
/-!
# Property C85: sequences whose elements can be read are read
-/
namespace Dtf

namespace Spec

/-- `vs` are the values the map `em` gives when called repeatedly, each time where the
previous value ended, from position `p` to position `e`, every value beginning before
position `stop`. -/
inductive Readable (E : Env) (em : DMap) (bs : Bytes) (depth stop : Nat) : Nat → List Val → Nat → Prop
  | nil (p : Nat) : Readable E em bs depth stop p [] p
  | cons {p k e : Nat} {v : Val} {vs : List Val} (hp : p < stop)
      (hv : (mapStream E em bs p depth {}).1 = .ok v)
      (hk : (mapStream E em bs p depth {}).2.byteSize = some k)
      (t : Readable E em bs depth stop (p + k) vs e) : Readable E em bs depth stop p (v :: vs) e

end Spec
open Spec

/-! ### The loop over elements -/

/-- Steps from position `off` on, each beginning within the stream and before `used` bytes
reach the data size. -/
inductive Reads (step : Nat → PRes) (len : Nat) (ds : Option Int) : Nat → Nat → List Val → Nat → Prop
  | nil (off used : Nat) : Reads step len ds off used [] off
  | cons {off used k e : Nat} {v : Val} {vs : List Val} (hp : off < len) (hd : atDataSize ds used = false)
      (h : step off = .ok (v, k)) (t : Reads step len ds (off + k) (used + k) vs e) : Reads step len ds off used (v :: vs) e

theorem Reads.mono {step : Nat → PRes} {len : Nat} {ds : Option Int} {off used e : Nat} {vs : List Val}
    (h : Reads step len ds off used vs e) : off ≤ e := by
  induction h with
  | nil => exact Nat.le_refl _
  | cons _ _ _ _ ih => omega

theorem reads_of_seqParse (step : Nat → PRes) (len : Nat) (num dataSize : Option Int) (term : Option Lit)
    (fuel off used index : Nat) (last : Val) (vs : List Val) (u : Nat)
    (h : seqParse step len num dataSize term fuel off used index last = .ok (vs, u)) :
    (∃ e, Reads step len dataSize off used vs e ∧ e + used = off + u) ∧
      (vs = [] → len ≤ off ∨ atNumber num index = true ∨ atDataSize dataSize used = true) := by
  induction fuel generalizing off used index last vs u with
  | zero => simp [seqParse] at h
  | succ fuel ih =>
    rw [seqParse] at h
    split at h
    · rename_i hg
      obtain ⟨rfl, rfl, -⟩ := seqEnd_ok h
      refine ⟨⟨off, .nil _ _, rfl⟩, fun _ => ?_⟩
      simpa only [Bool.or_eq_true, decide_eq_true_eq, or_assoc] using hg
    rename_i hg
    simp only [Bool.or_eq_true, decide_eq_true_eq, not_or, Bool.not_eq_true] at hg
    rcases hst : step off with e | ⟨v, n⟩
    · rw [hst] at h; cases h
    rw [hst] at h
    simp only at h
    split at h
    · cases h
    rename_i vs' u' hr
    cases h
    refine ⟨?_, by simp⟩
    split at hr
    · obtain ⟨rfl, rfl, -⟩ := seqEnd_ok hr
      exact ⟨off + n, .cons (by omega) hg.2 hst (.nil _ _), by omega⟩
    · obtain ⟨⟨e, he, hu⟩, -⟩ := ih _ _ _ _ _ _ hr
      exact ⟨e, .cons (by omega) hg.2 hst he, by omega⟩

theorem seqEnd_of {num dataSize : Option Int} {term : Option Lit} {index used : Nat} {last : Val}
    (h : EndsOk num dataSize term index used last [] used) : seqEnd num dataSize term index used last = .ok ([], used) := by
  obtain ⟨h1, h2, -⟩ := h
  unfold seqEnd
  rw [if_neg]
  · rw [if_neg]
    cases term with
    | none => simp
    | some t =>
      have := (h2 t rfl).1
      simp only [List.getLastD_nil] at this
      simp only [Bool.and_eq_true, Bool.not_eq_true', not_and, Bool.not_eq_false]
      intro hf
      rw [hf] at this
      simpa using this
  · cases num with
    | none => simp
    | some n => have := h1 n rfl; simp [atNumber]; simpa using this

theorem seqParse_of_reads (step : Nat → PRes) (len : Nat) (num dataSize : Option Int) (term : Option Lit)
    (hr : num.isSome ∨ term.isSome) (fuel off used index : Nat) (last : Val) (vs : List Val) (e : Nat)
    (h : Reads step len dataSize off used vs e)
    (he : EndsOk num dataSize term index used last vs (used + (e - off)))
    (h0 : vs = [] → len ≤ off ∨ atNumber num index = true ∨ atDataSize dataSize used = true)
    (hf : vs.length < fuel) :
    seqParse step len num dataSize term fuel off used index last = .ok (vs, used + (e - off)) := by
  induction h generalizing fuel index last with
  | nil off used =>
    cases fuel with
    | zero => omega
    | succ fuel =>
      rw [seqParse, if_pos (by rcases h0 rfl with h | h | h <;> simp [h])]
      rw [Nat.sub_self] at he ⊢
      exact seqEnd_of he
  | @cons off used k e v vs hp hd hst t ih =>
    cases fuel with
    | zero => omega
    | succ fuel =>
      have hmono := t.mono
      obtain ⟨he1, he2, he3⟩ := he
      have hn : atNumber num index = false := by
        cases num with
        | none => rfl
        | some n =>
          have := he1 n rfl
          simp only [List.length_cons] at this
          simp [atNumber]
          omega
      have hu : used + (e - off) = used + k + (e - (off + k)) := by omega
      rw [seqParse]
      simp only [show ¬ len ≤ off by omega, decide_false, hn, hd, Bool.or_self, Bool.false_eq_true, if_false, hst]
      by_cases ht : atTerm term v = true
      · rw [if_pos ht]
        -- no element follows one equal to the terminator
        have hvs : vs = [] := by
          cases term with
          | none => simp [atTerm] at ht
          | some lit =>
            cases vs with
            | nil => rfl
            | cons w ws =>
              have := (he2 lit rfl).2 v (by rw [List.dropLast_cons_of_ne_nil (by simp)]; simp)
              simp [atTerm, this] at ht
        subst hvs
        cases t
        rw [show off + k - off = k by omega]
        have : seqEnd num dataSize term (index + 1) (used + k) v = .ok ([], used + k) := by
          refine seqEnd_of ⟨fun n hn => ?_, fun t htt => ⟨.inl ?_, by simp⟩, by simp⟩
          · have := he1 n hn; simp at this ⊢; omega
          · simpa [atTerm, htt] using ht
        rw [this]
      · rw [if_neg ht]
        have hends : EndsOk num dataSize term (index + 1) (used + k) v vs (used + k + (e - (off + k))) := by
          refine ⟨fun n hn => ?_, fun t htt => ?_, ?_⟩
          · have := he1 n hn; simp at this ⊢; omega
          · obtain ⟨h1, h2⟩ := he2 t htt
            rw [hu] at h1
            cases vs with
            | nil => exact ⟨by simpa using h1, by simp⟩
            | cons w ws =>
              refine ⟨by simpa [List.getLast?_cons] using h1, fun x hx => h2 x ?_⟩
              rw [List.dropLast_cons_of_ne_nil (by simp)]
              exact List.mem_cons_of_mem _ hx
          · intro n hn hne
            cases t with
            | nil => simp at hne
            | cons _ hd' _ _ =>
              rw [hn] at hd'
              simp [atDataSize] at hd'
              omega
        rw [ih fuel (index + 1) v hends ?_ (by simp at hf; omega)]
        · simp only; rw [hu]
        · rintro rfl
          cases t
          rw [show off + k - off = k by omega] at he2
          cases num with
          | some n =>
            refine .inr (.inl ?_)
            have := he1 n rfl
            simp at this
            simp [atNumber]
            omega
          | none =>
            cases term with
            | none => simp at hr
            | some t =>
              refine .inr (.inr ?_)
              rcases (he2 t rfl).1 with h1 | h1
              · simp [atTerm] at ht
                simp [ht] at h1
              · exact h1

/-- Where a step takes no bytes the loop stays. -/
theorem reads_stuck {step : Nat → PRes} {len : Nat} {ds : Option Int} {off used e : Nat} {vs : List Val}
    (h : Reads step len ds off used vs e) {v : Val} (hs : step off = .ok (v, 0)) : e = off ∧ ∀ x ∈ vs, x = v := by
  induction h with
  | nil => simp
  | cons _ _ h _ ih =>
    rw [hs] at h
    cases h
    obtain ⟨h1, h2⟩ := ih hs
    exact ⟨by omega, by simpa using h2⟩

theorem getLastD_all {vs : List Val} {v last : Val} (h : ∀ x ∈ vs, x = v) : (v :: vs).getLastD last = v := by
  induction vs generalizing last with
  | nil => rfl
  | cons w ws ih =>
    obtain rfl := h w (by simp)
    rw [List.getLastD_cons]
    exact ih fun x hx => h x (List.mem_cons_of_mem _ hx)

/-- Elements before a terminator, or a data size, are no more than the bytes. -/
theorem reads_length {step : Nat → PRes} {len : Nat} {ds : Option Int} {t : Lit} {off used e : Nat} {vs : List Val}
    {last : Val} (h : Reads step len ds off used vs e)
    (he : pyEq (vs.getLastD last) t = true ∨ atDataSize ds (used + (e - off)) = true)
    (hn : ∀ v ∈ vs.dropLast, pyEq v t = false) : vs.length ≤ len - off + 1 := by
  induction h generalizing last with
  | nil => simp
  | @cons off used k e v vs hp hd hst tl ih =>
    have hmono := tl.mono
    cases vs with
    | nil => simp
    | cons w ws =>
      have hk : k ≠ 0 := by
        rintro rfl
        obtain ⟨h1, h2⟩ := reads_stuck tl hst
        rcases he with he | he
        · have hv := hn v (by rw [List.dropLast_cons_of_ne_nil (by simp)]; simp)
          have hl : (v :: w :: ws).getLastD last = v := getLastD_all (by simpa using h2)
          rw [hl, hv] at he
          cases he
        · rw [show used + (e - off) = used by omega, hd] at he
          cases he
      have := ih (last := v) (by
        rw [show used + k + (e - (off + k)) = used + (e - off) by omega]
        rwa [List.getLastD_cons] at he) (fun x hx => hn x (by rw [List.dropLast_cons_of_ne_nil (by simp)]; exact List.mem_cons_of_mem _ hx))
      simp only [List.length_cons] at this ⊢
      omega

theorem seqRules_some {E : Env} {info : SeqInfo} {ei : ElemInfo} {ns : Namespace} {ds : Option Int} {term : Option Lit}
    {num : Option Int} (h : (seqRules E info ei ns).1 = .ok (ds, term, num)) : num.isSome ∨ term.isSome := by
  unfold seqRules at h
  simp only at h
  split at h
  · cases h
  · rename_i hne
    cases term with
    | some t => exact .inr rfl
    | none =>
      cases num with
      | some n => exact .inl rfl
      | none => exact (hne ds _ (Prod.ext h rfl)).elim

/-- When the elements of a sequence are read one by one. -/
theorem compositeSeqParse_iff {E : Env} {info : SeqInfo} {ei : ElemInfo} {step : Nat → PRes} {len off depth : Nat}
    {ns : Namespace} {v : Val} {n : Nat} (hd : depth ≤ 10) :
    compositeSeqParse E info ei step len off depth ns = .ok (v, n) ↔
      ∃ ds term num vs, (seqRules E info ei ns).1 = .ok (ds, term, num) ∧ v = .tuple vs ∧
        Reads step len ds off 0 vs (off + n) ∧ EndsOk num ds term 0 0 .pyNone vs n ∧
        (vs = [] → len ≤ off ∨ atNumber num 0 = true ∨ atDataSize ds 0 = true) := by
  unfold compositeSeqParse
  rw [if_neg (by omega)]
  constructor
  · intro h
    split at h
    · cases h
    rename_i ds term num hr
    split at h
    · cases h
    rename_i vs u hs
    cases h
    obtain ⟨⟨e, h1, h2⟩, h3⟩ := reads_of_seqParse _ _ _ _ _ _ _ _ _ _ _ _ hs
    obtain ⟨-, h4⟩ := seqParse_elems _ _ _ _ _ _ _ _ _ _ _ _ hs
    obtain rfl : e = off + n := by omega
    exact ⟨ds, term, num, vs, hr, rfl, h1, h4, h3⟩
  · rintro ⟨ds, term, num, vs, hr, rfl, h1, h2, h3⟩
    have hs := seqRules_some hr
    rw [hr]
    simp only
    have hu : 0 + (off + n - off) = n := by omega
    have hlen : vs.length < seqFuel len off num 0 := by
      unfold seqFuel
      cases num with
      | some k =>
        have := h2.1 k rfl
        simp only [Option.getD_some]
        omega
      | none =>
        cases term with
        | none => simp at hs
        | some t =>
          have := reads_length (last := .pyNone) h1 (by rw [hu]; exact (h2.2.1 t rfl).1) (h2.2.1 t rfl).2
          omega
    rw [seqParse_of_reads step len num ds term hs _ off 0 0 .pyNone vs _ h1 (by rw [hu]; exact h2) h3 hlen, hu]

/-- Both ways of reading a sequence, as the one. -/
theorem seq_parse_iff {E : Env} {nm : String} {o : Order} {h : Hdr} {info : SeqInfo} {e : Defn} {m : DMap}
    (hk : info.kind = .sequence) (hm : createAs E nm o (.seq h info e) = .ok m)
    (hmem : ∀ h i c t v, e ≠ .member h i c t v)
    (hdvd : ∀ ds es, info.dataSize = some ds → e.byteSize = some es → es ∣ ds)
    (hone : info.dataSize = none ∨ info.numElements = none)
    (bs : Bytes) (off depth : Nat) (hdepth : depth ≤ 10) (ns : Namespace) :
    ∃ en em, (e.isComposite = true → en = e.name) ∧ createAs E en (elementOrder o e) e = .ok em ∧ ∀ v n,
      (parse E m bs off depth ns = .ok (v, n) ↔
        compositeSeqParse E info ⟨e.byteSize, e.isComposite, e.terminator?⟩
          (fun p => parse E em bs p (depth + 1) []) bs.length off depth ns = .ok (v, n)) := by
  have hm0 := hm
  obtain ⟨en, eo, em, hen, he, ⟨eo', heo, heq⟩, rfl, -⟩ := createAs_seq_named hm
  refine ⟨en, em, hen, ?_, fun v n => ?_⟩
  · rw [elementOrder_eq heo, ← heq]
    exact he
  · cases hlin : seqLinear info ⟨e.byteSize, e.isComposite, e.terminator?⟩ with
    | true =>
      obtain ⟨hd, bsz, em', hme, -, hiff⟩ := linear_seq_iff hk hm0 hmem hlin hdvd hone bs off depth hdepth ns v n
      cases hme
      exact hiff
    | false => simp only [parse, hk, hlin, Bool.false_eq_true, if_false]

/-- Where elements have to begin before. -/
def stopAt (len off : Nat) : Option Nat → Nat
  | none => len
  | some n => min len (off + n)

theorem readable_iff {E : Env} {em : DMap} {bs : Bytes} {depth len : Nat} {ds : Option Nat} {off used e : Nat} {vs : List Val} :
    Reads (fun p => parse E em bs p depth []) len (ds.map Int.ofNat) (off + used) used vs e ↔
      Readable E em bs depth (stopAt len off ds) (off + used) vs e := by
  have hstop : ∀ p used, p = off + used → ((p < len ∧ atDataSize (ds.map Int.ofNat) used = false) ↔
      p < (stopAt len off ds)) := by
    intro p used hp
    cases ds with
    | none => simp [atDataSize, stopAt]
    | some n =>
      simp only [Option.map_some, atDataSize, stopAt, decide_eq_false_iff_not]
      constructor
      · rintro ⟨h1, h2⟩; have : ¬ (n : Int) ≤ used := h2; omega
      · intro h; exact ⟨by omega, fun h2 => by have : (n : Int) ≤ used := h2; omega⟩
  have key : ∀ p used vs e, p = off + used →
      (Reads (fun p => parse E em bs p depth []) len (ds.map Int.ofNat) p used vs e ↔
        Readable E em bs depth (stopAt len off ds) p vs e) := by
    intro p used vs e hp
    constructor
    · intro h
      induction h with
      | nil => exact .nil _
      | cons h1 h2 h3 _ ih =>
        have := mapStream_of_parse (c := {}) (Ctx.clean_fresh []) h3
        exact .cons ((hstop _ _ hp).1 ⟨h1, h2⟩) this.1 this.2 (ih (by omega))
    · intro h
      induction h generalizing used with
      | nil => exact .nil _ _
      | @cons p k e v vs h1 hv hk _ ih =>
        obtain ⟨n, hpp, hb⟩ := mapStream_ok (c := {}) (Ctx.clean_fresh []) hv
        rw [hk] at hb; cases hb
        have := (hstop p used hp).2 h1
        exact .cons this.1 this.2 hpp (ih (used + k) (by omega))
  exact key _ _ _ _ rfl

/-! ### C85 -/

theorem mapped_iff {E : Env} {m : DMap} {bs : Bytes} {off depth : Nat} {c : Ctx} (hc : c.Clean) {v : Val} {n : Nat} :
    ((mapStream E m bs off depth c).1 = .ok v ∧ (mapStream E m bs off depth c).2.byteSize = some n) ↔
      parse E m bs off depth c.values = .ok (v, n) := by
  constructor
  · rintro ⟨h1, h2⟩
    obtain ⟨k, hk, hb⟩ := mapStream_ok hc h1
    rw [h2] at hb; cases hb; exact hk
  · exact mapStream_of_parse hc

/-- **C85** A sequence with `k` elements maps to exactly the `k` values its element type gives
when mapped `k` times in a row, each time within the byte stream, and takes the bytes these
take. -/
theorem C85_number (E : Env) (nm : String) (o : Order) (h : Hdr) (info : SeqInfo)
    (hk : info.kind = .sequence) (e : Defn) (m : DMap)
    (hm : createAs E nm o (.seq h info e) = .ok m) (hmem : ∀ h i c t v, e ≠ .member h i c t v)
    (bs : Bytes) (off depth : Nat) (hd : depth ≤ 10) (c : Ctx) (hc : c.Clean)
    (h1 : info.dataSize = none) (h2 : info.dataSizeExpr = none) (h3 : info.terminator = none)
    (k : Nat) (hn : Amounts E info.numElements info.numElementsExpr c.values k) :
    ∃ en em, (e.isComposite = true → en = e.name) ∧ createAs E en (elementOrder o e) e = .ok em ∧ ∀ v n,
      ((mapStream E m bs off depth c).1 = .ok v ∧ (mapStream E m bs off depth c).2.byteSize = some n) ↔
        ∃ vs, v = .tuple vs ∧ vs.length = k ∧ Readable E em bs (depth + 1) bs.length off vs (off + n) := by
  obtain ⟨en, em, hen, hem, hiff⟩ := seq_parse_iff hk hm hmem (by simp [h1]) (.inl h1) bs off depth hd c.values
  refine ⟨en, em, hen, hem, fun v n => ?_⟩
  obtain ⟨hev, hhas⟩ := evalNum_amounts hk hn
  have hnd : info.hasDataSize = false := by simp [SeqInfo.hasDataSize, h1, h2]
  have hr : (seqRules E info ⟨e.byteSize, e.isComposite, e.terminator?⟩ c.values).1 = .ok (none, none, some (k : Int)) := by
    simp only [seqRules, countable, hnd, Bool.false_eq_true, if_false, h3, Option.isSome_none, hhas, if_true, hev]
  have hR : ∀ vs, Reads (fun p => parse E em bs p (depth + 1) []) bs.length none off 0 vs (off + n) ↔
      Readable E em bs (depth + 1) bs.length off vs (off + n) :=
    fun vs => readable_iff (ds := none) (used := 0)
  rw [mapped_iff hc, hiff, compositeSeqParse_iff hd]
  constructor
  · rintro ⟨ds, term, num, vs, hr', rfl, h4, h5, -⟩
    rw [hr] at hr'
    cases hr'
    have := h5.1 k rfl
    exact ⟨vs, rfl, by omega, (hR vs).1 h4⟩
  · rintro ⟨vs, rfl, rfl, h4⟩
    refine ⟨none, none, _, vs, hr, rfl, (hR vs).2 h4, ⟨by simp, by simp, by simp⟩, ?_⟩
    rintro rfl
    exact .inr (.inl rfl)

/-- **C85** A sequence with a terminator and no data size maps to exactly the values its element
type gives when mapped repeatedly, each time within the byte stream, up to and including the
first one equal to the terminator. -/
theorem C85_terminator (E : Env) (nm : String) (o : Order) (h : Hdr) (info : SeqInfo)
    (hk : info.kind = .sequence) (e : Defn) (m : DMap)
    (hm : createAs E nm o (.seq h info e) = .ok m) (hmem : ∀ h i c t v, e ≠ .member h i c t v)
    (bs : Bytes) (off depth : Nat) (hd : depth ≤ 10) (c : Ctx) (hc : c.Clean)
    (h1 : info.dataSize = none) (h2 : info.dataSizeExpr = none) (t : Lit)
    (ht : info.terminator = some t) (hnull : t ≠ .null) :
    ∃ en em, (e.isComposite = true → en = e.name) ∧ createAs E en (elementOrder o e) e = .ok em ∧ ∀ v n,
      ((mapStream E m bs off depth c).1 = .ok v ∧ (mapStream E m bs off depth c).2.byteSize = some n) ↔
        ∃ vs x, v = .tuple (vs ++ [x]) ∧ Equals x t ∧ (∀ y ∈ vs, ¬ Equals y t) ∧
          Readable E em bs (depth + 1) bs.length off (vs ++ [x]) (off + n) := by
  simp only [← pyEq_iff, Bool.not_eq_true]
  obtain ⟨en, em, hen, hem, hiff⟩ := seq_parse_iff hk hm hmem (by simp [h1]) (.inl h1) bs off depth hd c.values
  refine ⟨en, em, hen, hem, fun v n => ?_⟩
  have hnd : info.hasDataSize = false := by simp [SeqInfo.hasDataSize, h1, h2]
  have hr : (seqRules E info ⟨e.byteSize, e.isComposite, e.terminator?⟩ c.values).1 = .ok (none, some t, none) := by
    simp only [seqRules, hnd, Bool.false_eq_true, if_false, ht, Option.isSome_some, if_true]
  have hR : ∀ vs, Reads (fun p => parse E em bs p (depth + 1) []) bs.length none off 0 vs (off + n) ↔
      Readable E em bs (depth + 1) bs.length off vs (off + n) :=
    fun vs => readable_iff (ds := none) (used := 0)
  rw [mapped_iff hc, hiff, compositeSeqParse_iff hd]
  constructor
  · rintro ⟨ds, term, num, vs, hr', rfl, h4, ⟨-, h5, -⟩, -⟩
    rw [hr] at hr'
    cases hr'
    obtain ⟨h6, h7⟩ := h5 t rfl
    rcases List.eq_nil_or_concat vs with rfl | ⟨init, x, rfl⟩
    · exfalso
      simp [atDataSize] at h6
      cases t <;> simp_all [pyEq, Val.num?, Lit.num?]
    · refine ⟨init, x, by simp, ?_, ?_, ?_⟩
      · simpa [atDataSize] using h6
      · simpa using h7
      · have := (hR _).1 h4; simpa using this
  · rintro ⟨vs, x, rfl, h4, h5, h6⟩
    refine ⟨none, some t, none, vs ++ [x], hr, rfl, (hR _).2 h6, ⟨by simp, ?_, by simp⟩, by simp⟩
    rintro t' ⟨⟩
    exact ⟨.inl (by simpa using h4), by simpa using h5⟩

/-- **C85** A sequence of elements of `es` bytes with a data size `ds` maps to exactly the
values its element type gives when mapped as many times in a row as fit into `ds` bytes, each
time within the byte stream and the `ds` bytes. -/
theorem C85_data_size (E : Env) (nm : String) (o : Order) (h : Hdr) (info : SeqInfo)
    (hk : info.kind = .sequence) (e : Defn) (m : DMap)
    (hm : createAs E nm o (.seq h info e) = .ok m) (hmem : ∀ h i c t v, e ≠ .member h i c t v)
    (bs : Bytes) (off depth : Nat) (hd : depth ≤ 10) (c : Ctx) (hc : c.Clean)
    (ds es : Nat) (hds : Amounts E info.dataSize info.dataSizeExpr c.values ds)
    (hes : e.byteSize = some (es : Int)) (hpos : 0 < es)
    (hdvd : info.dataSize ≠ none → es ∣ ds ∧ info.numElements = none) :
    ∃ en em, (e.isComposite = true → en = e.name) ∧ createAs E en (elementOrder o e) e = .ok em ∧ ∀ v n,
      ((mapStream E m bs off depth c).1 = .ok v ∧ (mapStream E m bs off depth c).2.byteSize = some n) ↔
        ∃ vs, v = .tuple vs ∧ vs.length = ds / es ∧
          Readable E em bs (depth + 1) (min bs.length (off + ds)) off vs (off + n) := by
  obtain ⟨hev, hhas⟩ := evalData_amounts hk hds
  have hconst : ∀ x, info.dataSize = some x → x = ds := by
    intro x hx
    obtain ⟨-, ⟨h4, -⟩ | ⟨h4, -⟩⟩ := hds
    · rw [h4] at hx; exact (Option.some.inj hx).symm
    · rw [h4] at hx; cases hx
  obtain ⟨en, em, hen, hem, hiff⟩ := seq_parse_iff hk hm hmem (by
      intro x y hx hy
      rw [hes] at hy
      cases hy
      rw [hconst x hx]
      exact Int.ofNat_dvd.2 (hdvd (by rw [hx]; simp)).1)
    (by
      cases hx : info.dataSize with
      | none => exact .inl rfl
      | some x => exact .inr (hdvd (by rw [hx]; simp)).2) bs off depth hd c.values
  refine ⟨en, em, hen, hem, fun v n => ?_⟩
  have hr : (seqRules E info ⟨e.byteSize, e.isComposite, e.terminator?⟩ c.values).1 =
      .ok (some (ds : Int), none, some ((ds / es : Nat) : Int)) := by
    simp only [seqRules, hhas, if_true, hev, hes, if_neg (show ¬ (es : Int) = 0 by omega)]
    rw [Int.fdiv_eq_ediv_of_nonneg _ (by omega)]
    rfl
  have hR : ∀ vs, Reads (fun p => parse E em bs p (depth + 1) []) bs.length (some (ds : Int)) off 0 vs (off + n) ↔
      Readable E em bs (depth + 1) (min bs.length (off + ds)) off vs (off + n) :=
    fun vs => readable_iff (ds := some ds) (used := 0)
  rw [mapped_iff hc, hiff, compositeSeqParse_iff hd]
  constructor
  · rintro ⟨ds', term, num, vs, hr', rfl, h4, h5, -⟩
    rw [hr] at hr'
    cases hr'
    have := h5.1 _ rfl
    exact ⟨vs, rfl, by omega, (hR vs).1 h4⟩
  · rintro ⟨vs, rfl, hl, h4⟩
    have h4 := (hR vs).2 h4
    refine ⟨_, none, _, vs, hr, rfl, h4, ⟨?_, by simp, ?_⟩, ?_⟩
    · rintro x ⟨⟩
      simp [hl]
    · rintro x ⟨⟩ hne
      generalize off + n = q at h4
      cases h4 with
      | nil => simp at hne
      | cons _ h5 => simp [atDataSize] at h5; omega
    · rintro rfl
      refine .inr (.inl ?_)
      simp [atNumber, ← hl]

/-- **C85** A sequence with a data size `ds` of elements of no fixed size that end with a
terminator maps to exactly the values its element type gives when mapped repeatedly, each time
within the byte stream and the `ds` bytes, up to the first one that equals the terminator or
ends behind the `ds` bytes. -/
theorem C85_variable (E : Env) (nm : String) (o : Order) (h : Hdr) (info : SeqInfo)
    (hk : info.kind = .sequence) (e : Defn) (m : DMap)
    (hm : createAs E nm o (.seq h info e) = .ok m) (hmem : ∀ h i c t v, e ≠ .member h i c t v)
    (bs : Bytes) (off depth : Nat) (hd : depth ≤ 10) (c : Ctx) (hc : c.Clean)
    (ds : Nat) (hds : Amounts E info.dataSize info.dataSizeExpr c.values ds)
    (hes : e.byteSize = none) (t : Lit) (ht : e.terminator? = some (some t)) (hnull : t ≠ .null)
    (hone : info.dataSize ≠ none → info.numElements = none) :
    ∃ en em, (e.isComposite = true → en = e.name) ∧ createAs E en (elementOrder o e) e = .ok em ∧ ∀ v n,
      ((mapStream E m bs off depth c).1 = .ok v ∧ (mapStream E m bs off depth c).2.byteSize = some n) ↔
        (v = .tuple [] ∧ ds = 0 ∧ n = 0) ∨
        ∃ vs x, v = .tuple (vs ++ [x]) ∧ (Equals x t ∨ ds ≤ n) ∧ (∀ y ∈ vs, ¬ Equals y t) ∧
          Readable E em bs (depth + 1) (min bs.length (off + ds)) off (vs ++ [x]) (off + n) := by
  simp only [← pyEq_iff, Bool.not_eq_true]
  obtain ⟨hev, hhas⟩ := evalData_amounts hk hds
  obtain ⟨en, em, hen, hem, hiff⟩ := seq_parse_iff hk hm hmem (by simp [hes])
    (by
      cases hx : info.dataSize with
      | none => exact .inl rfl
      | some x => exact .inr (hone (by rw [hx]; simp))) bs off depth hd c.values
  refine ⟨en, em, hen, hem, fun v n => ?_⟩
  have hr : (seqRules E info ⟨e.byteSize, e.isComposite, e.terminator?⟩ c.values).1 =
      .ok (some (ds : Int), some t, none) := by
    simp only [seqRules, hhas, if_true, hev, hes, ht]
  have hR : ∀ vs, Reads (fun p => parse E em bs p (depth + 1) []) bs.length (some (ds : Int)) off 0 vs (off + n) ↔
      Readable E em bs (depth + 1) (min bs.length (off + ds)) off vs (off + n) :=
    fun vs => readable_iff (ds := some ds) (used := 0)
  rw [mapped_iff hc, hiff, compositeSeqParse_iff hd]
  constructor
  · rintro ⟨ds', term, num, vs, hr', rfl, h4, ⟨-, h5, -⟩, -⟩
    rw [hr] at hr'
    cases hr'
    obtain ⟨h6, h7⟩ := h5 t rfl
    rcases List.eq_nil_or_concat vs with rfl | ⟨init, x, rfl⟩
    · have hp : pyEq .pyNone t = false := by cases t <;> simp_all [pyEq, Val.num?, Lit.num?]
      generalize hq : off + n = q at h4
      cases h4
      simp [hp, atDataSize] at h6
      exact .inl ⟨rfl, by omega, by omega⟩
    · refine .inr ⟨init, x, by simp, ?_, ?_, ?_⟩
      · simpa [atDataSize] using h6
      · simpa using h7
      · have := (hR _).1 h4; simpa using this
  · rintro (⟨rfl, rfl, rfl⟩ | ⟨vs, x, rfl, h4, h5, h6⟩)
    · exact ⟨_, _, none, [], hr, rfl, .nil _ _, ⟨by simp, by simp [atDataSize], by simp⟩, fun _ => .inr (.inr (by simp [atDataSize]))⟩
    · have h6 := (hR _).2 h6
      refine ⟨_, some t, none, vs ++ [x], hr, rfl, h6, ⟨by simp, ?_, ?_⟩, by simp⟩
      · rintro t' ⟨⟩
        exact ⟨by simpa [atDataSize] using h4, by simpa using h5⟩
      · rintro y ⟨⟩ hne
        generalize vs ++ [x] = ws at h6 hne
        generalize off + n = q at h6
        cases h6 with
        | nil => simp at hne
        | cons _ h7 => simp [atDataSize] at h7; omega

/-- An environment in which `0` is zero. -/
def exHollowEnv : Env := { exEnv with evalExpr := fun s _ => if s = "0" then some (.int 0) else none }

/-- **C85** Why elements have to begin within the byte stream: behind the last byte an empty
element can be mapped, two of them in a row too, the sequence of two of them cannot. -/
theorem C85_behind :
    ∃ (E : Env) (h : Hdr) (info : SeqInfo) (e : Defn) (m em : DMap) (bs : Bytes) (off : Nat),
      info.kind = .sequence ∧ info.numElements = some 2 ∧
      createAs E "rows" .native (.seq h info e) = .ok m ∧ createAs E "row" (elementOrder .native e) e = .ok em ∧
      Readable E em bs 1 (bs.length + 1) off [.tuple [], .tuple []] off ∧
      (mapStream E m bs off 0 {}).1 = .error .tooSmall := by
  refine ⟨exHollowEnv, { name := "rows" },
    { kind := .sequence, elementDataType := some "row", numElements := some 2 },
    .seq { name := "row" } { kind := .sequence, elementDataType := some "uint8", numElementsExpr := some "0" } exU8,
    _, _, [1, 2], 2, rfl, rfl, rfl, rfl, ?_, ?_⟩
  · exact .cons (k := 0) (by decide) rfl rfl (.cons (k := 0) (by decide) rfl rfl (.nil _))
  · rfl

/-- Two rows of one byte each, the hypotheses and the right hand side of `C85_number` with a
composite element. -/
def exRows : Defn :=
  .seq { name := "rows" } { kind := .sequence, elementDataType := some "row", numElements := some 2 }
    (.seq { name := "row" } { kind := .sequence, elementDataType := some "uint8", terminator := some (.int 0) } exU8)

example : ∃ h info e m en em, exRows = .seq h info e ∧ info.kind = .sequence ∧
    createAs exEnv "rows" .native exRows = .ok m ∧ (∀ h i c t v, e ≠ .member h i c t v) ∧
    info.dataSize = none ∧ info.dataSizeExpr = none ∧ info.terminator = none ∧
    Amounts exEnv info.numElements info.numElementsExpr [] (2 : Nat) ∧
    createAs exEnv en (elementOrder .native e) e = .ok em ∧
    Readable exEnv em [7, 5, 0, 0, 9] 1 5 0 [.tuple [.int 7, .int 5, .int 0], .tuple [.int 0]] 4 ∧
    (mapStream exEnv m [7, 5, 0, 0, 9] 0 0 {}).1 = .ok (.tuple [.tuple [.int 7, .int 5, .int 0], .tuple [.int 0]]) := by
  refine ⟨_, _, _, _, "row", _, rfl, rfl, rfl, by intros; simp, rfl, rfl, rfl, ⟨by decide, .inl ⟨rfl, by decide⟩⟩, rfl, ?_, rfl⟩
  exact .cons (k := 3) (by decide) rfl rfl (.cons (k := 1) (by decide) rfl rfl (.nil _))

/-- The hypotheses of `C85_terminator`: bytes up to a zero. -/
example : ∃ h info e m, (.seq { name := "row" } { kind := .sequence, elementDataType := some "uint8", terminator := some (.int 0) } exU8 : Defn) = .seq h info e ∧
    info.kind = .sequence ∧ createAs exEnv "row" .native (.seq h info e) = .ok m ∧
    (∀ h i c t v, e ≠ .member h i c t v) ∧ info.dataSize = none ∧ info.dataSizeExpr = none ∧
    info.terminator = some (.int 0) ∧ (mapStream exEnv m [7, 5, 0, 0] 0 0 {}).1 = .ok (.tuple [.int 7, .int 5, .int 0]) :=
  ⟨_, _, _, _, rfl, rfl, rfl, by intros; simp [exU8], rfl, rfl, rfl, rfl⟩

/-- The hypotheses of `C85_data_size`: numbers of two bytes in four bytes. -/
example : ∃ h info e m, (.seq { name := "row" } { kind := .sequence, elementDataType := some "uint16", dataSize := some 4 } exU16 : Defn) = .seq h info e ∧
    info.kind = .sequence ∧ createAs exEnv "row" .native (.seq h info e) = .ok m ∧
    (∀ h i c t v, e ≠ .member h i c t v) ∧ Amounts exEnv info.dataSize info.dataSizeExpr [] (4 : Nat) ∧
    e.byteSize = some ((2 : Nat) : Int) ∧ (info.dataSize ≠ none → 2 ∣ 4 ∧ info.numElements = none) ∧
    (mapStream exEnv m [7, 5, 0, 1, 1] 0 0 {}).1 = .ok (.tuple [.int 1287, .int 256]) :=
  ⟨_, _, _, _, rfl, rfl, rfl, by intros; simp [exU16], ⟨by decide, .inl ⟨rfl, by decide⟩⟩, rfl, fun _ => ⟨by decide, rfl⟩, rfl⟩

/-- The hypotheses of `C85_variable`: strings of bytes in six bytes. -/
example : ∃ h info e m t, (.seq { name := "rows" } { kind := .sequence, elementDataType := some "row", dataSize := some 6 }
      (.seq { name := "row" } { kind := .stream, elementDataType := some "uint8", terminator := some (.bytes [0]) } exU8) : Defn) = .seq h info e ∧
    info.kind = .sequence ∧ createAs exEnv "rows" .native (.seq h info e) = .ok m ∧
    (∀ h i c t v, e ≠ .member h i c t v) ∧ Amounts exEnv info.dataSize info.dataSizeExpr [] (6 : Nat) ∧
    e.byteSize = none ∧ e.terminator? = some (some t) ∧ t ≠ .null ∧ (info.dataSize ≠ none → info.numElements = none) ∧
    (mapStream exEnv m [7, 5, 0, 1, 2, 0, 3] 0 0 {}).1 = .ok (.tuple [.bytes [7, 5, 0], .bytes [1, 2, 0]]) :=
  ⟨_, _, _, _, _, rfl, rfl, rfl, by intros; simp, ⟨by decide, .inl ⟨rfl, by decide⟩⟩, rfl, rfl, by simp, fun _ => rfl, rfl⟩

end Dtf
