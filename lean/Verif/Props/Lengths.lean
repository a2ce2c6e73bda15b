import Verif.Props.SequenceLinear
import Verif.Props.Creation
/-!
# C79: a length as a number or as an expression

The property is stated in `Dtf.Spec` below.
-/
namespace Dtf
namespace Spec

/-- The number or the expression stands for `n`, with these values of names. For a sequence
the value of the expression is any number that equals `n`, such as `2.0`; for a stream or a
string it is an `int`. -/
def Yields (E : Env) (kind : SeqKind) (number : Option Int) (text : Option String) (ns : Namespace) (n : Int) : Prop :=
  Evaluates E number text ns n ∨ (kind = .sequence ∧ Amounts E number text ns n)

/-- Neither a number nor an expression is given, twice, or what is given has the same
value, with these values of names. -/
def SameNumber (E : Env) (kind : SeqKind) (ns : Namespace) (number : Option Int) (text : Option String)
    (number' : Option Int) (text' : Option String) : Prop :=
  (number = none ∧ text = none ∧ number' = none ∧ text' = none) ∨
    ∃ n, Yields E kind number text ns n ∧ Yields E kind number' text' ns n

/-- Two sequences, streams or strings are the same, but for how their lengths are given. -/
def SameLength (E : Env) (ns : Namespace) (i i' : SeqInfo) : Prop :=
  i.kind = i'.kind ∧ i.terminator = i'.terminator ∧
    SameNumber E i.kind ns i.dataSize i.dataSizeExpr i'.dataSize i'.dataSizeExpr ∧
    SameNumber E i.kind ns i.numElements i.numElementsExpr i'.numElements i'.numElementsExpr

/-- If all elements can be read at once, the data size, if given, is a multiple of their
size, and there is not a number of elements, too. -/
def Whole (i : SeqInfo) (e : Defn) : Prop :=
  e.isComposite = false → (∀ h d c t vs, e ≠ .member h d c t vs) ∧
    (i.dataSize = none ∨ i.numElements = none) ∧
    ∀ ds es, i.dataSize = some ds → e.byteSize = some es → es ∣ ds

mutual
/-- The second definition is the first one with lengths given in another way, by numbers
or by expressions that always have the same value, at most `n` levels deep. -/
inductive Resized (E : Env) : Nat → Defn → Defn → Prop
  | same (n : Nat) (d : Defn) : Resized E n d d
  | seq {n : Nat} {h : Hdr} {i i' : SeqInfo} {e e' : Defn} (hl : ∀ ns, SameLength E ns i i')
      (hw : i.kind = .sequence → Whole i e ∧ Whole i' e) (he : Resized E n e e')
      (hd : (i.dataSize = none ∧ i.dataSizeExpr = none) ∨ e = e') :
      Resized E (n + 1) (.seq h i e) (.seq h i' e')
  | struct {n : Nat} {h : Hdr} {ms ms' : List Defn} (hm : ResizedMembers E n ms ms') :
      Resized E (n + 1) (.struct h ms) (.struct h ms')
  | group {n : Nat} {h : Hdr} {b b' : Defn} {i : String} {df df' : Option Defn} {ms ms' : List Defn}
      (hb : Resized E n b b') (hd : ResizedDefault E n df df') (hm : ResizedAll E n ms ms') :
      Resized E n (.group h b i df ms) (.group h b' i df' ms')
/-- The same for the members of a structure. -/
inductive ResizedMembers (E : Env) : Nat → List Defn → List Defn → Prop
  | nil (n : Nat) : ResizedMembers E n [] []
  | member {n : Nat} {h : Hdr} {d d' : Defn} {c : Option String} {t : Option String} {vs : Option (List Lit)}
      {ms ms' : List Defn} (hd : Resized E n d d') (hm : ResizedMembers E n ms ms') :
      ResizedMembers E n (.member h d c t vs :: ms) (.member h d' c t vs :: ms')
  | other {n : Nat} {d d' : Defn} {ms ms' : List Defn} (hd : Resized E n d d') (hm : ResizedMembers E n ms ms') :
      ResizedMembers E n (d :: ms) (d' :: ms')
/-- The same for the members of a group. -/
inductive ResizedAll (E : Env) : Nat → List Defn → List Defn → Prop
  | nil (n : Nat) : ResizedAll E n [] []
  | cons {n : Nat} {d d' : Defn} {ms ms' : List Defn} (hd : Resized E n d d') (hm : ResizedAll E n ms ms') :
      ResizedAll E n (d :: ms) (d' :: ms')
/-- The same for the default of a group. -/
inductive ResizedDefault (E : Env) : Nat → Option Defn → Option Defn → Prop
  | none (n : Nat) : ResizedDefault E n none none
  | some {n : Nat} {d d' : Defn} (hd : Resized E n d d') : ResizedDefault E n (some d) (some d')
end

end Spec
open Spec

/-! ### One sequence, stream or string -/

theorem evalData_yields {E : Env} {i : SeqInfo} {ns : Namespace} {n : Int}
    (h : Yields E i.kind i.dataSize i.dataSizeExpr ns n) : evalDataSize E i ns = .ok n ∧ i.hasDataSize = true := by
  rcases h with h | ⟨hk, h⟩
  · exact evalData_of h
  · exact evalData_amounts hk h

theorem evalNum_yields {E : Env} {i : SeqInfo} {ns : Namespace} {n : Int}
    (h : Yields E i.kind i.numElements i.numElementsExpr ns n) :
    evalNumElements E i ns = .ok n ∧ i.hasNumElements = true := by
  rcases h with h | ⟨hk, h⟩
  · exact evalNum_of h
  · exact evalNum_amounts hk h

theorem sameData {E : Env} {ns : Namespace} {i i' : SeqInfo} (hk : i.kind = i'.kind)
    (h : SameNumber E i.kind ns i.dataSize i.dataSizeExpr i'.dataSize i'.dataSizeExpr) :
    i.hasDataSize = i'.hasDataSize ∧ evalDataSize E i ns = evalDataSize E i' ns := by
  rcases h with ⟨h1, h2, h3, h4⟩ | ⟨n, h1, h2⟩
  · simp [SeqInfo.hasDataSize, evalDataSize, h1, h2, h3, h4, hk]
  · obtain ⟨h3, h4⟩ := evalData_yields h1
    obtain ⟨h5, h6⟩ := evalData_yields (hk ▸ h2)
    rw [h3, h4, h5, h6]
    exact ⟨rfl, rfl⟩

theorem sameNum {E : Env} {ns : Namespace} {i i' : SeqInfo} (hk : i.kind = i'.kind)
    (h : SameNumber E i.kind ns i.numElements i.numElementsExpr i'.numElements i'.numElementsExpr) :
    i.hasNumElements = i'.hasNumElements ∧ evalNumElements E i ns = evalNumElements E i' ns := by
  rcases h with ⟨h1, h2, h3, h4⟩ | ⟨n, h1, h2⟩
  · simp [SeqInfo.hasNumElements, evalNumElements, h1, h2, h3, h4, hk]
  · obtain ⟨h3, h4⟩ := evalNum_yields h1
    obtain ⟨h5, h6⟩ := evalNum_yields (hk ▸ h2)
    rw [h3, h4, h5, h6]
    exact ⟨rfl, rfl⟩

theorem sameLength_stream {E : Env} {ns : Namespace} {i i' : SeqInfo} (h : SameLength E ns i i') (ei : ElemInfo)
    (bs : Bytes) (off : Nat) : streamParse E i ei bs off ns = streamParse E i' ei bs off ns := by
  obtain ⟨hk, ht, hd, hn⟩ := h
  obtain ⟨h1, h2⟩ := sameData hk hd
  obtain ⟨h3, h4⟩ := sameNum hk hn
  unfold streamParse streamSize
  rw [h1, h2, h3, h4, ht]

theorem sameLength_string {E : Env} {ns : Namespace} {i i' : SeqInfo} (h : SameLength E ns i i') (ei : ElemInfo)
    (enc : String) (bs : Bytes) (off : Nat) : stringParse E enc i ei bs off ns = stringParse E enc i' ei bs off ns := by
  unfold stringParse cutString
  rw [sameLength_stream h, h.2.1]

theorem sameLength_rules {E : Env} {ns : Namespace} {i i' : SeqInfo} (h : SameLength E ns i i') {ei ei' : ElemInfo}
    (he : (i.dataSize = none ∧ i.dataSizeExpr = none) ∨ ei = ei') :
    (seqRules E i ei ns).1 = (seqRules E i' ei' ns).1 := by
  obtain ⟨hk, ht, hd, hn⟩ := h
  obtain ⟨h1, h2⟩ := sameData hk hd
  obtain ⟨h3, h4⟩ := sameNum hk hn
  unfold seqRules
  rw [← h1, ← h2, ← h3, ← h4, ← ht]
  by_cases hs : i.hasDataSize = true
  · rcases he with he | rfl
    · simp [SeqInfo.hasDataSize, he] at hs
    · simp only [hs, if_true]
  · simp only [hs, Bool.false_eq_true, if_false]
    rcases hx : i.terminator with _ | t
    · simp only [Option.isSome_none, Bool.false_eq_true, if_false]
      by_cases hs' : i.hasNumElements = true
      · simp only [hs', if_true]
        rcases countable (evalNumElements E i ns) with x | n <;> rfl
      · simp only [hs', Bool.false_eq_true, if_false]
    · rfl

theorem seqParse_toOption {step step' : Nat → PRes} (h : ∀ p, (step p).toOption = (step' p).toOption) (len : Nat)
    (num dataSize : Option Int) (term : Option Lit) (fuel : Nat) : ∀ off used index last,
    (seqParse step len num dataSize term fuel off used index last).toOption =
      (seqParse step' len num dataSize term fuel off used index last).toOption := by
  induction fuel with
  | zero => intros; rfl
  | succ f ih =>
    intro off used index last
    rw [seqParse, seqParse]
    split
    · rfl
    · have hs := h off
      generalize step off = x at hs ⊢
      generalize step' off = y at hs ⊢
      rcases x with x | ⟨v, n⟩ <;> rcases y with y | ⟨w, k⟩ <;> simp only [Except.toOption, reduceCtorEq, Option.some.injEq,
        Prod.mk.injEq] at hs
      · rfl
      · obtain ⟨rfl, rfl⟩ := hs
        simp only
        by_cases ht : atTerm term v = true
        · simp only [ht, if_true]
        · simp only [ht, Bool.false_eq_true, if_false]
          have := ih (off + n) (used + n) (index + 1) v
          generalize seqParse step len num dataSize term f (off + n) (used + n) (index + 1) v = x at this ⊢
          generalize seqParse step' len num dataSize term f (off + n) (used + n) (index + 1) v = y at this ⊢
          rcases x with x | ⟨v, n⟩ <;> rcases y with y | ⟨w, k⟩ <;> simp only [Except.toOption, reduceCtorEq, Option.some.injEq,
            Prod.mk.injEq] at this ⊢
          obtain ⟨rfl, rfl⟩ := this
          exact ⟨rfl, rfl⟩

theorem composite_toOption {E : Env} {ns : Namespace} {i i' : SeqInfo} (h : SameLength E ns i i') {ei ei' : ElemInfo}
    (he : (i.dataSize = none ∧ i.dataSizeExpr = none) ∨ ei = ei') {step step' : Nat → PRes}
    (hs : ∀ p, (step p).toOption = (step' p).toOption) (len off depth : Nat) :
    (compositeSeqParse E i ei step len off depth ns).toOption =
      (compositeSeqParse E i' ei' step' len off depth ns).toOption := by
  unfold compositeSeqParse
  rw [sameLength_rules h he]
  split
  · rfl
  · rcases (seqRules E i' ei' ns).1 with x | ⟨ds, term, num⟩
    · rfl
    · have := seqParse_toOption hs len num ds term (seqFuel len off num 0) off 0 0 .pyNone
      simp only
      generalize seqParse step len num ds term (seqFuel len off num 0) off 0 0 .pyNone = x at this ⊢
      generalize seqParse step' len num ds term (seqFuel len off num 0) off 0 0 .pyNone = y at this ⊢
      rcases x with x | ⟨v, n⟩ <;> rcases y with y | ⟨w, k⟩ <;> simp only [Except.toOption, reduceCtorEq, Option.some.injEq,
        Prod.mk.injEq] at this ⊢
      obtain ⟨rfl, rfl⟩ := this
      exact ⟨rfl, rfl⟩

/-- With the same value of the length, a sequence can be mapped by the elements. -/
theorem seq_toOption {E : Env} {nm : String} {o : Order} {h : Hdr} {i : SeqInfo} {e : Defn} {m : DMap}
    (hk : i.kind = .sequence) (hm : createAs E nm o (.seq h i e) = .ok m) (hw : Whole i e) (bs : Bytes) (off depth : Nat)
    (hd : depth ≤ 10) (ns : Namespace) : ∃ em, createAs E (usedAsElement nm o e).1 (usedAsElement nm o e).2 e = .ok em ∧
      (parse E m bs off depth ns).toOption = (compositeSeqParse E i ⟨e.byteSize, e.isComposite, e.terminator?⟩
        (fun p => parse E em bs p (depth + 1) []) bs.length off depth ns).toOption := by
  have hm0 := hm
  obtain ⟨-, -, -, -, ⟨eo, ho, -⟩, -, -⟩ := createAs_seq hm
  rw [createAs_seq_eq ho] at hm
  rcases hem : createAs E (usedAsElement nm o e).1 (usedAsElement nm o e).2 e with x | em
  · rw [hem] at hm; cases hm
  rw [hem] at hm
  refine ⟨em, rfl, ?_⟩
  obtain ⟨-, -, em', -, -, hme, -⟩ := createAs_seq hm0
  have hmm : m = .seq { h with name := nm, order := o } i ⟨e.byteSize, e.isComposite, e.terminator?⟩
      (Defn.seq h i e).byteSize em := by
    simp only [finishSeq, hk] at hm
    split at hm
    · cases hm
    · split at hm
      · split at hm
        · cases hm
        · cases hm; rfl
      · cases hm; rfl
  by_cases hlin : seqLinear i ⟨e.byteSize, e.isComposite, e.terminator?⟩ = true
  · have hc : e.isComposite = false := by
      simp only [seqLinear, Bool.not_eq_true', Bool.or_eq_false_iff] at hlin
      exact hlin.1.1.1
    obtain ⟨h1, h2, h3⟩ := hw hc
    have key : ∀ r, parse E m bs off depth ns = .ok r ↔ compositeSeqParse E i ⟨e.byteSize, e.isComposite, e.terminator?⟩
        (fun p => parse E em bs p (depth + 1) []) bs.length off depth ns = .ok r := by
      rintro ⟨v, n⟩
      obtain ⟨hd', bsz', em'', h4, -, h5⟩ := linear_seq_iff hk hm0 h1 hlin h3 h2 bs off depth hd ns v n
      rw [hmm] at h4
      cases h4
      exact h5
    generalize parse E m bs off depth ns = x at key ⊢
    generalize compositeSeqParse E i _ _ _ _ _ _ = y at key ⊢
    rcases x with x | x
    · rcases y with y | y
      · rfl
      · exact absurd ((key y).mpr rfl) (by simp)
    · rw [(key x).mp rfl]
  · rw [hmm, parse]
    simp only [hk]
    rw [if_neg hlin]

theorem resized_keeps {E : Env} {n : Nat} {d d' : Defn} (h : Resized E n d d') :
    d.name = d'.name ∧ d.order? = d'.order? ∧ d.isComposite = d'.isComposite ∧ d.orderOrNative = d'.orderOrNative ∧
      (d.isComposite = false → d = d') := by
  cases h with
  | same => exact ⟨rfl, rfl, rfl, rfl, fun _ => rfl⟩
  | seq => exact ⟨rfl, rfl, rfl, rfl, fun h => by simp [Defn.isComposite] at h⟩
  | struct => exact ⟨rfl, rfl, rfl, rfl, fun h => by simp [Defn.isComposite] at h⟩
  | group => exact ⟨rfl, rfl, rfl, rfl, fun h => by simp [Defn.isComposite] at h⟩

/-- The maps give the same values and sizes. -/
def SameValues (E : Env) (n : Nat) (m m' : DMap) : Prop :=
  ∀ bs off depth ns, depth + n ≤ 11 → (parse E m bs off depth ns).toOption = (parse E m' bs off depth ns).toOption

theorem seq_same {E : Env} {n : Nat} {nm : String} {o : Order} {h : Hdr} {i i' : SeqInfo} {e e' : Defn} {m m' : DMap}
    (hm : createAs E nm o (.seq h i e) = .ok m) (hm' : createAs E nm o (.seq h i' e') = .ok m')
    {bs : Bytes} {off depth : Nat} {ns : Namespace} (hl : SameLength E ns i i')
    (hw : i.kind = .sequence → Whole i e ∧ Whole i' e) (he : Resized E n e e')
    (hd : (i.dataSize = none ∧ i.dataSizeExpr = none) ∨ e = e') (hdep : depth ≤ 10)
    (ih : ∀ em em' name order, createAs E name order e = .ok em → createAs E name order e' = .ok em' → ∀ p,
      (parse E em bs p (depth + 1) []).toOption = (parse E em' bs p (depth + 1) []).toOption) :
    (parse E m bs off depth ns).toOption = (parse E m' bs off depth ns).toOption := by
  obtain ⟨h1, h2, h3, h4, h5⟩ := resized_keeps he
  by_cases hk : i.kind = .sequence
  · have hw' : Whole i' e' := by
      intro hc
      rw [← h3] at hc
      rw [← h5 hc]
      exact (hw hk).2 hc
    obtain ⟨em, he1, hp1⟩ := seq_toOption hk hm (hw hk).1 bs off depth hdep ns
    obtain ⟨em', he2, hp2⟩ := seq_toOption (hl.1 ▸ hk) hm' hw' bs off depth hdep ns
    have hu : usedAsElement nm o e' = usedAsElement nm o e := by
      unfold usedAsElement usedAs
      rw [h1, h2, h3, h4]
    rw [hu] at he2
    rw [hp1, hp2]
    refine composite_toOption hl ?_ (ih _ _ _ _ he1 he2) _ _ _
    rcases hd with hd | rfl
    · exact .inl hd
    · exact .inr rfl
  · obtain ⟨-, -, em, -, -, hm1, hf⟩ := createAs_seq hm
    obtain ⟨-, -, em', -, -, hm2, -⟩ := createAs_seq hm'
    have hc : e.isComposite = false := by
      unfold finishSeq at hf
      split at hf
      · cases hf
      · cases hke : i.kind with
        | sequence => exact absurd hke hk
        | stream | string _ =>
          rw [hke] at hf
          simp only at hf
          split at hf
          · cases hf
          · rename_i hc
            simpa using hc
    obtain rfl := h5 hc
    rw [hm1, hm2, parse, parse, ← hl.1]
    cases hke : i.kind with
    | sequence => exact absurd hke hk
    | stream => simp only [sameLength_stream hl]
    | string enc => simp only [sameLength_string hl]

theorem checkLinear_resized {E : Env} {n : Nat} {ms ms' : List Defn} (h : ResizedMembers E n ms ms') :
    ∀ o, checkLinear o ms = checkLinear o ms' ∧ (checkLinear o ms = .ok true → ms = ms') := by
  induction ms generalizing ms' with
  | nil => cases h; exact fun o => ⟨rfl, fun _ => rfl⟩
  | cons d ds ih =>
    intro o
    cases h with
    | @member _ hd d d' c t vs _ ms' hr hm =>
      obtain ⟨h1, h2, h3, h4, h5⟩ := resized_keeps hr
      have hcomp : (Defn.member hd d c t vs).isComposite = (Defn.member hd d' c t vs).isComposite := by
        simp only [Defn.isComposite, h3]
      have hord : (Defn.member hd d c t vs).order? = (Defn.member hd d' c t vs).order? := by
        simp only [Defn.order?, h2]
      unfold checkLinear
      simp only [← hcomp, ← hord]
      split
      · exact ⟨rfl, fun h => nomatch h⟩
      · rename_i hc
        have hc : d.isComposite = false := by
          simp only [Defn.isComposite, Bool.or_false, Bool.or_eq_true, not_or, Bool.not_eq_true] at hc
          exact hc.2
        obtain rfl := h5 hc
        split
        · exact ⟨rfl, fun h => nomatch h⟩
        · split
          · exact ⟨rfl, fun h => nomatch h⟩
          · refine ⟨(ih hm _).1, fun h => by rw [(ih hm _).2 h]⟩
    | @other _ _ d' _ ms' hr hm =>
      obtain ⟨h1, h2, h3, h4, h5⟩ := resized_keeps hr
      by_cases hc : d.isComposite = true
      · unfold checkLinear
        simp only [← h3, hc, Bool.true_or, if_true]
        exact ⟨trivial, fun h => nomatch h⟩
      obtain rfl := h5 (by simpa using hc)
      have key : ∀ (p : Bool), (if d.isComposite || p then (.ok false : Except Err Bool)
          else
            match d.order? with
            | none => .error .attribute
            | some o' => if o ≠ .native ∧ o' ≠ .native ∧ o ≠ o' then .ok false else checkLinear o' ds) =
          (if d.isComposite || p then (.ok false : Except Err Bool)
          else
            match d.order? with
            | none => .error .attribute
            | some o' => if o ≠ .native ∧ o' ≠ .native ∧ o ≠ o' then .ok false else checkLinear o' ms') ∧
          ((if d.isComposite || p then (.ok false : Except Err Bool)
          else
            match d.order? with
            | none => .error .attribute
            | some o' => if o ≠ .native ∧ o' ≠ .native ∧ o ≠ o' then .ok false else checkLinear o' ds) = .ok true →
          d :: ds = d :: ms') := by
        intro p
        split
        · exact ⟨rfl, fun h => nomatch h⟩
        · rcases d.order? with _ | o'
          · exact ⟨rfl, fun h => nomatch h⟩
          · simp only
            split
            · exact ⟨rfl, fun h => nomatch h⟩
            · exact ⟨(ih hm _).1, fun h => by rw [(ih hm _).2 h]⟩
      exact key _

theorem resized_names {E : Env} {n : Nat} {ms ms' : List Defn} (h : ResizedMembers E n ms ms') :
    ms.map Defn.name = ms'.map Defn.name := by
  induction ms generalizing ms' with
  | nil => cases h; rfl
  | cons d ds ih =>
    cases h with
    | member hr hm => simp only [List.map_cons, ih hm]; rfl
    | other hr hm => simp only [List.map_cons, ih hm, (resized_keeps hr).1]

theorem createClass_names {E : Env} {nm : String} {ds : Option String} {ms ms' : List Defn} {b b' : Bool}
    (h : createClass E nm ds ms = .ok b) (h' : createClass E nm ds ms' = .ok b') (hn : ms.map Defn.name = ms'.map Defn.name) :
    b = b' := by
  have key : ∀ {ms : List Defn} {b : Bool}, createClass E nm ds ms = .ok b →
      b = !((ms.map Defn.name).contains "super" || (ms.map Defn.name).contains nm || nm == "super") := by
    intro ms b hcls
    unfold createClass at hcls
    simp only at hcls
    split at hcls
    · cases hcls
    split at hcls
    · cases hcls
    split at hcls
    · cases hcls
    split at hcls
    · cases hcls
    cases hcls
    rfl
  rw [key h, key h', hn]

/-- Maps by name. -/
def SameCache (E : Env) (n : Nat) (c c' : List (String × DMap)) : Prop :=
  All2 (fun p q => p.1 = q.1 ∧ SameValues E n p.2 q.2) c c'

theorem sameCache_find {E : Env} {n : Nat} {c c' : List (String × DMap)} (h : SameCache E n c c') (k : String) :
    (c.find? (·.1 == k) = none ∧ c'.find? (·.1 == k) = none) ∨
      ∃ p q, c.find? (·.1 == k) = some p ∧ c'.find? (·.1 == k) = some q ∧ SameValues E n p.2 q.2 := by
  induction h with
  | nil => exact .inl ⟨rfl, rfl⟩
  | @cons p q _ _ h t ih =>
    by_cases hk : p.1 = k
    · refine .inr ⟨p, q, ?_, ?_, h.2⟩
      · simp [hk]
      · simp [← h.1, hk]
    · have hk' : ¬ q.1 = k := by rw [← h.1]; exact hk
      simpa [hk, hk'] using ih

theorem members_same {E : Env} {n : Nat} (sname : String) (so : Order) (ms ms' : List Defn) (h : ResizedMembers E n ms ms')
    (ih : ∀ d d', d ∈ ms.map Defn.target → Resized E n d d' → ∀ nm o m m', createAs E nm o d = .ok m →
      createAs E nm o d' = .ok m' → SameValues E n m m') :
    ∀ c c' infos infos' maps maps', SameCache E n c c' → createMembers E sname so c ms = .ok (infos, maps) →
      createMembers E sname so c' ms' = .ok (infos', maps') → infos = infos' ∧ All2 (SameValues E n) maps maps' := by
  induction ms generalizing ms' with
  | nil =>
    cases h
    intro c c' infos infos' maps maps' _ h1 h2
    rw [createMembers] at h1 h2
    cases h1
    cases h2
    exact ⟨rfl, .nil⟩
  | cons d ds ihl =>
    have step : ∀ (x x' : Defn) (info : MemInfo), x = d.target → Resized E n x x' → ∀ ds', ResizedMembers E n ds ds' →
        ∀ c c' infos infos' maps maps', SameCache E n c c' →
        (match memberNameOrder sname so x with
          | .error x => (.error x : Except Err (List MemInfo × List DMap))
          | .ok (n, o) =>
            match (match c.find? (fun p : String × DMap => p.1 == n) with
              | some p => Except.ok p.2
              | none => createAs E n o x) with
            | .error x => .error x
            | .ok m =>
              match createMembers E sname so ((n, m) :: c) ds with
              | .error x => .error x
              | .ok (infos, maps) => (.ok (info :: infos, m :: maps) : Except Err (List MemInfo × List DMap))) =
          .ok (infos, maps) →
        (match memberNameOrder sname so x' with
          | .error x => (.error x : Except Err (List MemInfo × List DMap))
          | .ok (n, o) =>
            match (match c'.find? (fun p : String × DMap => p.1 == n) with
              | some p => Except.ok p.2
              | none => createAs E n o x') with
            | .error x => .error x
            | .ok m =>
              match createMembers E sname so ((n, m) :: c') ds' with
              | .error x => .error x
              | .ok (infos, maps) => (.ok (info :: infos, m :: maps) : Except Err (List MemInfo × List DMap))) =
          .ok (infos', maps') →
        infos = infos' ∧ All2 (SameValues E n) maps maps' := by
      intro x x' info hx hr ds' hds c c' infos infos' maps maps' hc h1 h2
      obtain ⟨hn1, hn2, hn3, hn4, -⟩ := resized_keeps hr
      have hmo : memberNameOrder sname so x' = memberNameOrder sname so x := by
        unfold memberNameOrder
        rw [hn1, hn2, hn4]
      rw [hmo] at h2
      rcases hmn : memberNameOrder sname so x with e | ⟨k, o⟩
      · rw [hmn] at h1; cases h1
      rw [hmn] at h1 h2
      simp only at h1 h2
      obtain ⟨m, m', hm1, hm2, hs⟩ : ∃ m m', (match c.find? (·.1 == k) with
          | some p => Except.ok p.2
          | none => createAs E k o x) = .ok m ∧ (match c'.find? (·.1 == k) with
          | some p => Except.ok p.2
          | none => createAs E k o x') = .ok m' ∧ SameValues E n m m' := by
        rcases sameCache_find hc k with ⟨hf, hf'⟩ | ⟨p, q, hf, hf', hs⟩
        · rw [hf] at h1
          rw [hf'] at h2
          rw [hf, hf']
          simp only at h1 h2 ⊢
          rcases hcr : createAs E k o x with e | m
          · rw [hcr] at h1; cases h1
          rcases hcr' : createAs E k o x' with e | m'
          · rw [hcr'] at h2; cases h2
          refine ⟨m, m', rfl, rfl, ih x x' ?_ hr _ _ _ _ hcr hcr'⟩
          rw [hx]
          exact List.mem_map_of_mem (List.mem_cons_self ..)
        · rw [hf, hf']
          exact ⟨_, _, rfl, rfl, hs⟩
      rw [hm1] at h1
      rw [hm2] at h2
      simp only at h1 h2
      rcases hr1 : createMembers E sname so ((k, m) :: c) ds with e | ⟨is, ms1⟩
      · rw [hr1] at h1; cases h1
      rcases hr2 : createMembers E sname so ((k, m') :: c') ds' with e | ⟨is', ms2⟩
      · rw [hr2] at h2; cases h2
      rw [hr1] at h1
      rw [hr2] at h2
      cases h1
      cases h2
      obtain ⟨e1, e2⟩ := ihl ds' hds (fun d d' hd => ih d d' (by rw [List.map_cons]; exact List.mem_cons_of_mem _ hd)) _ _ _ _ _ _
        (All2.cons (a := (k, m)) (b := (k, m')) ⟨rfl, hs⟩ hc) hr1 hr2
      exact ⟨by rw [e1], .cons hs e2⟩
    intro c c' infos infos' maps maps' hc h1 h2
    cases h with
    | @member _ hd d d' cond t vs _ ms' hr hm =>
      rw [createMembers] at h1 h2
      exact step d d' ⟨hd.name, cond, vs⟩ rfl hr ms' hm c c' infos infos' maps maps' hc h1 h2
    | @other _ _ d' _ ms' hr hm =>
      cases hr with
      | same =>
        cases d with
        | member hd d cond t vs =>
          rw [createMembers] at h1 h2
          exact step d d ⟨hd.name, cond, vs⟩ rfl (.same _ _) ms' hm c c' infos infos' maps maps' hc h1 h2
        | _ =>
          rw [createMembers] at h1 h2
          · exact step _ _ ⟨_, none, none⟩ rfl (.same _ _) ms' hm c c' infos infos' maps maps' hc h1 h2
          all_goals exact fun _ _ _ _ _ h => nomatch h
      | seq h1' h2' h3' h4' =>
        rw [createMembers] at h1 h2
        · exact step _ _ ⟨_, none, none⟩ rfl (.seq h1' h2' h3' h4') ms' hm c c' infos infos' maps maps' hc h1 h2
        all_goals exact fun _ _ _ _ _ h => nomatch h
      | struct h1' =>
        rw [createMembers] at h1 h2
        · exact step _ _ ⟨_, none, none⟩ rfl (.struct h1') ms' hm c c' infos infos' maps maps' hc h1 h2
        all_goals exact fun _ _ _ _ _ h => nomatch h
      | group h1' h2' h3' =>
        rw [createMembers] at h1 h2
        · exact step _ _ ⟨_, none, none⟩ rfl (.group h1' h2' h3') ms' hm c c' infos infos' maps maps' hc h1 h2
        all_goals exact fun _ _ _ _ _ h => nomatch h

theorem members_resized {E : Env} {n : Nat} {cls : String} {bs : Bytes} {depth : Nat} {outer : Namespace}
    (hd : depth + 1 + n ≤ 11) {maps maps' : List DMap} (h : All2 (SameValues E n) maps maps') :
    ∀ infos off used attrs, (parseMembers E cls bs depth outer infos maps off used attrs).toOption =
      (parseMembers E cls bs depth outer infos maps' off used attrs).toOption := by
  induction h with
  | nil => intros; rfl
  | @cons m m' maps maps' hm ht ih =>
    intro infos off used attrs
    cases infos with
    | nil => rw [parseMembers, parseMembers]
    | cons info infos =>
      rw [parseMembers, parseMembers]
      rcases evalCondition E info (structNs cls attrs outer) with x | _ | _
      · rfl
      · exact ih _ _ _ _
      · have hp := hm bs off (depth + 1) (structNs cls attrs outer) hd
        simp only
        generalize parse E m bs off (depth + 1) (structNs cls attrs outer) = x at hp ⊢
        generalize parse E m' bs off (depth + 1) (structNs cls attrs outer) = y at hp ⊢
        rcases x with x | ⟨v, k⟩ <;> rcases y with y | ⟨w, l⟩ <;> simp only [Except.toOption, reduceCtorEq, Option.some.injEq,
          Prod.mk.injEq] at hp
        · rfl
        · obtain ⟨rfl, rfl⟩ := hp
          simp only
          split
          · rfl
          · exact ih _ _ _ _

/-! ### Groups -/

theorem groupValues_resized {E : Env} {n : Nat} (ident : String) {g g' : Defn} (h : Resized E n g g') :
    groupValues ident g' = groupValues ident g := by
  cases h with
  | same => rfl
  | seq => rfl
  | group => rfl
  | @struct n h ms ms' hm =>
    have key : ∀ {ms ms' : List Defn}, ResizedMembers E n ms ms' →
        (ms.find? (·.name == ident) = none ∧ ms'.find? (·.name == ident) = none) ∨
        ∃ d d', ms.find? (·.name == ident) = some d ∧ ms'.find? (·.name == ident) = some d' ∧
          (Resized E n d d' ∨ ∃ h x x' c t vs, d = .member h x c t vs ∧ d' = .member h x' c t vs) := by
      intro ms ms' h
      induction ms generalizing ms' with
      | nil => cases h; exact .inl ⟨rfl, rfl⟩
      | cons d ds ih =>
        cases h with
        | @member _ hd d d' c t vs _ ms' hr hm =>
          rw [List.find?_cons, List.find?_cons]
          have : (Defn.member hd d' c t vs).name = (Defn.member hd d c t vs).name := rfl
          rw [this]
          cases (Defn.member hd d c t vs).name == ident with
          | true => exact .inr ⟨_, _, rfl, rfl, .inr ⟨_, _, _, _, _, _, rfl, rfl⟩⟩
          | false => exact ih hm
        | @other _ _ d' _ ms' hr hm =>
          rw [List.find?_cons, List.find?_cons, ← (resized_keeps hr).1]
          cases d.name == ident with
          | true => exact .inr ⟨_, _, rfl, rfl, .inl hr⟩
          | false => exact ih hm
    simp only [groupValues, memberByName]
    rcases key hm with ⟨h1, h2⟩ | ⟨d, d', h1, h2, hd | ⟨_, _, _, _, _, vs, rfl, rfl⟩⟩
    · rw [h1, h2]
    · rw [h1, h2]
      cases hd <;> rfl
    · rw [h1, h2]
      cases vs <;> rfl

/-- The same values and sizes, and both maps exist or none does. -/
def SameMembers2 (E : Env) (n : Nat) (m m' : DMap) : Prop :=
  SameValues E n m m' ∧ groupMapMissing (some m) = groupMapMissing (some m')

theorem resized_missing {E : Env} {n : Nat} {d d' : Defn} {nm : String} {o : Order} {m m' : DMap} (h : Resized E n d d')
    (hm : createAs E nm o d = .ok m) (hm' : createAs E nm o d' = .ok m') :
    groupMapMissing (some m) = groupMapMissing (some m') := by
  cases h with
  | same => rw [hm] at hm'; cases hm'; rfl
  | seq =>
    obtain ⟨-, -, em, -, -, rfl, -⟩ := createAs_seq hm
    obtain ⟨-, -, em, -, -, rfl, -⟩ := createAs_seq hm'
    rfl
  | struct =>
    obtain ⟨-, -, -, -, -, -, -, rfl, -⟩ := createAs_struct hm
    obtain ⟨-, -, -, -, -, -, -, rfl, -⟩ := createAs_struct hm'
    rfl
  | group =>
    obtain ⟨-, -, -, -, -, -, -, -, rfl⟩ := createAs_group hm
    obtain ⟨-, -, -, -, -, -, -, -, rfl⟩ := createAs_group hm'
    rfl

theorem createGroup_resized {E : Env} {n : Nat} (ident : String) {ms ms' : List Defn} (h : ResizedAll E n ms ms')
    (ih : ∀ d d', d ∈ ms → Resized E n d d' → ∀ nm o m m', createAs E nm o d = .ok m → createAs E nm o d' = .ok m' →
      SameValues E n m m') : ∀ keys ks ks' maps maps', createGroup E ident keys ms = .ok (ks, maps) →
      createGroup E ident keys ms' = .ok (ks', maps') → ks = ks' ∧ All2 (SameMembers2 E n) maps maps' := by
  induction ms generalizing ms' with
  | nil =>
    cases h
    intro keys ks ks' maps maps' h1 h2
    rw [createGroup] at h1 h2
    cases h1
    cases h2
    exact ⟨rfl, .nil⟩
  | cons g gs ihl =>
    cases h with
    | @cons _ _ g' _ gs' hr hm =>
      have ihl := ihl hm fun d d' hd => ih d d' (List.mem_cons_of_mem _ hd)
      intro keys ks ks' maps maps' h1 h2
      obtain ⟨k1, -, -, k4, -⟩ := resized_keeps hr
      rw [createGroup] at h1 h2
      rw [groupValues_resized ident hr, ← k1, ← k4] at h2
      generalize groupValues ident g = gv at h1 h2
      rcases gv with x | _ | ⟨v, vs⟩
      · cases h1
      · exact ihl _ _ _ _ _ h1 h2
      · simp only at h1 h2
        generalize addKeys keys [v] = ak at h1 h2
        rcases ak with x | _
        · cases h1
        simp only at h1 h2
        rcases hc : createAs E g.name g.orderOrNative g with x | m
        · rw [hc] at h1; cases h1
        rcases hc' : createAs E g.name g.orderOrNative g' with x | m'
        · rw [hc'] at h2; cases h2
        rw [hc] at h1
        rw [hc'] at h2
        simp only at h1 h2
        generalize addKeys keys (v :: vs) = ak at h1 h2
        rcases ak with x | keys'
        · cases h1
        simp only at h1 h2
        rcases hg : createGroup E ident keys' gs with x | ⟨a, b⟩
        · rw [hg] at h1; cases h1
        rcases hg' : createGroup E ident keys' gs' with x | ⟨a', b'⟩
        · rw [hg'] at h2; cases h2
        rw [hg] at h1
        rw [hg'] at h2
        cases h1
        cases h2
        obtain ⟨e1, e2⟩ := ihl _ _ _ _ _ hg hg'
        refine ⟨e1, ?_⟩
        have hs : SameMembers2 E n m m' := ⟨ih g g' List.mem_cons_self hr _ _ _ _ hc hc', resized_missing hr hc hc'⟩
        generalize (v :: vs).length = k
        induction k with
        | zero => exact e2
        | succ k ihk => rw [List.replicate_succ, List.replicate_succ]; exact .cons hs ihk

theorem wrap_toOption (x : PRes) : (match x with
    | .error e => (.error (wrapErr e) : PRes)
    | .ok r => .ok r).toOption = x.toOption := by
  rcases x with x | x <;> rfl

theorem parseNth_same {E : Env} {n : Nat} {maps maps' : List DMap} (h : All2 (SameMembers2 E n) maps maps') (bs : Bytes)
    (off depth : Nat) (hd : depth + n ≤ 11) : ∀ i, groupMapMissing maps[i]? = groupMapMissing maps'[i]? ∧
      (parseNth E maps i bs off depth).toOption = (parseNth E maps' i bs off depth).toOption := by
  induction h with
  | nil => exact fun i => ⟨rfl, rfl⟩
  | cons h t ih =>
    intro i
    cases i with
    | zero =>
      rw [parseNth, parseNth]
      exact ⟨h.2, h.1 bs off depth [] hd⟩
    | succ i =>
      rw [parseNth, parseNth]
      exact ih i

theorem group_same {E : Env} {n : Nat} {h : Hdr} {ident : String} {bm bm' : DMap} {dm dm' : Option DMap} {keys : List Lit}
    {maps maps' : List DMap} (hb : SameValues E n bm bm') (hd : groupMapMissing dm = groupMapMissing dm' ∧
      ∀ bs off depth, depth + n ≤ 11 → (parseOpt E dm bs off depth).toOption = (parseOpt E dm' bs off depth).toOption)
    (hm : All2 (SameMembers2 E n) maps maps') :
    SameValues E n (.group h ident bm dm keys maps) (.group h ident bm' dm' keys maps') := by
  intro bs off depth ns hdep
  have h1 := hb bs off depth [] hdep
  rw [parse, parse]
  generalize parse E bm bs off depth [] = x at h1 ⊢
  generalize parse E bm' bs off depth [] = y at h1 ⊢
  rcases x with x | ⟨v, k⟩ <;> rcases y with y | ⟨w, l⟩ <;> simp only [Except.toOption, reduceCtorEq, Option.some.injEq,
    Prod.mk.injEq] at h1
  · rfl
  · obtain ⟨rfl, rfl⟩ := h1
    simp only
    have key : ∀ id : Val, (match groupIndex keys id with
        | some i => if groupMapMissing maps[i]? = true then (.error .mapping : PRes)
          else match parseNth E maps i bs off depth with
            | .error e => .error (wrapErr e)
            | .ok r => .ok r
        | none => if groupMapMissing dm = true then .error .mapping
          else match parseOpt E dm bs off depth with
            | .error e => .error (wrapErr e)
            | .ok r => .ok r).toOption = (match groupIndex keys id with
        | some i => if groupMapMissing maps'[i]? = true then (.error .mapping : PRes)
          else match parseNth E maps' i bs off depth with
            | .error e => .error (wrapErr e)
            | .ok r => .ok r
        | none => if groupMapMissing dm' = true then .error .mapping
          else match parseOpt E dm' bs off depth with
            | .error e => .error (wrapErr e)
            | .ok r => .ok r).toOption := by
      intro id
      rcases groupIndex keys id with _ | i
      · simp only [hd.1]
        split
        · rfl
        · rw [wrap_toOption, wrap_toOption]; exact hd.2 bs off depth hdep
      · obtain ⟨h2, h3⟩ := parseNth_same hm bs off depth hdep i
        simp only [h2]
        split
        · rfl
        · rw [wrap_toOption, wrap_toOption]; exact h3
    split
    · rfl
    · exact key _

theorem resized_same {E : Env} (d : Defn) : ∀ n d', Resized E n d d' → ∀ nm o m m', createAs E nm o d = .ok m →
    createAs E nm o d' = .ok m' → SameValues E n m m' := by
  suffices h : (∀ n d', Resized E n d d' → ∀ nm o m m', createAs E nm o d = .ok m →
      createAs E nm o d' = .ok m' → SameValues E n m m') ∧
      (∀ n d', Resized E n d.target d' → ∀ nm o m m', createAs E nm o d.target = .ok m →
      createAs E nm o d' = .ok m' → SameValues E n m m') from h.1
  have same : ∀ {d : Defn} {n : Nat} {nm : String} {o : Order} {m m' : DMap}, createAs E nm o d = .ok m →
      createAs E nm o d = .ok m' → SameValues E n m m' := by
    intro d n nm o m m' h h' bs off depth ns _
    rw [h] at h'
    cases h'
    rfl
  induction d using Defn.ind with
  | seq h i e ih =>
    refine ⟨?a, ?a⟩
    intro n d' hr nm o m m' hm hm'
    cases hr with
    | same => exact same hm hm'
    | @seq n _ _ i' _ e' hl hw he hd =>
      intro bs off depth ns hdep
      exact seq_same hm hm' (hl ns) hw he hd (by omega) fun em em' _ _ h1 h2 p =>
        ih.1 _ _ he _ _ _ _ h1 h2 bs p (depth + 1) [] (by omega)
  | struct h ms ih =>
    refine ⟨?b, ?b⟩
    intro n d' hr nm o m m' hm hm'
    cases hr with
    | same => exact same hm hm'
    | @struct n _ _ ms' hms =>
      obtain ⟨io, infos, maps, l, hc, hmem, hlin, rfl, -⟩ := createAs_struct hm
      obtain ⟨io', infos', maps', l', hc', hmem', hlin', rfl, -⟩ := createAs_struct hm'
      obtain ⟨h1, h2⟩ := checkLinear_resized hms o
      cases l with
      | true =>
        obtain rfl := h2 hlin
        exact same hm hm'
      | false =>
        rw [h1, hlin'] at hlin
        cases hlin
        obtain rfl := createClass_names hc hc' (resized_names hms)
        obtain ⟨rfl, hall⟩ := members_same nm o ms ms' hms (by
          intro d d' hd hr
          obtain ⟨x, hx, rfl⟩ := List.mem_map.mp hd
          exact (ih x hx).2 _ _ hr) [] [] _ _ _ _ .nil hmem hmem'
        intro bs off depth ns hdep
        rw [parse, parse]
        simp only [Bool.false_eq_true, if_false]
        split
        · rfl
        · split
          · rfl
          · split
            · rfl
            · have := members_resized (cls := nm) (bs := bs) (outer := ns) (depth := depth) (by omega) hall infos off 0
                (newInstance (infos.map (·.name)))
              generalize parseMembers E nm bs depth ns infos maps off 0 (newInstance (infos.map (·.name))) = x at this ⊢
              generalize parseMembers E nm bs depth ns infos maps' off 0 (newInstance (infos.map (·.name))) = y at this ⊢
              rcases x with x | ⟨v, k⟩ <;> rcases y with y | ⟨w, l⟩ <;> simp only [Except.toOption, reduceCtorEq,
                Option.some.injEq, Prod.mk.injEq] at this ⊢
              obtain ⟨rfl, rfl⟩ := this
              exact ⟨rfl, rfl⟩
  | group h b i df ms ihb ihd ihm =>
    refine ⟨?c, ?c⟩
    intro n d' hr nm o m m' hm hm'
    cases hr with
    | same => exact same hm hm'
    | @group n _ _ b' _ _ df' _ ms' hb hdf hms =>
      obtain ⟨dm, bm, keys, maps, hd1, hb1, -, hg1, rfl⟩ := createAs_group hm
      obtain ⟨dm', bm', keys', maps', hd2, hb2, -, hg2, rfl⟩ := createAs_group hm'
      obtain ⟨k1, -, -, k4, -⟩ := resized_keeps hb
      rw [← k1, ← k4] at hb2
      obtain ⟨rfl, hall⟩ := createGroup_resized i hms (fun d d' hd hr => (ihm d hd).1 _ _ hr) _ _ _ _ _ hg1 hg2
      refine group_same (ihb.1 _ _ hb _ _ _ _ hb1 hb2) ?_ hall
      cases hdf with
      | none =>
        rw [createOpt] at hd1 hd2
        cases hd1
        cases hd2
        exact ⟨rfl, fun _ _ _ _ => rfl⟩
      | @some _ d d' hr =>
        obtain ⟨k1, -, -, k4, -⟩ := resized_keeps hr
        rw [createOpt] at hd1 hd2
        rw [← k1, ← k4] at hd2
        rcases hc : createAs E d.name d.orderOrNative d with x | m
        · rw [hc] at hd1; cases hd1
        rcases hc' : createAs E d.name d.orderOrNative d' with x | m'
        · rw [hc'] at hd2; cases hd2
        rw [hc] at hd1
        rw [hc'] at hd2
        cases hd1
        cases hd2
        refine ⟨resized_missing hr hc hc', fun bs off depth hdep => ?_⟩
        rw [parseOpt, parseOpt]
        exact (ihd _ rfl).1 _ _ hr _ _ _ _ hc hc' bs off depth [] hdep
  | member h d c t vs ih =>
    refine ⟨?_, ih.1⟩
    intro n d' hr nm o m m' hm hm'
    cases hr
    exact same hm hm'
  | _ =>
    refine ⟨?_, ?_⟩ <;>
    · intro n d' hr nm o m m' hm hm'
      cases hr
      exact same hm hm'

/-! ### The property -/

theorem maps_toOption {E : Env} {m m' : DMap} {bs : Bytes} {off depth : Nat} {c : Ctx} (hc : c.Clean)
    (h : (parse E m bs off depth c.values).toOption = (parse E m' bs off depth c.values).toOption) {v : Val} {k : Nat}
    (hm : (mapStream E m bs off depth c).1 = .ok v ∧ (mapStream E m bs off depth c).2.byteSize = some k) :
    (mapStream E m' bs off depth c).1 = .ok v ∧ (mapStream E m' bs off depth c).2.byteSize = some k := by
  obtain ⟨k', hp, hk⟩ := mapStream_ok hc hm.1
  rw [hm.2] at hk
  cases hk
  rw [hp] at h
  rcases hp' : parse E m' bs off depth c.values with x | r
  · rw [hp'] at h
    cases h
  · rw [hp'] at h
    cases h
    exact mapStream_of_parse hc hp'

/-- Whether a length is a number in the definition, or an expression with that value,
at any place of a structure, sequence or group not nested too deeply, makes no difference to the
bytes that can be mapped, the values they are mapped to and the number of bytes taken. -/
theorem C79_values_partial {E : Env} {n : Nat} {d d' : Defn} {m m' : DMap} (hr : Resized E n d d')
    (hn : n ≤ 11) (hm : createMap E d = .ok m) (hm' : createMap E d' = .ok m') (bs : Bytes) (off : Nat) (c : Ctx)
    (hc : c.Clean) (v : Val) (k : Nat) :
    ((mapStream E m bs off 0 c).1 = .ok v ∧ (mapStream E m bs off 0 c).2.byteSize = some k) ↔
      ((mapStream E m' bs off 0 c).1 = .ok v ∧ (mapStream E m' bs off 0 c).2.byteSize = some k) := by
  have hm' : createAs E d.name d.orderOrNative d' = .ok m' := by
    obtain ⟨h1, -, -, h4, -⟩ := resized_keeps hr
    rw [h1, h4]
    exact hm'
  have h := resized_same d _ _ hr _ _ _ _ hm hm' bs off 0 c.values (by omega)
  exact ⟨maps_toOption hc h, maps_toOption hc h.symm⟩

/-- The same for the length of one sequence, whose expressions may use the values of the
context: only these values matter. -/
theorem C79_length_partial {E : Env} {h : Hdr} {i i' : SeqInfo} {e : Defn} {m m' : DMap} (bs : Bytes) (off : Nat)
    (c : Ctx) (hc : c.Clean) (hl : SameLength E c.values i i')
    (hw : i.kind = .sequence → Whole i e ∧ Whole i' e) (hm : createMap E (.seq h i e) = .ok m)
    (hm' : createMap E (.seq h i' e) = .ok m') (v : Val) (k : Nat) :
    ((mapStream E m bs off 0 c).1 = .ok v ∧ (mapStream E m bs off 0 c).2.byteSize = some k) ↔
      ((mapStream E m' bs off 0 c).1 = .ok v ∧ (mapStream E m' bs off 0 c).2.byteSize = some k) := by
  have h := seq_same hm hm' hl hw (.same 0 e) (.inr rfl) (bs := bs) (off := off) (depth := 0) (by omega)
    fun em em' _ _ h1 h2 p => by rw [h1] at h2; cases h2; rfl
  exact ⟨maps_toOption hc h, maps_toOption hc h.symm⟩

/-- For streams and strings the errors are the same, too. -/
theorem C79_bytes {E : Env} {h : Hdr} {i i' : SeqInfo} {e : Defn} {m m' : DMap} (hk : i.kind ≠ .sequence) (bs : Bytes)
    (off : Nat) (c : Ctx) (hc : c.Clean) (hl : SameLength E c.values i i') (hm : createMap E (.seq h i e) = .ok m)
    (hm' : createMap E (.seq h i' e) = .ok m') :
    (mapStream E m bs off 0 c).1 = (mapStream E m' bs off 0 c).1 ∧
      ∀ v k, (mapStream E m bs off 0 c).1 = .ok v →
        ((mapStream E m bs off 0 c).2.byteSize = some k ↔ (mapStream E m' bs off 0 c).2.byteSize = some k) := by
  have hp : parse E m bs off 0 c.values = parse E m' bs off 0 c.values := by
    obtain ⟨-, -, em, -, -, hm1, -⟩ := createAs_seq hm
    obtain ⟨-, -, em', -, -, hm2, -⟩ := createAs_seq hm'
    rw [hm1, hm2, parse, parse, ← hl.1]
    cases hke : i.kind with
    | sequence => exact absurd hke hk
    | stream => simp only [sameLength_stream hl]
    | string enc => simp only [sameLength_string hl]
  rcases hx : parse E m bs off 0 c.values with x | ⟨w, l⟩
  · have h1 := (mapStream_error hc).mpr hx
    rw [hp] at hx
    have h2 := (mapStream_error hc).mpr hx
    rw [h1, h2]
    exact ⟨rfl, fun v k h => nomatch h⟩
  · obtain ⟨h1, h2⟩ := mapStream_of_parse hc hx
    rw [hp] at hx
    obtain ⟨h3, h4⟩ := mapStream_of_parse hc hx
    rw [h1, h2, h3, h4]
    exact ⟨rfl, fun _ _ _ => Iff.rfl⟩

/-- An environment in which the expression `2*2` has the value four. -/
def exEnvFour : Env :=
  { exEnv with
    evalExpr := fun s ns => if s = "2*2" then some (.int 4) else if s = "n" then nsGet ns "n" else none }

/-- `struct { uint8 a; uint16 b[2]; char s[4]; }` -/
def exNumbers : Defn :=
  .struct { name := "T" }
    [.member { name := "a" } exU8 none (some "uint8") none,
      .seq { name := "b" } { kind := .sequence, elementDataType := some "uint16", dataSize := some 4 } exU16,
      .member { name := "s" } (.seq { name := "S" }
        { kind := .stream, elementDataType := some "uint8", numElements := some 4 } exU8) none (some "S") none]

/-- The same with an expression as data size of `b` and as number of elements of `s`. -/
def exTexts : Defn :=
  .struct { name := "T" }
    [.member { name := "a" } exU8 none (some "uint8") none,
      .seq { name := "b" } { kind := .sequence, elementDataType := some "uint16", dataSizeExpr := some "2*2" } exU16,
      .member { name := "s" } (.seq { name := "S" }
        { kind := .stream, elementDataType := some "uint8", numElementsExpr := some "2*2" } exU8) none (some "S") none]

/-- Both take nine bytes. -/
example : Resized exEnvFour 2 exNumbers exTexts ∧ exNumbers.byteSize = some 9 ∧ exTexts.byteSize = none ∧
    ∃ m m', createMap exEnvFour exNumbers = .ok m ∧ createMap exEnvFour exTexts = .ok m' ∧
      ∃ v, (mapStream exEnvFour m [1, 2, 3, 4, 5, 6, 7, 8, 9, 10] 0 0 {}).1 = .ok v ∧
        (mapStream exEnvFour m [1, 2, 3, 4, 5, 6, 7, 8, 9, 10] 0 0 {}).2.byteSize = some 9 ∧
        (mapStream exEnvFour m' [1, 2, 3, 4, 5, 6, 7, 8, 9, 10] 0 0 {}).1 = .ok v ∧
        (mapStream exEnvFour m' [1, 2, 3, 4, 5, 6, 7, 8, 9, 10] 0 0 {}).2.byteSize = some 9 := by
  refine ⟨?_, rfl, rfl, _, _, rfl, rfl, _, rfl, rfl, rfl, rfl⟩
  have four : ∀ ns, Evaluates exEnvFour none (some "2*2") ns 4 := fun ns =>
    ⟨by decide, .inr ⟨rfl, _, _, rfl, by decide, rfl, .int⟩⟩
  have num : ∀ ns, Evaluates exEnvFour (some 4) none ns 4 := fun ns => ⟨by decide, .inl ⟨rfl, by decide⟩⟩
  refine .struct (.other (.same _ _) (.other (.seq ?_ ?_ (.same 0 _) (.inr rfl)) (.member (.seq ?_ ?_ (.same 0 _) (.inr rfl))
    (.nil _))))
  · exact fun ns => ⟨rfl, rfl, .inr ⟨4, .inl (num ns), .inl (four ns)⟩, .inl ⟨rfl, rfl, rfl, rfl⟩⟩
  · refine fun _ => ⟨fun _ => ⟨fun _ _ _ _ _ h => (nomatch h), .inr rfl, ?_⟩, fun _ => ⟨fun _ _ _ _ _ h => (nomatch h), .inl rfl,
      fun _ _ h => nomatch h⟩⟩
    intro ds es h1 h2
    cases h1
    cases h2
    exact ⟨2, rfl⟩
  · exact fun ns => ⟨rfl, rfl, .inl ⟨rfl, rfl, rfl, rfl⟩, .inr ⟨4, .inl (num ns), .inl (four ns)⟩⟩
  · exact fun h => nomatch h

/-- A group by the value of `a`, with a stream of four bytes in its member. -/
def exChoice (i : SeqInfo) : Defn :=
  .group { name := "g" } (.struct { name := "base" } [.member { name := "a" } exU8 none (some "uint8") none]) "a" none
    [.struct { name := "T" }
      [.member { name := "a" } exU8 none (some "uint8") (some [.int 1]),
        .member { name := "s" } (.seq { name := "S" } i exU8) none (some "S") none]]

/-- Both ways to give the length of the stream in the group give the same. -/
example : Resized exEnvFour 2 (exChoice { kind := .stream, elementDataType := some "uint8", numElements := some 4 })
      (exChoice { kind := .stream, elementDataType := some "uint8", numElementsExpr := some "2*2" }) ∧
    ∃ m m', createMap exEnvFour (exChoice { kind := .stream, elementDataType := some "uint8", numElements := some 4 }) = .ok m ∧
      createMap exEnvFour (exChoice { kind := .stream, elementDataType := some "uint8", numElementsExpr := some "2*2" }) = .ok m' ∧
      ∃ v, (mapStream exEnvFour m [1, 2, 3, 4, 5, 6] 0 0 {}).1 = .ok v ∧
        (mapStream exEnvFour m [1, 2, 3, 4, 5, 6] 0 0 {}).2.byteSize = some 5 ∧
        (mapStream exEnvFour m' [1, 2, 3, 4, 5, 6] 0 0 {}).1 = .ok v ∧
        (mapStream exEnvFour m' [1, 2, 3, 4, 5, 6] 0 0 {}).2.byteSize = some 5 := by
  refine ⟨?_, _, _, rfl, rfl, _, rfl, rfl, rfl, rfl⟩
  refine .group (.same _ _) (.none _) (.cons (.struct (.other (.same _ _) (.member (.seq ?_ ?_ (.same 0 _) (.inr rfl))
    (.nil _)))) (.nil _))
  · exact fun ns => ⟨rfl, rfl, .inl ⟨rfl, rfl, rfl, rfl⟩, .inr ⟨4, .inl ⟨by decide, .inl ⟨rfl, by decide⟩⟩,
      .inl ⟨by decide, .inr ⟨rfl, _, _, rfl, by decide, rfl, .int⟩⟩⟩⟩
  · exact fun h => nomatch h

/-- A stream of `n` bytes, where the context says that `n` is two, and one of two bytes. -/
example : SameLength exEnvFour [("n", .int 2)] { kind := .stream, numElementsExpr := some "n" } { kind := .stream, numElements := some 2 } :=
  ⟨rfl, rfl, .inl ⟨rfl, rfl, rfl, rfl⟩, .inr ⟨2, .inl ⟨by decide, .inr ⟨rfl, _, _, rfl, by decide, rfl, .int⟩⟩, .inl ⟨by decide, .inl ⟨rfl, by decide⟩⟩⟩⟩

/-- Every expression has the value three. -/
def exEnvThree : Env := { exEnv with evalExpr := fun _ _ => some (.int 3) }

/-- Every expression has the value two. -/
def exEnvTwo : Env := { exEnv with evalExpr := fun _ _ => some (.int 2) }

/-- The claim is false for a data size that is not a multiple of the element size: as a
number, 3 takes three bytes for one element of two bytes, as an expression two. -/
theorem C79_refuted : ∃ i i' m m', (∀ ns, SameLength exEnvThree ns i i') ∧
    createMap exEnvThree (.seq { name := "s" } i exU16) = .ok m ∧
    createMap exEnvThree (.seq { name := "s" } i' exU16) = .ok m' ∧
    (mapStream exEnvThree m [1, 0, 2, 0] 0 0 {}).1 = .ok (.tuple [.int 1]) ∧
    (mapStream exEnvThree m [1, 0, 2, 0] 0 0 {}).2.byteSize = some 3 ∧
    (mapStream exEnvThree m' [1, 0, 2, 0] 0 0 {}).1 = .ok (.tuple [.int 1]) ∧
    (mapStream exEnvThree m' [1, 0, 2, 0] 0 0 {}).2.byteSize = some 2 := by
  refine ⟨{ kind := .sequence, elementDataType := some "uint16", dataSize := some 3 },
    { kind := .sequence, elementDataType := some "uint16", dataSizeExpr := some "2+1" }, _, _, ?_, rfl, rfl, rfl, rfl, rfl, rfl⟩
  exact fun ns => ⟨rfl, rfl, .inr ⟨3, .inl ⟨by decide, .inl ⟨rfl, by decide⟩⟩, .inl ⟨by decide, .inr ⟨rfl, _, _, rfl, by decide, rfl, .int⟩⟩⟩,
    .inl ⟨rfl, rfl, rfl, rfl⟩⟩

/-- Nor are the errors of sequences the same: of three booleans, the first of which is
neither false nor true, two bytes are too few bytes as a number, and a wrong value as an
expression. -/
theorem C79_errors_refuted : ∃ i i' e m m', (∀ ns, SameLength exEnvThree ns i i') ∧
    createMap exEnvThree (.seq { name := "s" } i e) = .ok m ∧
    createMap exEnvThree (.seq { name := "s" } i' e) = .ok m' ∧
    (mapStream exEnvThree m [7, 1] 0 0 {}).1 = .error .tooSmall ∧
    (mapStream exEnvThree m' [7, 1] 0 0 {}).1 = .error .mapping := by
  refine ⟨{ kind := .sequence, elementDataType := some "bool", numElements := some 3 },
    { kind := .sequence, elementDataType := some "bool", numElementsExpr := some "2+1" },
    .prim { name := "bool" } (.boolean (some 0) (some 1)) (.bytes 1) "bytes", _, _, ?_, rfl, rfl, rfl, rfl⟩
  exact fun ns => ⟨rfl, rfl, .inl ⟨rfl, rfl, rfl, rfl⟩,
    .inr ⟨3, .inl ⟨by decide, .inl ⟨rfl, by decide⟩⟩, .inl ⟨by decide, .inr ⟨rfl, _, _, rfl, by decide, rfl, .int⟩⟩⟩⟩

/-- The claim is false for the elements of a sequence with a data size, too: their size must
be known. Two streams of two bytes fit in four bytes, unless their length is an expression. -/
theorem C79_elements_refuted : ∃ i i' m m' em, (∀ ns, SameLength exEnvTwo ns i i') ∧
    createMap exEnvTwo (.seq { name := "s" } { kind := .sequence, elementDataType := some "e", dataSize := some 4 }
      (.seq { name := "e" } i exU8)) = .ok m ∧
    createMap exEnvTwo (.seq { name := "s" } { kind := .sequence, elementDataType := some "e", dataSize := some 4 }
      (.seq { name := "e" } i' exU8)) = .ok m' ∧
    createMap exEnvTwo (.seq { name := "e" } i' exU8) = .ok em ∧
    (mapStream exEnvTwo em [1, 2, 3, 4] 0 0 {}).1 = .ok (.bytes [1, 2]) ∧
    (mapStream exEnvTwo m [1, 2, 3, 4] 0 0 {}).1 = .ok (.tuple [.bytes [1, 2], .bytes [3, 4]]) ∧
    (mapStream exEnvTwo m' [1, 2, 3, 4] 0 0 {}).1 = .error .mapping := by
  refine ⟨{ kind := .stream, elementDataType := some "uint8", numElements := some 2 },
    { kind := .stream, elementDataType := some "uint8", numElementsExpr := some "1+1" }, _, _, _, ?_, rfl, rfl, rfl,
    rfl, rfl, rfl⟩
  exact fun ns => ⟨rfl, rfl, .inl ⟨rfl, rfl, rfl, rfl⟩,
    .inr ⟨2, .inl ⟨by decide, .inl ⟨rfl, by decide⟩⟩, .inl ⟨by decide, .inr ⟨rfl, _, _, rfl, by decide, rfl, .int⟩⟩⟩⟩

/-- The definition in `n` structures. -/
def nested (d : Defn) : Nat → Defn
  | 0 => d
  | n + 1 => .struct { name := "T" } [.member { name := "a" } (nested d n) none (some "T") none]

/-- Nor does it hold of sequences in eleven structures: only a sequence that is read element
by element is refused there. -/
theorem C79_depth_refuted : ∃ i i' m m' v, (∀ ns, SameLength exEnvTwo ns i i') ∧
    createMap exEnvTwo (nested (.seq { name := "s" } i exU8) 11) = .ok m ∧
    createMap exEnvTwo (nested (.seq { name := "s" } i' exU8) 11) = .ok m' ∧
    (mapStream exEnvTwo m [1, 2] 0 0 {}).1 = .ok v ∧
    (mapStream exEnvTwo m' [1, 2] 0 0 {}).1 = .error .mapping := by
  refine ⟨{ kind := .sequence, elementDataType := some "uint8", numElements := some 2 },
    { kind := .sequence, elementDataType := some "uint8", numElementsExpr := some "1+1" }, _, _, _, ?_, rfl, rfl, rfl, rfl⟩
  exact fun ns => ⟨rfl, rfl, .inl ⟨rfl, rfl, rfl, rfl⟩,
    .inr ⟨2, .inl ⟨by decide, .inl ⟨rfl, by decide⟩⟩, .inl ⟨by decide, .inr ⟨rfl, _, _, rfl, by decide, rfl, .int⟩⟩⟩⟩

/-- `4 / 2` is the double 2.0, every other expression is 2. -/
def exEnvSlash : Env :=
  { exEnv with evalExpr := fun x _ => if x = "4 / 2" then some (.float 0x4000000000000000) else some (.int 2) }

theorem exSlash : Counts (.float 0x4000000000000000) (.finite (2 * 2 ^ 1074)) :=
  .float ((double_iff _ _).mpr ((quantity_fin _ _).mpr (by decide +kernel)))

set_option exponentiation.threshold 2000 in
/-- A sequence of `4 / 2` elements is one of `4 // 2` elements. -/
example : (∀ ns, SameLength exEnvSlash ns { kind := .sequence, elementDataType := some "uint16", numElementsExpr := some "4 / 2" }
      { kind := .sequence, elementDataType := some "uint16", numElementsExpr := some "4 // 2" }) ∧
    ∃ m, createMap exEnvSlash (.seq { name := "s" }
        { kind := .sequence, elementDataType := some "uint16", numElementsExpr := some "4 / 2" } exU16) = .ok m ∧
      (mapStream exEnvSlash m [1, 0, 2, 0, 3] 0 0 {}).1 = .ok (.tuple [.int 1, .int 2]) ∧
      (mapStream exEnvSlash m [1, 0, 2, 0, 3] 0 0 {}).2.byteSize = some 4 :=
  ⟨fun _ => ⟨rfl, rfl, .inl ⟨rfl, rfl, rfl, rfl⟩, .inr ⟨2,
      .inr ⟨rfl, by decide, .inr ⟨rfl, _, _, rfl, by decide, rfl, exSlash⟩⟩,
      .inl ⟨by decide, .inr ⟨rfl, _, _, rfl, by decide, rfl, .int⟩⟩⟩⟩,
    _, rfl, rfl, rfl⟩

set_option exponentiation.threshold 2000 in
/-- The claim is false for streams if the value of the expression is a `float`: it equals the
number, but bytes cannot be sliced with it. -/
theorem C79_float_refuted : ∃ m m' v, exEnvSlash.evalExpr "4 / 2" [] = some v ∧
    Counts v (.finite (2 * 2 ^ 1074)) ∧
    createMap exEnvSlash (.seq { name := "s" }
      { kind := .stream, elementDataType := some "uint8", numElements := some 2 } exU8) = .ok m ∧
    createMap exEnvSlash (.seq { name := "s" }
      { kind := .stream, elementDataType := some "uint8", numElementsExpr := some "4 / 2" } exU8) = .ok m' ∧
    (mapStream exEnvSlash m [1, 2] 0 0 {}).1 = .ok (.bytes [1, 2]) ∧
    (mapStream exEnvSlash m' [1, 2] 0 0 {}).1 = .error .type :=
  ⟨_, _, _, rfl, exSlash, rfl, rfl, rfl, by rfl⟩

end Dtf
