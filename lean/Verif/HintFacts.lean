import Verif.Hint
import Verif.ParseSize
/-!
What GetSizeHint says before and after a MapByteStream that found the byte stream
too small.
-/
namespace Dtf

namespace Spec

/-- The names an expression sees in GetSizeHint before anything is mapped: none,
or a structure all of whose members are `None`. -/
def Blank (ns : Namespace) : Prop :=
  ns = [] ∨ ∃ cls : String, ∃ names : List String,
    ns = [(cls, .struct cls (names.map fun n => (n, .pyNone)))]

/-- Python numbers. -/
def IsNumber : Val → Prop
  | .int _ | .bool _ | .float _ => True
  | _ => False

/-- A size expression that is a number before anything is mapped does not depend
on what is mapped. -/
def Steady (E : Env) (x : String) : Prop :=
  ∀ ns, Blank ns → ∀ v, E.evalExpr x (withBuiltins ns) = some v → IsNumber v →
    ∀ ns', E.evalExpr x ns' = some v

/-- Definitions whose size hints are exact enough to retry with: elements of
sequences have a fixed size, which is one byte for streams and strings with a
terminator only and for sequences with a data size expression; no padding,
conditional members, unions, families and groups; a member is not the type of a
member. -/
def Hinted (E : Env) : Defn → Prop
  | .padding _ _ | .union _ _ | .family _ _ _ | .group _ _ _ _ _ => False
  | .seq _ info e =>
    (∀ x, info.dataSizeExpr = some x ∨ info.numElementsExpr = some x → Steady E x) ∧
    ∃ s : Nat, 0 < s ∧ e.byteSize = some s ∧
      (info.kind = .sequence → info.dataSizeExpr.isSome → s = 1) ∧
      (info.kind ≠ .sequence → (info.terminator.isSome → info.numElementsExpr = none) ∧
        (info.hasDataSize = false → info.hasNumElements = false → s = 1))
  | .struct _ ms => ∀ m ∈ ms, truthyStr m.memInfo.condition = false
  | .member _ d _ _ _ => ∀ h d' c t vs, d ≠ .member h d' c t vs
  | _ => True

end Spec
open Spec

/-- A map is a padding map. -/
def DMap.IsPadding (m : DMap) : Prop := ∃ h a, m = .padding h a

/-- GetSizeHint after ByteStreamTooSmallError asks for more bytes than there are
and for no more than are needed. -/
def HintAfter (E : Env) (m : DMap) : Prop :=
  ∀ bs ext off depth c v N, Ctx.Clean c → off ≤ bs.length →
    parse E m (bs ++ ext) off depth c.values = .ok (v, N) →
    parse E m bs off depth c.values = .error .tooSmall →
    ∀ (o : Int) ns', (m.IsPadding → o = off) →
      ∃ k : Nat, sizeHint E m o { (mapStream E m bs off depth c).2 with values := ns' } = .ok (some (k : Int)) ∧
        bs.length < off + k ∧ k ≤ N

/-- GetSizeHint before anything is mapped asks for no more than is needed. -/
def HintFresh (E : Env) (m : DMap) : Prop :=
  ∀ bs off depth ns v N, parse E m bs off depth ns = .ok (v, N) →
    ∀ (o : Nat) ns', (ns' = ns ∨ Blank ns') →
      sizeHint E m o { values := ns' } = .ok none ∨
      ∃ k : Nat, sizeHint E m o { values := ns' } = .ok (some (k : Int)) ∧
        (¬ m.IsPadding → k ≤ N) ∧ (m.IsPadding → o ≤ off → o + k ≤ off + N)

/-! ### Expressions -/

theorem evalSize_nonneg {E : Env} {kd : SeqKind} {x : Option String} {ns : Namespace} {n : Int}
    (h : evalSize E kd x ns = .ok n) : 0 ≤ n := by
  unfold evalSize at h
  split at h
  · split at h
    · cases h
    · split at h
      · cases h
      · exact checkSize_nonneg h
  · cases h

theorem evalDataSize_nonneg {E : Env} {info : SeqInfo} {ns : Namespace} {n : Int}
    (h : evalDataSize E info ns = .ok n) : 0 ≤ n := by
  unfold evalDataSize at h
  split at h
  · exact checkSize_nonneg h
  · exact evalSize_nonneg h

theorem evalNumElements_nonneg {E : Env} {info : SeqInfo} {ns : Namespace} {n : Int}
    (h : evalNumElements E info ns = .ok n) : 0 ≤ n := by
  unfold evalNumElements at h
  split at h
  · exact checkSize_nonneg h
  · exact evalSize_nonneg h

theorem evalSize_steady {E : Env} {kd : SeqKind} {x : Option String} (hx : ∀ y, x = some y → Steady E y)
    {ns ns' : Namespace} (hb : ns' = ns ∨ Blank ns') :
    evalSize E kd x ns' = .error .mapping ∨ evalSize E kd x ns' = evalSize E kd x ns := by
  rcases hb with rfl | hb
  · exact .inr rfl
  unfold evalSize
  cases x with
  | none => exact .inl rfl
  | some s =>
    simp only
    split
    · exact .inl rfl
    · have h := hx s rfl ns' hb
      cases hv : E.evalExpr s (withBuiltins ns') with
      | none => exact .inl rfl
      | some v =>
        have h := h v hv
        simp only
        by_cases hn : IsNumber v
        · rw [h hn]; exact .inr rfl
        · left
          cases v <;> first | rfl | exact absurd trivial hn

theorem ignoreMapping_steady {a b : Except Err Int} (h : a = .error .mapping ∨ a = b) {n : Int}
    (hb : b = .ok n) : ignoreMapping a = .ok none ∨ ignoreMapping a = .ok (some n) := by
  rcases h with rfl | rfl
  · exact .inl rfl
  · subst hb; exact .inr rfl

/-- The data size evaluated before mapping is unknown or the right one. -/
theorem hint_dataSize {E : Env} {info : SeqInfo}
    (hst : ∀ x, info.dataSizeExpr = some x ∨ info.numElementsExpr = some x → Steady E x)
    {ns ns' : Namespace} (hb : ns' = ns ∨ Blank ns') {n : Int} (hn : evalDataSize E info ns = .ok n) :
    ignoreMapping (evalDataSize E info ns') = .ok none ∨
      ignoreMapping (evalDataSize E info ns') = .ok (some n) := by
  refine ignoreMapping_steady ?_ hn
  unfold evalDataSize
  split
  · exact .inr rfl
  · exact evalSize_steady (fun y hy => hst y (.inl hy)) hb

theorem hint_numElements {E : Env} {info : SeqInfo}
    (hst : ∀ x, info.dataSizeExpr = some x ∨ info.numElementsExpr = some x → Steady E x)
    {ns ns' : Namespace} (hb : ns' = ns ∨ Blank ns') {n : Int} (hn : evalNumElements E info ns = .ok n) :
    ignoreMapping (evalNumElements E info ns') = .ok none ∨
      ignoreMapping (evalNumElements E info ns') = .ok (some n) := by
  refine ignoreMapping_steady ?_ hn
  unfold evalNumElements
  split
  · exact .inr rfl
  · exact evalSize_steady (fun y hy => hst y (.inr hy)) hb

/-! ### Element sequences -/

/-- What the hints need of a sequence map with elements of `s` bytes. -/
structure SeqHinted (E : Env) (info : SeqInfo) (ei : ElemInfo) (bsz : Option Int) (s : Nat) : Prop where
  pos : 0 < s
  size : ei.byteSize = some (s : Int)
  steady : ∀ x, info.dataSizeExpr = some x ∨ info.numElementsExpr = some x → Steady E x
  dataPos : ∀ k, info.dataSize = some k → 0 < k
  numPos : ∀ k, info.numElements = some k → 0 < k
  notBoth : info.numElements.isSome → info.dataSize = none ∧ info.dataSizeExpr = none
  total : info.hasDataSize = true → bsz = info.dataSize
  count : ∀ n, info.hasDataSize = false → bsz = some n → ∃ k, info.numElements = some k ∧ n = s * k

theorem SeqHinted.truthy {E : Env} {info : SeqInfo} {ei : ElemInfo} {bsz : Option Int} {s : Nat}
    (h : SeqHinted E info ei bsz s) : truthyInt ei.byteSize = true := by
  have := h.pos
  rw [h.size]
  simp [truthyInt]
  omega

/-- Before mapping, with a data size. -/
theorem seqHint_data {E : Env} {info : SeqInfo} {ei : ElemInfo} {bsz : Option Int} {s : Nat}
    (h : SeqHinted E info ei bsz s) (hd : info.hasDataSize = true) (eh : Ctx → Except Err (Option Int))
    {ns ns' : Namespace} (hb : ns' = ns ∨ Blank ns') {n : Int} (hn : evalDataSize E info ns = .ok n) :
    seqHint E info ei bsz eh { values := ns' } = .ok none ∨
      seqHint E info ei bsz eh { values := ns' } = .ok (some n) := by
  unfold seqHint
  simp only [truthyInt, Bool.false_eq_true, if_false, hd, if_true]
  rw [h.total hd]
  cases hds : info.dataSize with
  | none => exact hint_dataSize h.steady hb hn
  | some k =>
    right
    have := evalDataSize_pos E info ns k (h.dataPos k hds) hds
    rw [hn] at this
    cases this
    rfl

/-- Before mapping, with a terminator. -/
theorem seqHint_term {E : Env} {info : SeqInfo} {ei : ElemInfo} {bsz : Option Int} {s : Nat}
    (h : SeqHinted E info ei bsz s) (hd : info.hasDataSize = false) (ht : info.terminator.isSome = true)
    (eh : Ctx → Except Err (Option Int)) (c : Ctx) (h1 : c.byteSize = none) (h2 : c.elementsDataSize = none) :
    seqHint E info ei bsz eh c = .ok (some ((c.elementsDataOffset.getD 0 + s : Nat) : Int)) := by
  unfold seqHint
  simp [truthyInt, h1, h2, hd, ht, h.size]

/-- Before mapping, with a number of elements. -/
theorem seqHint_num {E : Env} {info : SeqInfo} {ei : ElemInfo} {bsz : Option Int} {s : Nat}
    (h : SeqHinted E info ei bsz s) (hd : info.hasDataSize = false) (ht : info.terminator.isSome = false)
    (hm : info.hasNumElements = true) (eh : Ctx → Except Err (Option Int))
    {ns ns' : Namespace} (hb : ns' = ns ∨ Blank ns') {n : Int} (hn : evalNumElements E info ns = .ok n) :
    seqHint E info ei bsz eh { values := ns' } = .ok none ∨
      seqHint E info ei bsz eh { values := ns' } = .ok (some (n * s)) := by
  unfold seqHint
  simp only [truthyInt, Bool.false_eq_true, if_false, hd, ht, hm, if_true]
  rcases hint_numElements h.steady hb hn with h' | h' <;> rw [h']
  · exact .inl rfl
  · right
    have := h.truthy
    rw [h.size] at this ⊢
    simp only [truthyInt] at this
    simp [this]

/-- After mapping, with a size that was saved. -/
theorem seqHint_saved (E : Env) (info : SeqInfo) (ei : ElemInfo) (bsz : Option Int)
    (eh : Ctx → Except Err (Option Int)) (c : Ctx) (h1 : c.byteSize = none) (n : Int)
    (h2 : c.elementsDataSize = some n) (hn : 0 < n) :
    seqHint E info ei bsz eh c = .ok (some n) := by
  unfold seqHint
  have : n ≠ 0 := by omega
  simp [truthyInt, h1, h2, this]

/-- After mapping, with a number of elements that was saved. -/
theorem seqHint_savedNum {E : Env} {info : SeqInfo} {ei : ElemInfo} {bsz : Option Int} {s : Nat}
    (h : SeqHinted E info ei bsz s) (hd : info.hasDataSize = false) (ht : info.terminator.isSome = false)
    (hm : info.hasNumElements = true) (eh : Ctx → Except Err (Option Int)) (c : Ctx)
    (h1 : c.byteSize = none) (h2 : c.elementsDataSize = none) (n : Int) (h0 : 0 ≤ n)
    (h3 : c.numberOfElements = some n) :
    seqHint E info ei bsz eh c = .ok (some (n * s)) := by
  unfold seqHint
  have h0 : ¬ n < 0 := by omega
  have := h.truthy
  rw [h.size] at this
  simp only [truthyInt] at this
  simp [truthyInt, h1, h2, hd, ht, hm, h3, h0, h.size, this]

/-! ### Streams -/

/-- The terminator search finds nothing before the end of the stream, and what it
finds in a longer stream is further on. -/
theorem scanTerm_notFound (bs ext : Bytes) (t : Lit) (fuel fuel' cur n : Nat) (hcur : cur ≤ bs.length)
    (h : scanTerm bs 1 t fuel cur (cur + 1) = .notFound n) :
    n = bs.length ∧ ∀ k, scanTerm (bs ++ ext) 1 t fuel' cur (cur + 1) = .found k → n < k := by
  induction fuel generalizing cur fuel' with
  | zero => cases h
  | succ fuel ih =>
    rw [scanTerm] at h
    by_cases hlt : cur < bs.length
    · rw [if_pos hlt] at h
      split at h
      · cases h
      · rename_i hnt
        refine ⟨(ih 0 (cur + 1) (by omega) h).1, ?_⟩
        intro k hk
        cases fuel' with
        | zero => cases hk
        | succ fuel' =>
          rw [scanTerm] at hk
          have hsl : slice (bs ++ ext) cur (cur + 1) = slice bs cur (cur + 1) := by
            simp only [slice]
            rw [List.drop_append_of_le_length (by omega),
              List.take_append_of_le_length (by rw [List.length_drop]; omega)]
          rw [hsl, if_pos (by rw [List.length_append]; omega), if_neg hnt] at hk
          exact (ih fuel' (cur + 1) (by omega) h).2 k hk
    · rw [if_neg hlt] at h
      split at h
      · cases h
      · cases h
        refine ⟨by omega, ?_⟩
        intro k hk
        have : ∀ fuel cur next k, cur < next → scanTerm (bs ++ ext) 1 t fuel cur next = .found k → cur < k := by
          intro fuel
          induction fuel with
          | zero => intro cur next k _ h; cases h
          | succ fuel ih =>
            intro cur next k hlt h
            rw [scanTerm] at h
            split at h
            · split at h
              · cases h; omega
              · have := ih next (next + 1) k (by omega) h; omega
            · split at h <;> cases h
        exact this _ _ _ _ (by omega) hk

theorem scanTerm_found_pos (bs : Bytes) (s : Nat) (hs : 0 < s) (t : Lit) (fuel cur next k : Nat)
    (h : scanTerm bs s t fuel cur next = .found k) : next ≤ k := by
  induction fuel generalizing cur next with
  | zero => cases h
  | succ fuel ih =>
    rw [scanTerm] at h
    split at h
    · split at h
      · cases h; omega
      · have := ih _ _ h; omega
    · split at h <;> cases h

/-- After a stream map found the byte stream too small. -/
theorem streamMap_hint {E : Env} {info : SeqInfo} {ei : ElemInfo} {bsz : Option Int} {s : Nat}
    (h : SeqHinted E info ei bsz s) (hs1 : info.hasDataSize = false → info.hasNumElements = false → s = 1)
    (eh : Ctx → Except Err (Option Int)) (bs ext : Bytes) (off : Nat) (c : Ctx) (hc : c.Clean)
    (hoff : off ≤ bs.length) (b : Bytes) (N : Nat)
    (hw : streamParse E info ei (bs ++ ext) off c.values = .ok (b, N))
    (hp : streamParse E info ei bs off c.values = .error .tooSmall) (ns' : Namespace) :
    ∃ k : Nat, seqHint E info ei bsz eh { (streamMap E info ei bs off c).2 with values := ns' } =
        .ok (some (k : Int)) ∧ bs.length < off + k ∧ k ≤ N := by
  obtain ⟨hcd1, hcd2, -⟩ := calcDataSize_clean E info ei c hc
  have hr := streamMap_refines E info ei bs off c hc
  rw [hp] at hr
  have hr : (streamMap E info ei bs off c).1 = .error .tooSmall := hr
  unfold streamParse at hw hp
  unfold streamMap at hr ⊢
  rcases hcd : calcDataSize E info ei c with ⟨r, c'⟩
  rw [hcd] at hcd1 hcd2
  simp only at hcd1 hcd2
  rw [hcd] at hr
  rw [Ctx.clean_iff] at hcd2
  rw [← hcd1] at hw hp
  rcases r with e | (_ | n)
  · simp at hw
  · simp only at hw hp hr ⊢
    cases ht : info.terminator with
    | none => rw [ht] at hw; cases hw
    | some t =>
      rw [ht] at hw hp hr
      simp only [h.size] at hw hp hr ⊢
      have hsz : info.hasDataSize = false ∧ info.hasNumElements = false := by
        unfold streamSize at hcd1
        rw [h.size] at hcd1
        cases hd : info.hasDataSize
        · cases hn : info.hasNumElements
          · exact ⟨rfl, rfl⟩
          · simp only [hd, hn, Bool.false_eq_true, if_false, if_true] at hcd1
            split at hcd1 <;> cases hcd1
        · simp only [hd, if_true] at hcd1
          split at hcd1 <;> cases hcd1
      have hs := hs1 hsz.1 hsz.2
      subst hs
      have hterm : info.terminator.isSome = true := by rw [ht]; rfl
      have hdrop : (bs ++ ext).drop off = bs.drop off ++ ext := by
        rw [List.drop_append_of_le_length hoff]
      simp only [Int.natCast_one, Int.toNat_one] at hw hp hr ⊢
      cases hsc : scanTerm (bs.drop off) 1 t (bs.length - off + 2) 0 1 with
      | found n => rw [hsc] at hp; cases hp
      | emptyMatch => rw [hsc] at hp; cases hp
      | diverge => rw [hsc] at hp; cases hp
      | notFound n =>
        simp only
        have hsc' := hsc
        obtain ⟨hn, hnk⟩ := scanTerm_notFound (bs.drop off) ext t (bs.length - off + 2)
          ((bs ++ ext).length - off + 2) 0 n (by omega) hsc'
        rw [seqHint_term h hsz.1 hterm eh _ rfl (by simpa using hcd2.2.2.2.2.1)]
        refine ⟨_, rfl, ?_, ?_⟩
        · simp only [Option.getD_some]
          rw [List.length_drop] at hn
          omega
        · split at hw <;> cases hw
          rename_i hfd
          rw [hdrop] at hfd
          have := hnk _ hfd
          simp only [Option.getD_some]
          omega
  · simp only at hw hp hr ⊢
    cases hts : tooSmall bs off n with
    | false => rw [hts] at hp; simp at hp
    | true =>
      simp only [if_true]
      have hlt : (bs.length : Int) - off < n := by simpa [tooSmall] using hts
      split at hw
      · cases hw
      cases hw
      rw [seqHint_saved E info ei bsz eh _ rfl n rfl (by omega)]
      refine ⟨n.toNat, ?_, by omega, by omega⟩
      congr 2
      omega

/-- Before a stream is mapped. -/
theorem stream_hintFresh {E : Env} {info : SeqInfo} {ei : ElemInfo} {bsz : Option Int} {s : Nat}
    (h : SeqHinted E info ei bsz s)
    (hs1 : info.terminator.isSome → info.numElementsExpr = none)
    (eh : Ctx → Except Err (Option Int)) (bs : Bytes) (off : Nat) (ns ns' : Namespace)
    (hb : ns' = ns ∨ Blank ns') (b : Bytes) (N : Nat)
    (hw : streamParse E info ei bs off ns = .ok (b, N)) :
    seqHint E info ei bsz eh { values := ns' } = .ok none ∨
    ∃ k : Nat, seqHint E info ei bsz eh { values := ns' } = .ok (some (k : Int)) ∧ k ≤ N := by
  have hsized : ∀ n : Int, streamSize E info ei ns = .ok (some n) → N = n.toNat := by
    intro n hn
    unfold streamParse at hw
    rw [hn] at hw
    simp only at hw
    split at hw <;> cases hw
    rfl
  have hspos := h.pos
  cases hd : info.hasDataSize with
  | true =>
    cases hev : evalDataSize E info ns with
    | error e => simp [streamParse, streamSize, hd, hev] at hw
    | ok n =>
      have hN := hsized n (by simp [streamSize, hd, hev])
      have hn0 := evalDataSize_nonneg hev
      rcases seqHint_data h hd eh hb hev with h' | h'
      · exact .inl h'
      · refine .inr ⟨n.toNat, ?_, by omega⟩
        rw [h']; congr 2; omega
  | false =>
    have hnum : info.hasNumElements = true → ∃ n, evalNumElements E info ns = .ok n ∧ N = (n * s).toNat ∧ 0 ≤ n := by
      intro hm
      cases hev : evalNumElements E info ns with
      | error e => simp [streamParse, streamSize, hd, hm, hev, h.size] at hw
      | ok n => exact ⟨n, rfl, hsized _ (by simp [streamSize, hd, hm, hev, h.size]), evalNumElements_nonneg hev⟩
    cases ht : info.terminator.isSome with
    | true =>
      refine .inr ⟨_, seqHint_term h hd ht eh _ rfl rfl, ?_⟩
      simp only [Option.getD_none, Nat.zero_add]
      cases hm : info.hasNumElements with
      | true =>
        obtain ⟨n, hn, rfl, -⟩ := hnum hm
        have hx := hs1 ht
        simp only [SeqInfo.hasNumElements, hx, Option.isSome_none, Bool.or_false] at hm
        obtain ⟨k, hk⟩ := Option.isSome_iff_exists.mp hm
        have hk0 := h.numPos k hk
        rw [evalNumElements_pos E info ns k hk0 hk] at hn
        cases hn
        have : (1 : Int) * s ≤ n * s := Int.mul_le_mul_of_nonneg_right (by omega) (by omega)
        omega
      | false =>
        unfold streamParse at hw
        simp only [streamSize, hd, hm, Bool.false_eq_true, if_false, h.size, Int.toNat_natCast] at hw
        split at hw
        · cases hw
        · split at hw <;> cases hw
          rename_i hfd
          exact scanTerm_found_pos _ _ hspos _ _ _ _ _ hfd
    | false =>
      cases hm : info.hasNumElements with
      | true =>
        obtain ⟨n, hn, rfl, hn0⟩ := hnum hm
        have : 0 ≤ n * s := Int.mul_nonneg hn0 (by omega)
        rcases seqHint_num h hd ht hm eh hb hn with h' | h'
        · exact .inl h'
        · refine .inr ⟨(n * s).toNat, ?_, by omega⟩
          rw [h']; congr 2; omega
      | false =>
        left
        unfold seqHint
        simp [truthyInt, hd, ht, hm]

/-! ### Sequences -/

/-- Every element takes `s` bytes. -/
def ElemSize (E : Env) (e : DMap) (s : Nat) : Prop :=
  ∀ bs off depth ns, Exact (parse E e bs off depth ns) bs.length off s

theorem seqParse_used {step : Nat → PRes} {len : Nat} {num ds : Option Int} {t : Option Lit}
    {fuel off used index : Nat} {last : Val} {vs : List Val} {u : Nat}
    (h : seqParse step len num ds t fuel off used index last = .ok (vs, u)) : used ≤ u := by
  induction fuel generalizing off used index last vs u with
  | zero => cases h
  | succ fuel ih =>
    rw [seqParse] at h
    split at h
    · have := (seqEnd_used h).2; omega
    · split at h
      · cases h
      · split at h
        · cases h
        · rename_i hr
          cases h
          split at hr
          · have := (seqEnd_used hr).2; omega
          · have := ih hr; omega

/-- The contexts the loop passes to the element map. -/
def ElemCtx (e : DMap) (c : Ctx) : Prop :=
  c.Clean ∧ (c.values = [] ∨ (e.isSeq = true ∧ c.values = withBuiltins []))

theorem ElemCtx.parse {E : Env} {e : DMap} {c : Ctx} (h : ElemCtx e c) (bs : Bytes) (off depth : Nat) :
    parse E e bs off depth c.values = parse E e bs off depth [] := by
  rcases h.2 with h | ⟨h1, h2⟩
  · rw [h]
  · rw [h2, parse_builtins E e h1]

theorem ElemCtx.next {e : DMap} {c : Ctx} (h : ElemCtx e c) {r : Ctx} (hr : r.Clean)
    (hv : r.values = c.values ∨ (e.isSeq = true ∧ r.values = withBuiltins c.values)) : ElemCtx e r := by
  refine ⟨hr, ?_⟩
  rcases hv with hv | ⟨hs, hv⟩ <;> rcases h.2 with h | ⟨h1, h2⟩
  · left; rw [hv, h]
  · right; rw [hv, h2]; exact ⟨h1, rfl⟩
  · right; rw [hv, h]; exact ⟨hs, rfl⟩
  · right; rw [hv, h2, withBuiltins_idem]; exact ⟨h1, rfl⟩

/-- The loop over the elements up to a terminator: where it stops because the
stream is too small, and that more is needed from there. -/
theorem seqLoop_term (E : Env) (e : DMap) (s : Nat) (hs : 0 < s) (he : ElemSize E e s)
    (hext : e.Every Extendable) (t : Lit) (bs ext : Bytes) (depth : Nat) (fuel fuel' : Nat) (st : SeqSt)
    (hsub : ElemCtx e st.sub) (hoff : st.off ≤ bs.length)
    (hlast : pyEq st.last t = false) (vs : List Val) (u : Nat)
    (hw : seqParse (fun off => parse E e (bs ++ ext) off (depth + 1) []) (bs ++ ext).length none none
      (some t) fuel' st.off st.dataOffset st.index st.last = .ok (vs, u))
    (hp : seqOutRes none none (some t)
      (seqLoop (fun off c => mapStream E e bs off (depth + 1) c) bs.length none none (some t) fuel st) =
        .error .tooSmall) :
    ∃ st', (seqLoop (fun off c => mapStream E e bs off (depth + 1) c) bs.length none none (some t) fuel st =
        .raised .tooSmall st' ∨
      seqLoop (fun off c => mapStream E e bs off (depth + 1) c) bs.length none none (some t) fuel st =
        .done st') ∧
      bs.length + st.dataOffset < st.off + st'.dataOffset + s ∧ st'.dataOffset + s ≤ u := by
  induction fuel generalizing fuel' st vs with
  | zero => simp [seqLoop, seqOutRes, wrapErr] at hp
  | succ fuel ih =>
    cases fuel' with
    | zero => simp [seqParse] at hw
    | succ fuel' =>
      rw [seqParse] at hw
      simp only [atNumber, atDataSize, Bool.or_false, decide_eq_true_eq] at hw
      by_cases hx : (bs ++ ext).length ≤ st.off
      · rw [if_pos hx] at hw
        simp [seqEnd, atDataSize, hlast] at hw
      · rw [if_neg hx] at hw
        -- the whole stream has one more element here
        cases hv : parse E e (bs ++ ext) st.off (depth + 1) [] with
        | error x => rw [hv] at hw; cases hw
        | ok r =>
          obtain ⟨v, n⟩ := r
          rw [hv] at hw
          simp only at hw
          have hn : n = s := by
            have := he (bs ++ ext) st.off (depth + 1) []
            rw [hv] at this
            have := this.1
            omega
          subst hn
          have hused : st.dataOffset + n ≤ u := by
            split at hw
            · cases hw
            · rename_i hr
              cases hw
              split at hr
              · have := (seqEnd_used hr).2; omega
              · have := seqParse_used hr; omega
          have hcl : Ctx.Clean st.sub := hsub.1
          have href := refines E e bs st.off (depth + 1) st.sub hcl
          rw [hsub.parse] at href
          rw [seqLoop]
          by_cases hl : bs.length ≤ st.off
          · rw [if_pos hl]
            exact ⟨st, .inr rfl, by omega, hused⟩
          rw [if_neg hl]
          rw [seqLoop, if_neg hl] at hp
          simp only [atNumber, atDataSize, Bool.false_eq_true, if_false] at hp ⊢
          cases hpp : parse E e bs st.off (depth + 1) [] with
          | error x =>
            by_cases hxt : x = .tooSmall
            · subst hxt
              rw [hpp] at href
              have href : (mapStream E e bs st.off (depth + 1) st.sub).1 = .error .tooSmall := href
              have hex := he bs st.off (depth + 1) []
              rw [hpp] at hex
              have hex : (bs.length : Int) < st.off + n := hex rfl
              rcases hms : mapStream E e bs st.off (depth + 1) st.sub with ⟨r, sub⟩
              rw [hms] at href
              simp only at href
              subst href
              exact ⟨_, .inl rfl, by simp only; omega, hused⟩
            · have := parse_append E e hext bs ext st.off (depth + 1) [] (by rw [hpp]; simpa using hxt)
              rw [hv, hpp] at this
              cases this
          | ok r =>
            have := parse_append E e hext bs ext st.off (depth + 1) [] (by rw [hpp]; simp)
            rw [hv, hpp] at this
            cases this
            rw [hpp] at href
            obtain ⟨h1, h2, h3, h4⟩ := href
            have hex := he bs st.off (depth + 1) []
            rw [hpp] at hex
            have hex := hex.2
            rcases hms : mapStream E e bs st.off (depth + 1) st.sub with ⟨r, sub⟩
            rw [hms] at h1 h2 h3 h4 hp
            simp only at h1 h2 h3 h4 hp
            subst h1
            simp only [h2] at hp ⊢
            cases hat : atTerm (some t) v with
            | true =>
              rw [hat] at hp
              simp only [if_true] at hp
              simp only [atTerm] at hat
              simp [seqOutRes, termMissing, hat] at hp
            | false =>
              rw [hat] at hp hw
              simp only [Bool.false_eq_true, if_false] at hp hw ⊢
              split at hw
              · cases hw
              · rename_i hr
                cases hw
                obtain ⟨st', h5, h6, h7⟩ := ih fuel'
                  { off := st.off + n, dataOffset := st.dataOffset + n, index := st.index + 1, last := v,
                    values := st.values ++ [v], sub := sub } (hsub.next h3 h4) (by simp only; omega) hat _ hr hp
                exact ⟨st', h5, by simp only at h6; omega, h7⟩

/-- The size rules of a sequence with elements of `s` bytes. -/
theorem seqRules_hinted {E : Env} {info : SeqInfo} {ei : ElemInfo} {bsz : Option Int} {s : Nat}
    (h : SeqHinted E info ei bsz s) (hdvd : ∀ k, info.dataSize = some k → (s : Int) ∣ k)
    (hone : info.dataSizeExpr.isSome → s = 1) {ns : Namespace} {ds : Option Int} {t : Option Lit}
    {num : Option Int} (hr : (seqRules E info ei ns).1 = .ok (ds, t, num)) (hnum : num ≠ some (-1)) :
    (info.hasDataSize = true ∧ ∃ q : Nat, evalDataSize E info ns = .ok ((q : Int) * s) ∧
      ds = some ((q : Int) * s) ∧ t = none ∧ num = some (q : Int)) ∨
    (info.hasDataSize = false ∧ ∃ t', info.terminator = some t' ∧ ds = none ∧ t = some t' ∧ num = none) ∨
    (info.hasDataSize = false ∧ info.terminator = none ∧ info.hasNumElements = true ∧
      ∃ q : Nat, evalNumElements E info ns = .ok (q : Int) ∧ ds = none ∧ t = none ∧ num = some (q : Int)) := by
  have hpos := h.pos
  have hs0 : (s : Int) ≠ 0 := by omega
  unfold seqRules at hr
  simp only [h.size, hs0, if_false] at hr
  cases hd : info.hasDataSize with
  | true =>
    left
    refine ⟨rfl, ?_⟩
    rw [hd] at hr
    simp only [if_true] at hr
    cases hev : evalDataSize E info ns with
    | error e => rw [hev] at hr; cases hr
    | ok n =>
      rw [hev] at hr
      simp only at hr
      cases hr
      have hn0 := evalDataSize_nonneg hev
      have hdv : (s : Int) ∣ n := by
        cases hds : info.dataSize with
        | some k =>
          rw [evalDataSize_pos E info ns k (h.dataPos k hds) hds] at hev
          cases hev
          exact hdvd _ hds
        | none =>
          simp only [SeqInfo.hasDataSize, hds, Option.isSome_none, Bool.false_or] at hd
          rw [hone hd]
          exact ⟨n, by omega⟩
      obtain ⟨q, rfl⟩ := hdv
      have hq : Int.fdiv ((s : Int) * q) s = q := Int.mul_fdiv_cancel_left q hs0
      have hq0 : 0 ≤ q := by
        apply Classical.byContradiction
        intro hq
        have := Int.mul_neg_of_pos_of_neg (a := (s : Int)) (b := q) (by omega) (by omega)
        omega
      have hc : ((q.toNat : Nat) : Int) = q := by omega
      refine ⟨q.toNat, ?_, ?_, rfl, ?_⟩
      · rw [hc, Int.mul_comm]
      · rw [hc, Int.mul_comm]
      · rw [hc, hq]
  | false =>
    right
    rw [hd] at hr
    simp only [Bool.false_eq_true, if_false] at hr
    cases ht : info.terminator with
    | some t' =>
      left
      rw [ht] at hr
      simp only [Option.isSome_some, if_true] at hr
      cases hr
      exact ⟨rfl, t', rfl, rfl, rfl, rfl⟩
    | none =>
      right
      rw [ht] at hr
      simp only [Option.isSome_none, Bool.false_eq_true, if_false] at hr
      cases hm : info.hasNumElements with
      | false => rw [hm] at hr; cases hr
      | true =>
        rw [hm] at hr
        simp only [if_true] at hr
        cases hev : countable (evalNumElements E info ns) with
        | error e => rw [hev] at hr; cases hr
        | ok n =>
          rw [hev] at hr
          cases hr
          rcases countable_ok hev with hev | ⟨-, rfl⟩
          case inr => exact absurd rfl hnum
          have := evalNumElements_nonneg hev
          have hc : ((n.toNat : Nat) : Int) = n := by omega
          exact ⟨rfl, rfl, rfl, n.toNat, by rw [hc]; exact hev, rfl, rfl, by rw [hc]⟩

/-- A parsed sequence of `q` elements of `s` bytes. -/
theorem compositeSeq_count {E : Env} {e : DMap} {s : Nat} (hs : 0 < s) (he : ElemSize E e s) (bs : Bytes)
    (off depth fuel q : Nat) (ds : Option Int) (hds : ds = none ∨ ds = some ((q : Int) * s)) :
    (∀ vs u, seqParse (fun off => parse E e bs off (depth + 1) []) bs.length (some (q : Int)) ds none fuel
        off 0 0 .pyNone = .ok (vs, u) → u = q * s) ∧
    (seqParse (fun off => parse E e bs off (depth + 1) []) bs.length (some (q : Int)) ds none fuel
        off 0 0 .pyNone = .error .tooSmall → bs.length < off + q * s) := by
  have := seqParse_exact (fun off => parse E e bs off (depth + 1) []) bs.length s (by omega) q ds hds
    (fun _ => True) (fun _ h => h) (fun off _ => he bs off (depth + 1) []) fuel off 0 0 .pyNone (by omega)
    (by simp) trivial
  constructor
  · intro vs u h
    rw [h] at this
    have := this.1
    exact_mod_cast this
  · intro h
    rw [h] at this
    have := this rfl
    simp only [Int.natCast_zero, Int.sub_zero] at this
    exact_mod_cast this

theorem elem_step (E : Env) (e : DMap) (bs : Bytes) (depth : Nat) :
    ∀ off c, ElemCtx e c → match parse E e bs off (depth + 1) [] with
      | .error x => (mapStream E e bs off (depth + 1) c).1 = .error x
      | .ok (v, n) => (mapStream E e bs off (depth + 1) c).1 = .ok v ∧
          (mapStream E e bs off (depth + 1) c).2.byteSize = some n ∧
          ElemCtx e (mapStream E e bs off (depth + 1) c).2 := by
  intro off c hc
  have hr := refines E e bs off (depth + 1) c hc.1
  rw [hc.parse] at hr
  revert hr
  generalize parse E e bs off (depth + 1) [] = p
  intro hr
  rcases p with x | ⟨v, n⟩
  · exact hr
  · exact ⟨hr.1, hr.2.1, hc.next hr.2.2.1 hr.2.2.2⟩

theorem seqLoop_refines_elem (E : Env) (e : DMap) (bs : Bytes) (depth : Nat) (num ds : Option Int)
    (t : Option Lit) (fuel : Nat) (st : SeqSt) (hsub : ElemCtx e st.sub) :
    seqOutRes num ds t (seqLoop (fun off c => mapStream E e bs off (depth + 1) c) bs.length num ds t fuel st) =
      (match seqParse (fun off => parse E e bs off (depth + 1) []) bs.length num ds t fuel st.off
          st.dataOffset st.index st.last with
        | .error e => .error e
        | .ok (vs, u) => .ok (st.values ++ vs, u)) :=
  seqLoop_refines _ _ (ElemCtx e) (elem_step E e bs depth) bs.length num ds t fuel st hsub

/-- The context a sequence map leaves when the byte stream is too small. -/
theorem compositeSeqMap_saved {E : Env} {info : SeqInfo} {ei : ElemInfo} {step : Nat → Ctx → Res} {bs : Bytes}
    {off depth : Nat} {c : Ctx} (hc : c.Clean) (hdep : ¬ depth > 10) {ds num : Option Int} {t : Option Lit}
    {ns : Namespace} (hrr : seqRules E info ei c.values = (.ok (ds, t, num), ns))
    (herr : (compositeSeqMap E info ei step bs off depth c).1 = .error .tooSmall) :
    ∃ st, (seqLoop step bs.length num ds t (seqFuel bs.length off num 0)
        { off := off, dataOffset := 0, index := 0, last := .pyNone, values := [], sub := {} } =
          .raised .tooSmall st ∨
      seqLoop step bs.length num ds t (seqFuel bs.length off num 0)
        { off := off, dataOffset := 0, index := 0, last := .pyNone, values := [], sub := {} } = .done st) ∧
      (compositeSeqMap E info ei step bs off depth c).2 =
        seqSave { c with byteSize := none, values := ns } st num ds := by
  have hc' := hc
  rw [Ctx.clean_iff] at hc'
  obtain ⟨-, h2, h3, h4, h5, h6, -, h8, -, -⟩ := hc'
  unfold compositeSeqMap at herr ⊢
  simp only [if_neg hdep, hrr, h2, h3, h4, h6, Option.getD_none] at herr ⊢
  revert herr
  generalize seqLoop step bs.length num ds t (seqFuel bs.length off num 0)
        { off := off, dataOffset := 0, index := 0, last := .pyNone, values := [], sub := {} } = out
  intro herr
  cases out with
  | done st =>
    refine ⟨st, .inr rfl, ?_⟩
    simp only at herr ⊢
    split
    · rfl
    · rw [if_neg (by assumption)] at herr
      split
      · rfl
      · rw [if_neg (by assumption)] at herr; cases herr
  | raised x st =>
    cases x <;> simp_all [wrapErr]

theorem compositeSeq_hint {E : Env} {info : SeqInfo} {ei : ElemInfo} {bsz : Option Int} {s : Nat}
    (h : SeqHinted E info ei bsz s) (hdvd : ∀ k, info.dataSize = some k → (s : Int) ∣ k)
    (hone : info.dataSizeExpr.isSome → s = 1) {e : DMap} (he : ElemSize E e s) (hext : e.Every Extendable)
    (hnn : ∀ t, info.terminator = some t → pyEq .pyNone t = false)
    (eh : Ctx → Except Err (Option Int)) (bs ext : Bytes) (off depth : Nat) (c : Ctx) (hc : c.Clean)
    (hoff : off ≤ bs.length) (v : Val) (N : Nat)
    (hw : compositeSeqParse E info ei (fun off => parse E e (bs ++ ext) off (depth + 1) []) (bs ++ ext).length
      off depth c.values = .ok (v, N))
    (hp : compositeSeqParse E info ei (fun off => parse E e bs off (depth + 1) []) bs.length
      off depth c.values = .error .tooSmall) (ns' : Namespace) :
    ∃ k : Nat, seqHint E info ei bsz eh
        { (compositeSeqMap E info ei (fun off c => mapStream E e bs off (depth + 1) c) bs off depth c).2 with
          values := ns' } = .ok (some (k : Int)) ∧ bs.length < off + k ∧ k ≤ N := by
  have hpos := h.pos
  have hpm := compositeSeqMap_refines E info ei (fun off c => mapStream E e bs off (depth + 1) c)
    (fun off => parse E e bs off (depth + 1) []) (ElemCtx e) ⟨rfl, .inl rfl⟩ (elem_step E e bs depth) bs off
    depth c hc
  rw [hp] at hpm
  have hpm : (compositeSeqMap E info ei (fun off c => mapStream E e bs off (depth + 1) c) bs off depth c).1 =
    .error .tooSmall := hpm
  unfold compositeSeqParse at hw hp
  by_cases hdep : depth > 10
  · rw [if_pos hdep] at hw; cases hw
  rw [if_neg hdep] at hw hp
  rcases hrr : seqRules E info ei c.values with ⟨r, ns⟩
  rw [hrr] at hw hp
  rcases r with x | ⟨ds, t, num⟩
  · cases hw
  simp only at hw hp
  have hsp : seqParse (fun off => parse E e bs off (depth + 1) []) bs.length num ds t
      (seqFuel bs.length off num 0) off 0 0 .pyNone = .error .tooSmall := by
    split at hp
    · rename_i hh; cases hp; exact hh
    · cases hp
  have hsw : ∃ vs, seqParse (fun off => parse E e (bs ++ ext) off (depth + 1) []) (bs ++ ext).length num ds t
      (seqFuel (bs ++ ext).length off num 0) off 0 0 .pyNone = .ok (vs, N) := by
    split at hw
    · cases hw
    · rename_i hh; cases hw; exact ⟨_, hh⟩
  obtain ⟨vs, hsw⟩ := hsw
  obtain ⟨st, hst, hsv⟩ := compositeSeqMap_saved hc hdep hrr hpm
  rw [hsv]
  have hru : (seqRules E info ei c.values).1 = .ok (ds, t, num) := by rw [hrr]
  have hnum : num ≠ some (-1) := by
    rintro rfl
    exact seqParse_reached hsw
  rcases seqRules_hinted h hdvd hone hru hnum with ⟨hd, q, hev, rfl, rfl, rfl⟩ |
    ⟨hd, t', ht, rfl, rfl, rfl⟩ | ⟨hd, ht, hm, q, hev, rfl, rfl, rfl⟩
  · have hlt := (compositeSeq_count hpos he bs off depth _ q _ (.inr rfl)).2 hsp
    have hN := (compositeSeq_count hpos he (bs ++ ext) off depth _ q _ (.inr rfl)).1 _ _ hsw
    have hq : 0 < q * s := by omega
    refine ⟨q * s, ?_, hlt, by omega⟩
    rw [seqHint_saved E info ei bsz eh _ rfl ((q : Int) * s) rfl (by exact_mod_cast hq)]
    push_cast
    rfl
  · have hl := seqLoop_refines_elem E e bs depth none none (some t') (seqFuel bs.length off none 0)
      { off := off, dataOffset := 0, index := 0, last := .pyNone, values := [], sub := {} } ⟨rfl, .inl rfl⟩
    simp only [hsp] at hl
    obtain ⟨st', hst', h6, h7⟩ := seqLoop_term E e s hpos he hext t' bs ext depth _ _ 
      { off := off, dataOffset := 0, index := 0, last := .pyNone, values := [], sub := {} } ⟨rfl, .inl rfl⟩
      hoff (hnn t' ht) vs N hsw hl
    have : st = st' := by
      rcases hst with hst | hst <;> rcases hst' with hst' | hst' <;> rw [hst] at hst' <;> cases hst' <;> rfl
    subst this
    rw [seqHint_term h hd (by rw [ht]; rfl) eh _ rfl rfl]
    refine ⟨_, rfl, ?_, ?_⟩
    · simp only [seqSave, Option.getD_some] at h6 ⊢
      omega
    · simp only [seqSave, Option.getD_some]
      omega
  · have hlt := (compositeSeq_count hpos he bs off depth _ q _ (.inl rfl)).2 hsp
    have hN := (compositeSeq_count hpos he (bs ++ ext) off depth _ q _ (.inl rfl)).1 _ _ hsw
    refine ⟨q * s, ?_, hlt, by omega⟩
    rw [seqHint_savedNum h hd (by rw [ht]; rfl) hm eh _ rfl rfl (q : Int) (by omega) rfl]
    push_cast
    rfl

/-- Before a sequence is mapped element by element. -/
theorem compositeSeq_hintFresh {E : Env} {info : SeqInfo} {ei : ElemInfo} {bsz : Option Int} {s : Nat}
    (h : SeqHinted E info ei bsz s) (hdvd : ∀ k, info.dataSize = some k → (s : Int) ∣ k)
    (hone : info.dataSizeExpr.isSome → s = 1) {e : DMap} (he : ElemSize E e s)
    (hnn : ∀ t, info.terminator = some t → pyEq .pyNone t = false)
    (eh : Ctx → Except Err (Option Int)) (bs : Bytes) (off depth : Nat) (ns ns' : Namespace)
    (hb : ns' = ns ∨ Blank ns') (v : Val) (N : Nat)
    (hw : compositeSeqParse E info ei (fun off => parse E e bs off (depth + 1) []) bs.length
      off depth ns = .ok (v, N)) :
    seqHint E info ei bsz eh { values := ns' } = .ok none ∨
    ∃ k : Nat, seqHint E info ei bsz eh { values := ns' } = .ok (some (k : Int)) ∧ k ≤ N := by
  have hpos := h.pos
  unfold compositeSeqParse at hw
  by_cases hdep : depth > 10
  · rw [if_pos hdep] at hw; cases hw
  rw [if_neg hdep] at hw
  rcases hrr : seqRules E info ei ns with ⟨r, nsr⟩
  rw [hrr] at hw
  rcases r with x | ⟨ds, t, num⟩
  · cases hw
  simp only at hw
  have hsw : ∃ vs, seqParse (fun off => parse E e bs off (depth + 1) []) bs.length num ds t
      (seqFuel bs.length off num 0) off 0 0 .pyNone = .ok (vs, N) := by
    split at hw
    · cases hw
    · rename_i hh; cases hw; exact ⟨_, hh⟩
  obtain ⟨vs, hsw⟩ := hsw
  have hru : (seqRules E info ei ns).1 = .ok (ds, t, num) := by rw [hrr]
  have hnum : num ≠ some (-1) := by
    rintro rfl
    exact seqParse_reached hsw
  rcases seqRules_hinted h hdvd hone hru hnum with ⟨hd, q, hev, rfl, rfl, rfl⟩ |
    ⟨hd, t', ht, rfl, rfl, rfl⟩ | ⟨hd, ht, hm, q, hev, rfl, rfl, rfl⟩
  · have hN := (compositeSeq_count hpos he bs off depth _ q _ (.inr rfl)).1 _ _ hsw
    rcases seqHint_data h hd eh hb hev with h' | h'
    · exact .inl h'
    · refine .inr ⟨q * s, ?_, by omega⟩
      rw [h']; push_cast; rfl
  · refine .inr ⟨_, seqHint_term h hd (by rw [ht]; rfl) eh _ rfl rfl, ?_⟩
    simp only [Option.getD_none, Nat.zero_add]
    unfold seqFuel at hsw
    rw [seqParse] at hsw
    have hnl := hnn t' ht
    split at hsw
    · simp [seqEnd, hnl, atDataSize] at hsw
    · split at hsw
      · cases hsw
      · rename_i v n hv
        have hn : n = s := by
          have := he bs off (depth + 1) []
          rw [hv] at this
          have := this.1
          omega
        subst hn
        split at hsw
        · cases hsw
        · rename_i hr
          cases hsw
          split at hr
          · have := (seqEnd_used hr).2; omega
          · have := seqParse_used hr; omega
  · have hN := (compositeSeq_count hpos he bs off depth _ q _ (.inl rfl)).1 _ _ hsw
    rcases seqHint_num h hd (by rw [ht]; rfl) hm eh hb hev with h' | h'
    · exact .inl h'
    · refine .inr ⟨q * s, ?_, by omega⟩
      rw [h']; push_cast; rfl

/-- Before a sequence is mapped with one struct operation. -/
theorem linearSeq_hintFresh {E : Env} {info : SeqInfo} {ei : ElemInfo} {n : Int} {s : Nat}
    (h : SeqHinted E info ei (some n) s) (hlin : seqLinear info ei = true)
    (eh : Ctx → Except Err (Option Int)) (ns' : Namespace) :
    seqHint E info ei (some n) eh { values := ns' } = .ok (some n) := by
  simp only [seqLinear, Bool.not_eq_true', Bool.or_eq_false_iff] at hlin
  obtain ⟨⟨⟨-, hx⟩, ht⟩, hnx⟩ := hlin
  cases hd : info.hasDataSize with
  | true => simp [seqHint, truthyInt, hd]
  | false =>
    obtain ⟨k, hk, rfl⟩ := h.count n hd rfl
    have hm : info.hasNumElements = true := by simp [SeqInfo.hasNumElements, hk]
    have hev := evalNumElements_pos E info ns' k (h.numPos k hk) hk
    have := h.truthy
    rw [h.size] at this
    simp only [truthyInt] at this
    simp only [seqHint, truthyInt, hd, ht, hm, hev, ignoreMapping, Bool.false_eq_true, if_false, if_true,
      h.size, this, Option.map_some, Int.mul_comm]

/-! ### Structures -/

/-- The hints of members that are not mapped yet. -/
theorem hintMembers_fresh {E : Env} {cls : String} {bs : Bytes} {depth : Nat} {outer : Namespace}
    (maps : List DMap) (hf : ∀ m ∈ maps, HintFresh E m) (infos : List MemInfo)
    (hlen : infos.length = maps.length) (hcond : ∀ i ∈ infos, truthyStr i.condition = false)
    (off used : Nat) (hpad : (∃ m ∈ maps, m.IsPadding) → off = used) (attrs attrs' : List (String × Val)) (N : Nat)
    (hw : parseMembers E cls bs depth outer infos maps off used attrs = .ok (attrs', N))
    (total : Nat) (ht : total ≤ used) (ns' : Namespace) (hb : Blank ns') :
    ∃ k : Nat, hintMembers E maps 0 total { values := ns' } = .ok (k : Int) ∧ total ≤ k ∧ k ≤ N := by
  induction maps generalizing infos off used attrs total ns' with
  | nil =>
    simp only [parseMembers, Except.ok.injEq, Prod.mk.injEq] at hw
    exact ⟨total, rfl, by omega, by omega⟩
  | cons m maps ih =>
    cases infos with
    | nil => simp at hlen
    | cons i infos =>
      rw [parseMembers] at hw
      have hc : evalCondition E i (structNs cls attrs outer) = .ok true := by
        unfold evalCondition; rw [hcond i List.mem_cons_self]; rfl
      simp only [hc] at hw
      cases hp : parse E m bs off (depth + 1) (structNs cls attrs outer) with
      | error x => rw [hp] at hw; cases hw
      | ok r =>
        obtain ⟨v, n⟩ := r
        rw [hp] at hw
        simp only at hw
        split at hw
        · cases hw
        have hlen' : infos.length = maps.length := by simpa using hlen
        have ih := fun total ht ns' hb => ih (fun m hm => hf m (List.mem_cons_of_mem _ hm)) infos hlen'
          (fun i hi => hcond i (List.mem_cons_of_mem _ hi)) (off + n) (used + n)
          (fun ⟨m, hm, hmp⟩ => by rw [hpad ⟨m, List.mem_cons_of_mem _ hm, hmp⟩]) _ hw total ht ns' hb
        rw [hintMembers]
        rcases hf m List.mem_cons_self bs off (depth + 1) _ v n hp total ns' (.inr hb) with h | ⟨k, h, h1, h2⟩
        · rw [h]
          obtain ⟨k, -, hk1, hk2⟩ := ih (total) (by omega) [] (.inl rfl)
          exact ⟨total, rfl, by omega, by omega⟩
        · rw [h]
          have hle : total + k ≤ used + n := by
            by_cases hmp : m.IsPadding
            · have := hpad ⟨m, List.mem_cons_self, hmp⟩
              have := h2 hmp (by omega)
              omega
            · have := h1 hmp; omega
          obtain ⟨k', hk, hk1, hk2⟩ := ih (total + k) hle [] (.inl rfl)
          refine ⟨k', ?_, by omega, hk2⟩
          rw [← hk]
          push_cast
          rfl

/-- The hint after the loop over the members found the byte stream too small. -/
theorem hintMembers_after {E : Env} {cls : String} {bs ext : Bytes} {depth : Nat}
    (maps : List DMap) (hext : ∀ m ∈ maps, m.Every Extendable) (hf : ∀ m ∈ maps, HintFresh E m)
    (ha : ∀ m ∈ maps, HintAfter E m) (infos : List MemInfo)
    (hlen : infos.length = maps.length) (hcond : ∀ i ∈ infos, truthyStr i.condition = false)
    (st : StructSt) (hst : st.sub.Clean) (hoff : st.off ≤ bs.length)
    (hpad : (∃ m ∈ maps, m.IsPadding) → st.off = st.size) (attrs' : List (String × Val)) (N : Nat)
    (hw : parseMembers E cls (bs ++ ext) depth st.sub.values infos maps st.off st.size st.attrs = .ok (attrs', N))
    (hp : parseMembers E cls bs depth st.sub.values infos maps st.off st.size st.attrs = .error .tooSmall) :
    ∃ st' i, structLoop E cls bs depth infos maps 0 st = .tooSmall st' ∧ st'.index = st.index + i ∧
      ∀ ns', ∃ k : Nat, hintMembers E maps i st'.size { st'.sub with values := ns' } = .ok (k : Int) ∧
        bs.length + st.size < st.off + k ∧ k ≤ N := by
  induction maps generalizing infos st with
  | nil => simp [parseMembers] at hp
  | cons m maps ih =>
    cases infos with
    | nil => simp at hlen
    | cons i infos =>
      rw [parseMembers] at hw hp
      have hc : evalCondition E i (structNs cls st.attrs st.sub.values) = .ok true := by
        unfold evalCondition; rw [hcond i List.mem_cons_self]; rfl
      simp only [hc] at hw hp
      rw [structLoop]
      simp only [hc]
      have hcl : Ctx.Clean { st.sub with values := structNs cls st.attrs st.sub.values } := by
        rw [Ctx.clean_iff] at hst ⊢; exact hst
      have href := refines E m bs st.off (depth + 1) _ hcl
      simp only at href
      have happ := parse_append E m (hext m List.mem_cons_self) bs ext st.off (depth + 1)
        (structNs cls st.attrs st.sub.values)
      have hlen' : infos.length = maps.length := by simpa using hlen
      cases hpw : parse E m (bs ++ ext) st.off (depth + 1) (structNs cls st.attrs st.sub.values) with
      | error x => rw [hpw] at hw; cases hw
      | ok r =>
        obtain ⟨v, n⟩ := r
        rw [hpw] at hw happ
        simp only at hw
        split at hw
        · cases hw
        rename_i hvo
        cases hpp : parse E m bs st.off (depth + 1) (structNs cls st.attrs st.sub.values) with
        | error x =>
          rw [hpp] at hp happ href
          by_cases hx : x = .tooSmall
          · subst hx
            have href : (mapStream E m bs st.off (depth + 1)
              { st.sub with values := structNs cls st.attrs st.sub.values }).1 = .error .tooSmall := href
            have hha := ha m List.mem_cons_self bs ext st.off (depth + 1) _ v n hcl hoff hpw hpp st.size
            rcases hms : mapStream E m bs st.off (depth + 1)
              { st.sub with values := structNs cls st.attrs st.sub.values } with ⟨r, sub⟩
            rw [hms] at href hha
            simp only at href hha
            subst href
            simp only
            refine ⟨_, 0, rfl, rfl, ?_⟩
            intro ns'
            obtain ⟨k, h1, h2, h3⟩ := hha ns' (fun hmp => by
              have := hpad ⟨m, List.mem_cons_self, hmp⟩; omega)
            rw [hintMembers]
            simp only [h1]
            obtain ⟨k', hk, hk1, hk2⟩ := hintMembers_fresh maps (fun m hm => hf m (List.mem_cons_of_mem _ hm))
              infos hlen' (fun i hi => hcond i (List.mem_cons_of_mem _ hi)) (st.off + n) (st.size + n)
              (fun ⟨m, hm, hmp⟩ => by rw [hpad ⟨m, List.mem_cons_of_mem _ hm, hmp⟩]) _ _ N hw (st.size + k)
              (by omega) [] (.inl rfl)
            refine ⟨k', ?_, by omega, hk2⟩
            rw [← hk]
            push_cast
            rfl
          · have := happ (by simpa using hx)
            cases this
        | ok r =>
          rw [hpp] at hp happ href
          have := happ (by simp)
          cases this
          obtain ⟨h1, h2, h3, h4⟩ := href
          rcases hms : mapStream E m bs st.off (depth + 1)
            { st.sub with values := structNs cls st.attrs st.sub.values } with ⟨r, sub⟩
          rw [hms] at h1 h2 h3
          simp only at h1 h2 h3 hp
          subst h1
          simp only [h2]
          rw [if_neg hvo] at hp ⊢
          have hb := parse_bound E m (DMap.Every.imp (fun _ h => h.1) m (hext m List.mem_cons_self)) bs st.off (depth + 1) _ v n hpp
          obtain ⟨st', j, hj1, hj2, hj3⟩ := ih (fun m hm => hext m (List.mem_cons_of_mem _ hm))
            (fun m hm => hf m (List.mem_cons_of_mem _ hm)) (fun m hm => ha m (List.mem_cons_of_mem _ hm)) infos
            hlen' (fun i hi => hcond i (List.mem_cons_of_mem _ hi))
            { off := st.off + n, size := st.size + n, index := st.index + 1,
              attrs := setAttr st.attrs i.name v, sub := { sub with values := st.sub.values } }
            (by rw [Ctx.clean_iff] at h3 ⊢; exact h3) (by simp only; omega)
            (fun ⟨m, hm, hmp⟩ => by simp only; rw [hpad ⟨m, List.mem_cons_of_mem _ hm, hmp⟩]) hw hp
          refine ⟨st', j + 1, ?_, by rw [hj2]; simp only; omega, ?_⟩
          · simpa [h2, hvo] using hj1
          · intro ns'
            obtain ⟨k, hk, hk1, hk2⟩ := hj3 ns'
            refine ⟨k, ?_, by simp only at hk1; omega, hk2⟩
            rw [hintMembers]
            exact hk

/-- A structure mapped member by member, after the byte stream was too small. -/
theorem struct_after {E : Env} {h : Hdr} {bsz : Option Int} {io : Bool} {infos : List MemInfo}
    {maps : List DMap} (hext : ∀ m ∈ maps, m.Every Extendable) (hf : ∀ m ∈ maps, HintFresh E m)
    (ha : ∀ m ∈ maps, HintAfter E m) (hlen : infos.length = maps.length)
    (hcond : ∀ i ∈ infos, truthyStr i.condition = false) {bs ext : Bytes} {off depth : Nat} {c : Ctx} {v : Val}
    {N : Nat} (hc : c.Clean) (hoff : off ≤ bs.length) (hpad : (∃ m ∈ maps, m.IsPadding) → off = 0)
    (hw : parse E (.struct h bsz false io infos maps) (bs ++ ext) off depth c.values = .ok (v, N))
    (hp : parse E (.struct h bsz false io infos maps) bs off depth c.values = .error .tooSmall) (o : Int)
    (ns' : Namespace) :
    ∃ k : Nat, sizeHint E (.struct h bsz false io infos maps) o
        { (mapStream E (.struct h bsz false io infos maps) bs off depth c).2 with values := ns' } =
          .ok (some (k : Int)) ∧ bs.length < off + k ∧ k ≤ N := by
  rw [parse] at hw hp
  simp only [Bool.false_eq_true, if_false] at hw hp
  by_cases hdep : depth > 10
  · rw [if_pos hdep] at hw; cases hw
  rw [if_neg hdep] at hw hp
  cases hio : io with
  | false => rw [hio] at hw; cases hw
  | true =>
  rw [hio] at hw hp
  simp only [Bool.not_true, Bool.false_eq_true, if_false] at hw hp
  by_cases hemp : infos.length = 0
  · rw [if_pos hemp] at hw; cases hw
  rw [if_neg hemp] at hw hp
  have hpm : parseMembers E h.name bs depth c.values infos maps off 0 (newInstance (infos.map (·.name))) =
      .error .tooSmall := by
    split at hp
    · rename_i hh; cases hp; exact hh
    · cases hp
  have hpw : ∃ attrs, parseMembers E h.name (bs ++ ext) depth c.values infos maps off 0
      (newInstance (infos.map (·.name))) = .ok (attrs, N) := by
    split at hw
    · cases hw
    · rename_i hh; cases hw; exact ⟨_, hh⟩
  obtain ⟨attrs, hpw⟩ := hpw
  have hc' := hc
  rw [Ctx.clean_iff] at hc'
  obtain ⟨h1, h2, h3, h4, h5, h6, h7, h8, h9, h10⟩ := hc'
  rw [mapStream]
  simp only [Bool.false_eq_true, if_false, if_neg hdep, Bool.not_true, Bool.and_false, h1, h2, h7,
    Option.getD_none]
  obtain ⟨st', i, hj1, hj2, hj3⟩ := hintMembers_after maps hext hf ha infos hlen hcond
    { off := off, size := 0, index := 0, attrs := newInstance (infos.map (·.name)), sub := { values := c.values } }
    rfl hoff hpad attrs N hpw hpm
  rw [hj1]
  simp only [sizeHint, structSave, Option.isNone_some, Bool.false_and, Bool.false_eq_true, if_false,
    Option.getD_some]
  obtain ⟨k, hk, hk1, hk2⟩ := hj3 (structNs h.name st'.attrs st'.sub.values)
  have hi : st'.index = i := by rw [hj2]; simp
  rw [hi]
  refine ⟨k, ?_, by simpa using hk1, hk2⟩
  rw [hk]

/-- A structure before it is mapped. -/
theorem struct_fresh {E : Env} {h : Hdr} {bsz : Option Int} {io : Bool} {infos : List MemInfo}
    {maps : List DMap} (hf : ∀ m ∈ maps, HintFresh E m) (hlen : infos.length = maps.length)
    (hcond : ∀ i ∈ infos, truthyStr i.condition = false) {bs : Bytes} {off depth : Nat} {ns : Namespace} {v : Val}
    {N : Nat} (hpad : (∃ m ∈ maps, m.IsPadding) → off = 0)
    (hw : parse E (.struct h bsz false io infos maps) bs off depth ns = .ok (v, N)) (o : Int)
    (ns' : Namespace) :
    ∃ k : Nat, sizeHint E (.struct h bsz false io infos maps) o { values := ns' } = .ok (some (k : Int)) ∧ k ≤ N := by
  rw [parse] at hw
  simp only [Bool.false_eq_true, if_false] at hw
  by_cases hdep : depth > 10
  · rw [if_pos hdep] at hw; cases hw
  rw [if_neg hdep] at hw
  cases hio : io with
  | false => rw [hio] at hw; cases hw
  | true =>
  rw [hio] at hw
  simp only [Bool.not_true, Bool.false_eq_true, if_false] at hw
  split at hw
  · cases hw
  have hpw : ∃ attrs, parseMembers E h.name bs depth ns infos maps off 0
      (newInstance (infos.map (·.name))) = .ok (attrs, N) := by
    split at hw
    · cases hw
    · rename_i hh; cases hw; exact ⟨_, hh⟩
  obtain ⟨attrs, hpw⟩ := hpw
  obtain ⟨k, hk, hk1, hk2⟩ := hintMembers_fresh maps hf infos hlen hcond off 0 hpad _ _ N hpw 0 (by omega)
    (structNs h.name (newInstance (infos.map (·.name))) [])
    (.inr ⟨h.name, infos.map (·.name), rfl⟩)
  refine ⟨k, ?_, hk2⟩
  simp only [sizeHint, Bool.not_true, Bool.and_false, Bool.false_eq_true, if_false, Option.getD_none]
  simp only [Int.natCast_zero] at hk
  simp only [hk]

theorem hintMembers_skip (E : Env) (maps : List DMap) (n : Nat) (h : maps.length ≤ n) (t : Int) (c : Ctx) :
    hintMembers E maps n t c = .ok t := by
  induction maps generalizing n with
  | nil => rfl
  | cons m maps ih =>
    cases n with
    | zero => simp at h
    | succ n => rw [hintMembers]; exact ih n (by simpa using h)

/-! ### All maps -/

/-- What the hints need of every map. -/
def HintNode (E : Env) : DMap → Prop
  | .padding _ _ | .group _ _ _ _ _ _ => False
  | .seq _ info ei bsz e =>
    (∀ t, info.terminator = some t → pyEq .pyNone t = false) ∧
    ∃ s, SeqHinted E info ei bsz s ∧
      (info.kind = .sequence → (∀ k, info.dataSize = some k → (s : Int) ∣ k) ∧
        (info.dataSizeExpr.isSome → s = 1) ∧ ElemSize E e s) ∧
      (info.kind ≠ .sequence → (info.terminator.isSome → info.numElementsExpr = none) ∧
        (info.hasDataSize = false → info.hasNumElements = false → s = 1))
  | .struct _ bsz linear _ infos maps =>
    infos.length = maps.length ∧ (∀ i ∈ infos, truthyStr i.condition = false) ∧
    (linear = true → ∀ n, bsz = some n → 0 ≤ n ∧ ∀ c, hintMembers E maps 0 0 c = .ok n)
  | _ => True

theorem hints (E : Env) (m : DMap) (hm : m.Every fun m => HintNode E m ∧ Extendable m) :
    HintAfter E m ∧ HintFresh E m := by
  induction m using DMap.ind with
  | missing =>
    refine ⟨?_, ?_⟩
    · intro bs ext off depth c v N hc hoff hw; simp [parse] at hw
    · intro bs off depth ns v N hw; simp [parse] at hw
  | constant h =>
    refine ⟨?_, ?_⟩
    · intro bs ext off depth c v N hc hoff hw; simp [parse] at hw
    · intro bs off depth ns v N hw; simp [parse] at hw
  | enumeration h vs =>
    refine ⟨?_, ?_⟩
    · intro bs ext off depth c v N hc hoff hw; simp [parse] at hw
    · intro bs off depth ns v N hw; simp [parse] at hw
  | format h l =>
    refine ⟨?_, ?_⟩
    · intro bs ext off depth c v N hc hoff hw; simp [parse] at hw
    · intro bs off depth ns v N hw; simp [parse] at hw
  | padding h a => exact absurd hm.self.1 id
  | group h ident base dflt keys maps => exact absurd hm.self.1 id
  | prim h k s u =>
    have hnp : ¬ (DMap.prim h k s u).IsPadding := by rintro ⟨_, _, h⟩; cases h
    refine ⟨?_, ?_⟩
    · intro bs ext off depth c v N hc hoff hw hp o ns' _
      simp only [parse, primParse] at hw hp
      cases hs : fixedByteSize s u with
      | none => rw [hs] at hw; cases hw
      | some n =>
        rw [hs] at hw hp
        simp only at hw hp
        split at hw
        · cases hw
        split at hw <;> cases hw
        cases hts : tooSmall bs off n with
        | false => rw [hts] at hp; split at hp <;> (try split at hp) <;> simp_all
        | true =>
          have hlt : (bs.length : Int) - off < n := by simpa [tooSmall] using hts
          refine ⟨n.toNat, ?_, by omega, by omega⟩
          simp only [sizeHint, hs]
          congr 2
          omega
    · intro bs off depth ns v N hw o ns' _
      right
      simp only [parse, primParse] at hw
      cases hs : fixedByteSize s u with
      | none => rw [hs] at hw; cases hw
      | some n =>
        obtain ⟨n', hn⟩ := fixedByteSize_nat hs
        rw [hs] at hw
        simp only at hw
        split at hw
        · cases hw
        split at hw <;> cases hw
        refine ⟨n.toNat, ?_, fun _ => by omega, fun h => absurd h hnp⟩
        simp only [sizeHint, hs]
        congr 2
        omega
  | uuid h s u =>
    have hnp : ¬ (DMap.uuid h s u).IsPadding := by rintro ⟨_, _, h⟩; cases h
    have hN : ∀ bs off v N, uuidParse h s u bs off = .ok (v, N) → ∃ n, fixedByteSize s u = some n ∧ N = n.toNat := by
      intro bs off v N hw
      unfold uuidParse at hw
      cases hs : fixedByteSize s u with
      | none => rw [hs] at hw; cases hw
      | some n =>
        rw [hs] at hw
        simp only at hw
        split at hw
        · cases hw
        refine ⟨n, rfl, ?_⟩
        split at hw
        · cases hw; rfl
        · split at hw <;> cases hw; rfl
        · split at hw <;> cases hw; rfl
    refine ⟨?_, ?_⟩
    · intro bs ext off depth c v N hc hoff hw hp o ns' _
      simp only [parse] at hw hp
      obtain ⟨n, hs, rfl⟩ := hN _ _ _ _ hw
      unfold uuidParse at hp
      simp only [hs] at hp
      cases hts : tooSmall bs off n with
      | false =>
        rw [hts] at hp
        simp only [Bool.false_eq_true, if_false] at hp
        split at hp
        · cases hp
        · split at hp <;> cases hp
        · split at hp <;> cases hp
      | true =>
        have hlt : (bs.length : Int) - off < n := by simpa [tooSmall] using hts
        refine ⟨n.toNat, ?_, by omega, by omega⟩
        simp only [sizeHint, hs]
        congr 2
        omega
    · intro bs off depth ns v N hw o ns' _
      right
      simp only [parse] at hw
      obtain ⟨n, hs, rfl⟩ := hN _ _ _ _ hw
      obtain ⟨n', hn⟩ := fixedByteSize_nat hs
      refine ⟨n.toNat, ?_, fun _ => by omega, fun h => absurd h hnp⟩
      simp only [sizeHint, hs]
      congr 2
      omega
  | seq h info ei bsz e ih =>
    have hnp : ¬ (DMap.seq h info ei bsz e).IsPadding := by rintro ⟨_, _, h⟩; cases h
    obtain ⟨⟨hnn, s, hsh, hseq, hstr⟩, -⟩ := hm.self
    simp only [DMap.Every] at hm
    have hext : e.Every Extendable := DMap.Every.imp (fun _ h => h.2) e hm.2
    have hspos := hsh.pos
    refine ⟨?_, ?_⟩
    · intro bs ext off depth c v N hc hoff hw hp o ns' _
      simp only [parse] at hw hp
      simp only [sizeHint, mapStream]
      cases hk : info.kind with
      | stream =>
        rw [hk] at hw hp
        simp only at hw hp ⊢
        have hst := hstr (by rw [hk]; simp)
        cases hw' : streamParse E info ei (bs ++ ext) off c.values with
        | error x => rw [hw'] at hw; cases hw
        | ok r =>
          obtain ⟨b, n⟩ := r
          rw [hw'] at hw
          cases hw
          have hp' : streamParse E info ei bs off c.values = .error .tooSmall := by
            split at hp
            · rename_i hh; cases hp; exact hh
            · cases hp
          have := streamMap_hint hsh hst.2 (fun c => sizeHint E e 0 c) bs ext off c hc hoff b N hw' hp' ns'
          have hr := streamMap_refines E info ei bs off c hc
          rw [hp'] at hr
          have hr : (streamMap E info ei bs off c).1 = .error .tooSmall := hr
          rcases hms : streamMap E info ei bs off c with ⟨r, c'⟩
          rw [hms] at hr this
          simp only at hr
          subst hr
          exact this
      | string enc =>
        rw [hk] at hw hp
        simp only at hw hp ⊢
        have hst := hstr (by rw [hk]; simp)
        unfold stringParse at hw hp
        cases hw' : streamParse E info ei (bs ++ ext) off c.values with
        | error x => rw [hw'] at hw; cases hw
        | ok r =>
          obtain ⟨b, n⟩ := r
          rw [hw'] at hw
          simp only at hw
          have hn : n = N := by
            split at hw
            · cases hw
            · split at hw <;> cases hw; rfl
          subst hn
          have hp' : streamParse E info ei bs off c.values = .error .tooSmall := by
            split at hp
            · rename_i hh; cases hp; exact hh
            · split at hp
              · rename_i hcs
                unfold cutString at hcs
                split at hcs <;> cases hcs
                cases hp
              · split at hp <;> cases hp
          have := streamMap_hint hsh hst.2 (fun c => sizeHint E e 0 c) bs ext off c hc hoff b n hw' hp' ns'
          have hr := streamMap_refines E info ei bs off c hc
          rw [hp'] at hr
          have hr : (streamMap E info ei bs off c).1 = .error .tooSmall := hr
          unfold stringMap
          rcases hms : streamMap E info ei bs off c with ⟨r, c'⟩
          rw [hms] at hr this
          simp only at hr
          subst hr
          exact this
      | sequence =>
        rw [hk] at hw hp
        simp only at hw hp ⊢
        obtain ⟨hdvd, hone, hes⟩ := hseq hk
        cases hlin : seqLinear info ei with
        | true =>
          rw [hlin] at hw hp
          simp only [if_true] at hw hp ⊢
          unfold linearSeqParse at hw hp
          unfold linearSeqMap
          cases bsz with
          | none => cases hw
          | some n =>
            simp only at hw hp ⊢
            split at hw
            · cases hw
            have hN : N = n.toNat := by
              split at hw
              · cases hw
              · split at hw
                · split at hw <;> cases hw; rfl
                · cases hw
            cases hts : tooSmall bs off n with
            | false =>
              have hmv : ∀ k vs er, mapValues k vs = .error er → er = .value := by
                intro k vs
                induction vs with
                | nil => intro er h; cases h
                | cons v vs ih =>
                  intro er h
                  rw [mapValues] at h
                  split at h
                  · cases h; rfl
                  · split at h
                    · rename_i hh; cases h; exact ih _ hh
                    · cases h
              rw [hts] at hp
              simp only [Bool.false_eq_true, if_false] at hp
              split at hp
              · cases hp
              · split at hp
                · split at hp
                  · rename_i hh; cases hp; cases hmv _ _ _ hh
                  · cases hp
                · cases hp
            | true =>
              have hlt : (bs.length : Int) - off < n := by simpa [tooSmall] using hts
              simp only [if_true]
              rw [seqHint_saved E info ei _ _ _ rfl n rfl (by omega)]
              refine ⟨n.toNat, ?_, by omega, by omega⟩
              congr 2
              omega
        | false =>
          rw [hlin] at hw hp
          simp only [Bool.false_eq_true, if_false] at hw hp ⊢
          exact compositeSeq_hint hsh hdvd hone hes hext hnn _ bs ext off depth c hc hoff v N hw hp ns'
    · intro bs off depth ns v N hw o ns' hb
      suffices hsuf : sizeHint E (.seq h info ei bsz e) o { values := ns' } = .ok none ∨
          ∃ k : Nat, sizeHint E (.seq h info ei bsz e) o { values := ns' } = .ok (some (k : Int)) ∧ k ≤ N by
        rcases hsuf with h | ⟨k, h, h1⟩
        · exact .inl h
        · exact .inr ⟨k, h, fun _ => h1, fun h => absurd h hnp⟩
      simp only [parse] at hw
      simp only [sizeHint]
      cases hk : info.kind with
      | stream =>
        rw [hk] at hw
        simp only at hw
        have hst := hstr (by rw [hk]; simp)
        cases hw' : streamParse E info ei bs off ns with
        | error x => rw [hw'] at hw; cases hw
        | ok r =>
          obtain ⟨b, n⟩ := r
          rw [hw'] at hw
          cases hw
          exact stream_hintFresh hsh hst.1 _ bs off ns ns' hb b N hw'
      | string enc =>
        rw [hk] at hw
        simp only at hw
        have hst := hstr (by rw [hk]; simp)
        unfold stringParse at hw
        cases hw' : streamParse E info ei bs off ns with
        | error x => rw [hw'] at hw; cases hw
        | ok r =>
          obtain ⟨b, n⟩ := r
          rw [hw'] at hw
          simp only at hw
          have hn : n = N := by
            split at hw
            · cases hw
            · split at hw <;> cases hw; rfl
          subst hn
          exact stream_hintFresh hsh hst.1 _ bs off ns ns' hb b n hw'
      | sequence =>
        rw [hk] at hw
        simp only at hw
        obtain ⟨hdvd, hone, hes⟩ := hseq hk
        cases hlin : seqLinear info ei with
        | true =>
          rw [hlin] at hw
          simp only [if_true] at hw
          unfold linearSeqParse at hw
          cases bsz with
          | none => cases hw
          | some n =>
            right
            simp only at hw
            split at hw
            · cases hw
            have hN : N = n.toNat := by
              split at hw
              · cases hw
              · split at hw
                · split at hw <;> cases hw; rfl
                · cases hw
            have hn0 : 0 ≤ n := by
              cases hd : info.hasDataSize with
              | true => have := hsh.dataPos n (hsh.total hd).symm; omega
              | false =>
                obtain ⟨k, hk, rfl⟩ := hsh.count n hd rfl
                have := hsh.numPos k hk
                exact Int.mul_nonneg (by omega) (by omega)
            refine ⟨n.toNat, ?_, by omega⟩
            rw [linearSeq_hintFresh hsh hlin]
            congr 2
            omega
        | false =>
          rw [hlin] at hw
          simp only [Bool.false_eq_true, if_false] at hw
          exact compositeSeq_hintFresh hsh hdvd hone hes hnn _ bs off depth ns ns' hb v N hw
  | struct h bsz linear io infos maps ih =>
    have hnp : ¬ (DMap.struct h bsz linear io infos maps).IsPadding := by rintro ⟨_, _, h⟩; cases h
    obtain ⟨⟨hlen, hcond, hlin⟩, -⟩ := hm.self
    simp only [DMap.Every, everyMap_iff] at hm
    have ih := fun m hmm => ih m hmm (hm.2 m hmm)
    have hpad : ¬ ∃ m ∈ maps, m.IsPadding := by
      rintro ⟨m, hmm, _, _, rfl⟩
      exact (hm.2 _ hmm).self.1
    cases linear with
    | false =>
      refine ⟨?_, ?_⟩
      · intro bs ext off depth c v N hc hoff hw hp o ns' _
        exact struct_after (fun m hmm => DMap.Every.imp (fun _ h => h.2) m (hm.2 m hmm))
          (fun m hmm => (ih m hmm).2) (fun m hmm => (ih m hmm).1) hlen hcond hc hoff
          (fun h => absurd h hpad) hw hp o ns'
      · intro bs off depth ns v N hw o ns' _
        obtain ⟨k, hk, hk1⟩ := struct_fresh (fun m hmm => (ih m hmm).2) hlen hcond
          (fun h => absurd h hpad) hw o ns'
        exact .inr ⟨k, hk, fun _ => hk1, fun h => absurd h hnp⟩
    | true =>
      have hN : ∀ bs off depth ns v N, parse E (.struct h bsz true io infos maps) bs off depth ns = .ok (v, N) →
          io = true ∧ ∃ n, bsz = some n ∧ N = n.toNat := by
        intro bs off depth ns v N hw
        simp only [parse, if_true, linearStructParse] at hw
        cases hbs : bsz with
        | none => rw [hbs] at hw; cases hw
        | some n =>
          rw [hbs] at hw
          simp only at hw
          split at hw
          · cases hw
          split at hw
          · cases hw
          split at hw
          · cases hw
          split at hw
          · cases hw
          split at hw <;> cases hw
          exact ⟨by assumption, n, rfl, rfl⟩
      refine ⟨?_, ?_⟩
      · intro bs ext off depth c v N hc hoff hw hp o ns' _
        obtain ⟨rfl, n, rfl, rfl⟩ := hN _ _ _ _ _ _ hw
        simp only [parse, if_true, linearStructParse] at hp
        simp only [mapStream, if_true, linearStructMap]
        cases hts : tooSmall bs off n with
        | false =>
          rw [hts] at hp
          simp only [Bool.false_eq_true, if_false] at hp
          split at hp
          · cases hp
          split at hp
          · cases hp
          split at hp <;> cases hp
        | true =>
          have hlt : (bs.length : Int) - off < n := by simpa [tooSmall] using hts
          simp only [if_true, sizeHint, Bool.not_true, Bool.and_false, Bool.false_eq_true, if_false,
            Option.getD_some]
          rw [hintMembers_skip E maps infos.length (by omega)]
          refine ⟨n.toNat, ?_, by omega, by omega⟩
          simp only
          congr 2
          omega
      · intro bs off depth ns v N hw o ns' _
        right
        obtain ⟨rfl, n, rfl, rfl⟩ := hN _ _ _ _ _ _ hw
        have hn0 := (hlin rfl n rfl).1
        refine ⟨n.toNat, ?_, fun _ => by omega, fun h => absurd h hnp⟩
        simp only [sizeHint, Bool.not_true, Bool.and_false, Bool.false_eq_true, if_false, Option.getD_none]
        rw [(hlin rfl n rfl).2]
        simp only
        congr 2
        omega

end Dtf
