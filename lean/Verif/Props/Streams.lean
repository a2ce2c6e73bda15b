import Verif.Props.Sequences
/-!
# Properties C20 - C23: streams, strings and padding
-/
namespace Dtf

namespace Spec

/-- A number below zero. -/
def Negative : Quantity → Prop
  | .finite u => u < 0
  | .infinite negative => negative

/-- A floating-point number that is neither negative nor a whole number, or NaN. -/
def Fractional (v : Val) : Prop :=
  ∃ b, v = .float b ∧ ∀ q, Double b q → ¬ Negative q ∧ ∀ n : Int, q ≠ .finite (n * 2 ^ 1074)

/-- A size that is negative or cannot be evaluated to a number. -/
def NoSize (E : Env) (const : Option Int) (expr : Option String) (ns : Namespace) : Prop :=
  (∃ n, const = some n ∧ n < 0) ∨
  ((const = none ∨ const = some 0) ∧
    (expr = none ∨ expr = some "" ∨ ∃ s, expr = some s ∧
      (E.evalExpr s (withBuiltins ns) = none ∨
        (∃ v q, E.evalExpr s (withBuiltins ns) = some v ∧ Counts v q ∧ Negative q) ∨
        ∃ v, E.evalExpr s (withBuiltins ns) = some v ∧ v.num? = none)))

/-- The number of bytes declared for a stream with elements of size `es` is `n`. -/
def Sized (E : Env) (info : SeqInfo) (es : Option Int) (ns : Namespace) (n : Int) : Prop :=
  Evaluates E info.dataSize info.dataSizeExpr ns n ∨
  (info.dataSize = none ∧ info.dataSizeExpr = none ∧
    ∃ k s, Evaluates E info.numElements info.numElementsExpr ns k ∧ es = some s ∧ n = k * s)

/-- A size is declared for a stream but is negative or cannot be evaluated. -/
def Unsizable (E : Env) (info : SeqInfo) (es : Option Int) (ns : Namespace) : Prop :=
  ((info.dataSize ≠ none ∨ info.dataSizeExpr ≠ none) ∧ NoSize E info.dataSize info.dataSizeExpr ns) ∨
  (info.dataSize = none ∧ info.dataSizeExpr = none ∧
    (info.numElements ≠ none ∨ info.numElementsExpr ≠ none) ∧ es ≠ none ∧
    NoSize E info.numElements info.numElementsExpr ns)

/-- The element at index `k`, counted in elements of `t`'s size from `off`, is `t`. -/
def TerminatorAt (bs : Bytes) (off : Nat) (t : Bytes) (k : Nat) : Prop :=
  window bs (off + k * t.length) t.length = t

/-- `k` is the index of the first terminator. -/
def FirstTerminator (bs : Bytes) (off : Nat) (t : Bytes) (k : Nat) : Prop :=
  TerminatorAt bs off t k ∧ ∀ j < k, ¬ TerminatorAt bs off t j

/-- `r` is `b` up to the first aligned terminator, or all of `b` when there is none. -/
def CutAt (t b r : Bytes) : Prop :=
  (∃ k, FirstTerminator b 0 t k ∧ r = b.take (k * t.length)) ∨
  ((∀ k, ¬ TerminatorAt b 0 t k) ∧ r = b)

end Spec
open Spec

theorem window_full {bs t : Bytes} {p : Nat} (ht : t ≠ []) (h : window bs p t.length = t) :
    p + t.length ≤ bs.length := by
  have hl : (window bs p t.length).length = t.length := by rw [h]
  have : 0 < t.length := List.length_pos_iff.mpr ht
  simp only [window, List.length_take, List.length_drop] at hl
  omega

/-! ### C20 -/

theorem checkSize_negative {kd : SeqKind} {v : Val} {q : Quantity} (h : Counts v q) (hq : Negative q) :
    checkSize kd (some v) = .error .mapping := by
  cases h with
  | no => exact absurd hq (by simp [Negative])
  | yes => exact absurd hq (by simp only [Negative, Int.one_mul, Int.not_lt]; exact Int.pow_nonneg (by decide))
  | @int i =>
    simp only [Negative] at hq
    have : i < 0 := by
      by_cases h : i < 0
      · exact h
      · have := Int.mul_nonneg (show 0 ≤ i by omega) (show (0 : Int) ≤ 2 ^ 1074 from Int.pow_nonneg (by decide))
        omega
    simp only [checkSize]
    rw [if_pos this]
  | float h =>
    rw [double_iff] at h
    simp only [checkSize]
    revert h
    split
    · intro h
      rename_i u hu
      simp only [hu, FVal.quantity?, Option.some.injEq] at h
      subst h
      rw [if_pos (show u < 0 from hq)]
    · intro h; rfl
    · intro h
      rename_i hu
      simp only [hu, FVal.quantity?, Option.some.injEq] at h
      subst h
      simp [Negative] at hq
    · intro h
      rename_i hu
      rw [hu] at h
      cases h

/-- A number of a sequence that is refused as unmodelled is a fraction, infinite or NaN. -/
theorem checkSize_other {v : Val} (h : checkSize .sequence (some v) = .error .other) : Fractional v := by
  cases v <;> simp only [checkSize] at h
  case float b =>
    refine ⟨b, rfl, fun q hq => ⟨fun hn => ?_, ?_⟩⟩
    · have := checkSize_negative (kd := .sequence) (.float hq) hn
      simp only [checkSize] at this
      rw [this] at h
      cases h
    · rintro n rfl
      by_cases h0 : 0 ≤ n
      · have := checkSize_counts h0 (.float hq)
        simp only [checkSize] at this
        rw [this] at h
        cases h
      · have hneg : Negative (.finite (n * 2 ^ 1074)) :=
          Int.mul_neg_of_neg_of_pos (by omega) (Int.pow_pos (by decide))
        have := checkSize_negative (kd := .sequence) (.float hq) hneg
        simp only [checkSize] at this
        rw [this] at h
        cases h
  all_goals first | cases h | (split at h <;> cases h)

theorem checkSize_fractional {v : Val} (h : Fractional v) : checkSize .sequence (some v) = .error .other := by
  obtain ⟨b, rfl, h⟩ := h
  simp only [checkSize]
  cases hb : fVal b with
  | nan => rfl
  | inf n =>
    have h1 := (h _ ((double_iff b _).mpr (by rw [hb]; rfl))).1
    cases n
    · rfl
    · simp [Negative] at h1
  | fin u =>
    obtain ⟨h1, h2⟩ := h _ ((double_iff b (.finite u)).mpr (by rw [hb]; rfl))
    simp only
    rw [if_neg (show ¬ u < 0 from h1), if_neg]
    rintro ⟨-, h3⟩
    refine h2 (u / 2 ^ 1074) ?_
    rw [Int.ediv_mul_cancel (Int.dvd_of_emod_eq_zero h3)]

theorem evalSize_none {E : Env} {kd : SeqKind} {const : Option Int} {expr : Option String} {ns : Namespace}
    (h : NoSize E const expr ns) :
    (if truthyInt const then checkSize kd (const.map .int) else evalSize E kd expr ns) = .error .mapping := by
  rcases h with ⟨n, rfl, hn⟩ | ⟨hc, h⟩
  · have : truthyInt (some n) = true := by simp [truthyInt]; omega
    simp [this, checkSize, hn]
  · have ht : truthyInt const = false := by rcases hc with rfl | rfl <;> simp [truthyInt]
    rw [ht, if_neg (by simp)]
    rcases h with rfl | rfl | ⟨s, rfl, h⟩
    · rfl
    · rfl
    · unfold evalSize
      simp only
      split
      · rfl
      rcases h with h | ⟨v, q, h, hv, hn⟩ | ⟨v, h, hv⟩
      · rw [h]
      · rw [h]; exact checkSize_negative hv hn
      · rw [h]
        cases v <;> simp_all [Val.num?, checkSize]

/-- **C17** A sequence whose number of elements or data size is given by an expression
that is negative or cannot be evaluated raises MappingError. -/
theorem C17_no_size (E : Env) (nm : String) (o : Order) (h : Hdr) (info : SeqInfo)
    (hk : info.kind = .sequence) (e : Defn) (m : DMap)
    (hm : createAs E nm o (.seq h info e) = .ok m) (bs : Bytes) (off depth : Nat) (c : Ctx) (hc : c.Clean)
    (hn : (info.dataSizeExpr ≠ none ∧ NoSize E info.dataSize info.dataSizeExpr c.values) ∨
      (info.dataSize = none ∧ info.dataSizeExpr = none ∧ info.terminator = none ∧ info.numElementsExpr ≠ none ∧
        NoSize E info.numElements info.numElementsExpr c.values)) :
    (mapStream E m bs off depth c).1 = .error .mapping := by
  rw [mapStream_error hc]
  obtain ⟨en, eo, em, -, -, rfl, -⟩ := createAs_seq hm
  have hlin : seqLinear info ⟨e.byteSize, e.isComposite, e.terminator?⟩ = false := by
    rcases hn with ⟨hx, -⟩ | ⟨-, -, -, hx, -⟩ <;> simp [seqLinear, Option.isSome_iff_ne_none, hx]
  have hr : (seqRules E info ⟨e.byteSize, e.isComposite, e.terminator?⟩ c.values).1 = .error .mapping := by
    rcases hn with ⟨hx, h1⟩ | ⟨h1, h2, h3, hx, h4⟩
    · have hh : info.hasDataSize = true := by simp [SeqInfo.hasDataSize, Option.isSome_iff_ne_none, hx]
      simp only [seqRules, hh, if_true, evalDataSize, evalSize_none h1]
    · have hh : info.hasDataSize = false := by simp [SeqInfo.hasDataSize, h1, h2]
      have hh' : info.hasNumElements = true := by simp [SeqInfo.hasNumElements, Option.isSome_iff_ne_none, hx]
      simp only [seqRules, countable, hh, hh', h3, Option.isSome_none, Bool.false_eq_true, if_false, if_true, evalNumElements,
        evalSize_none h4]
  simp only [parse, hk, hlin, Bool.false_eq_true, if_false, compositeSeqParse]
  split
  · rfl
  · rw [hr]

/-- **C17** A sequence whose number of elements is a fraction, infinite or NaN is never mapped. -/
theorem C17_fraction (E : Env) (nm : String) (o : Order) (h : Hdr) (info : SeqInfo)
    (hk : info.kind = .sequence) (e : Defn) (m : DMap)
    (hm : createAs E nm o (.seq h info e) = .ok m) (bs : Bytes) (off depth : Nat) (c : Ctx) (hc : c.Clean)
    (h1 : info.dataSize = none) (h2 : info.dataSizeExpr = none) (h3 : info.terminator = none)
    (hn : info.numElements = none ∨ info.numElements = some 0) (x : String)
    (hx : info.numElementsExpr = some x) (v : Val) (hv : E.evalExpr x (withBuiltins c.values) = some v)
    (hf : Fractional v) (w : Val) : (mapStream E m bs off depth c).1 ≠ .ok w := by
  intro hw
  obtain ⟨n, hp, hb⟩ := mapStream_ok hc hw
  obtain ⟨hd, bsz, em, vs, p, hme, rfl, -, -, -, hl⟩ := seq_parse hk hm bs off depth c.values w n hp
  rcases hl with ⟨hlin, -⟩ | ⟨hlin, ds, term, num, hr, he, -⟩
  · simp [seqLinear, hx] at hlin
  · have hh : info.hasDataSize = false := by simp [SeqInfo.hasDataSize, h1, h2]
    have hh' : info.hasNumElements = true := by simp [SeqInfo.hasNumElements, hx]
    have ht : truthyInt info.numElements = false := by rcases hn with hn | hn <;> simp [truthyInt, hn]
    by_cases hs : x = ""
    · simp [seqRules, countable, hh, hh', h3, evalNumElements, ht, hx, evalSize, hs] at hr
    · simp only [seqRules, countable, hh, hh', h3, Option.isSome_none, Bool.false_eq_true, if_false, if_true,
        evalNumElements, ht, hx, evalSize, beq_iff_eq, hs, hv, hk, checkSize_fractional hf, Except.ok.injEq,
        Prod.mk.injEq] at hr
      have := he (-1) hr.2.2.symm
      simp at this

set_option exponentiation.threshold 2000 in
/-- A sequence of `5 / 2` numbers. -/
example : Fractional (.float 0x4004000000000000) ∧
    (∃ m, createMap { exEnv with evalExpr := fun _ _ => some (.float 0x4004000000000000) } (.seq { name := "s" }
      { kind := .sequence, elementDataType := some "uint8", numElementsExpr := some "5 / 2" } exU8) = .ok m ∧
      (mapStream { exEnv with evalExpr := fun _ _ => some (.float 0x4004000000000000) } m [1, 2, 3] 0 0 {}).1 =
        .error .tooSmall) :=
  ⟨checkSize_other (by rfl), _, rfl, by rfl⟩

/-- Two sequences of `uint16`, their number and data size given by an expression that
is negative. -/
example : (∃ m, createMap { exEnv with evalExpr := fun _ _ => some (.int (-1)) } (.seq { name := "s" }
      { kind := .sequence, elementDataType := some "uint16", numElementsExpr := some "n - 1" } exU16) = .ok m ∧
      (mapStream { exEnv with evalExpr := fun _ _ => some (.int (-1)) } m [1, 2, 3] 0 0 {}).1 = .error .mapping) ∧
    (∃ m, createMap { exEnv with evalExpr := fun _ _ => some (.int (-1)) } (.seq { name := "s" }
      { kind := .sequence, elementDataType := some "uint16", dataSizeExpr := some "n - 1" } exU16) = .ok m ∧
      (mapStream { exEnv with evalExpr := fun _ _ => some (.int (-1)) } m [1, 2, 3] 0 0 {}).1 = .error .mapping) :=
  ⟨⟨_, rfl, rfl⟩, ⟨_, rfl, rfl⟩⟩

/-- **C20** A stream whose declared size is `n` gives exactly the `n` bytes at the
offset if they are there and raises ByteStreamTooSmallError otherwise; when the
declared size is negative or cannot be evaluated it raises MappingError. -/
theorem C20_sized_stream (E : Env) (nm : String) (o : Order) (h : Hdr) (info : SeqInfo)
    (hk : info.kind = .stream) (e : Defn) (m : DMap) (hm : createAs E nm o (.seq h info e) = .ok m)
    (bs : Bytes) (off depth : Nat) (c : Ctx) (hc : c.Clean) :
    (∀ n : Int, 0 ≤ n → Sized E info e.byteSize c.values n →
      ((off : Int) + n ≤ bs.length →
        (mapStream E m bs off depth c).1 = .ok (.bytes (window bs off n.toNat)) ∧
        (mapStream E m bs off depth c).2.byteSize = some n.toNat) ∧
      ((bs.length : Int) < off + n → (mapStream E m bs off depth c).1 = .error .tooSmall)) ∧
    (Unsizable E info e.byteSize c.values → (mapStream E m bs off depth c).1 = .error .mapping) := by
  obtain ⟨n', eo, em, -, -, rfl, -⟩ := createAs_seq hm
  constructor
  · intro n hn hs
    have hsize : streamSize E info ⟨e.byteSize, e.isComposite, e.terminator?⟩ c.values = .ok (some n) := by
      rcases hs with hs | ⟨h1, h2, k, s, h3, h4, rfl⟩
      · obtain ⟨h1, h2⟩ := evalData_of hs
        simp [streamSize, h1, h2]
      · obtain ⟨h5, h6⟩ := evalNum_of h3
        simp [streamSize, SeqInfo.hasDataSize, h1, h2, h6, h4, h5]
    constructor
    · intro hle
      apply mapStream_of_parse hc
      have : tooSmall bs off n = false := by simp [tooSmall]; omega
      simp [parse, hk, streamParse, hsize, this, slice, window]
    · intro hlt
      rw [mapStream_error hc]
      have : tooSmall bs off n = true := by simp [tooSmall]; omega
      simp [parse, hk, streamParse, hsize, this]
  · intro hu
    rw [mapStream_error hc]
    have hsize : streamSize E info ⟨e.byteSize, e.isComposite, e.terminator?⟩ c.values = .error .mapping := by
      rcases hu with ⟨h1, h2⟩ | ⟨h1, h2, h3, h4, h5⟩
      · have hh : info.hasDataSize = true := by
          simp only [SeqInfo.hasDataSize, Bool.or_eq_true, Option.isSome_iff_ne_none]; exact h1
        have := evalSize_none (kd := info.kind) h2
        simp only [streamSize, hh, if_true, evalDataSize, this]
      · have hh : info.hasDataSize = false := by simp [SeqInfo.hasDataSize, h1, h2]
        have hn : info.hasNumElements = true := by
          simp only [SeqInfo.hasNumElements, Bool.or_eq_true, Option.isSome_iff_ne_none]; exact h3
        have := evalSize_none (kd := info.kind) h5
        cases hes : e.byteSize with
        | none => exact absurd hes h4
        | some es => simp [streamSize, hh, hn, evalNumElements, this]
    simp [parse, hk, streamParse, hsize, sliceErr]

/-- A stream of two 2-byte elements, with and without all the bytes, and one of
negative size. -/
def exStream (n : Option Int) (k : Option Int) : Defn :=
  .seq { name := "st" } { kind := .stream, elementDataType := some "uint16", dataSize := n, numElements := k } exU16

example :
    (∃ h info e, exStream none (some 2) = .seq h info e ∧ Sized exEnv info e.byteSize [] 4) ∧
    (∃ m, createMap exEnv (exStream none (some 2)) = .ok m ∧
      (mapStream exEnv m [9, 1, 2, 3, 4, 5] 1 0 {}).1 = .ok (.bytes [1, 2, 3, 4]) ∧
      (mapStream exEnv m [9, 1, 2, 3] 1 0 {}).1 = .error .tooSmall) ∧
    (∃ h info e, exStream (some (-1)) none = .seq h info e ∧ Unsizable exEnv info e.byteSize []) :=
  ⟨⟨_, _, _, rfl, .inr ⟨rfl, rfl, 2, 2, ⟨by omega, .inl ⟨rfl, by omega⟩⟩, rfl, rfl⟩⟩, ⟨_, rfl, rfl, rfl⟩,
    _, _, _, rfl, .inl ⟨.inl (by simp), .inl ⟨-1, rfl, by omega⟩⟩⟩

/-! ### C21 -/

theorem isTerm_iff (b t : Bytes) : isTerm b (.bytes t) = true ↔ b = t := by
  constructor
  · intro h
    have := isTerm_true h
    simpa using this.symm
  · rintro rfl
    simp [isTerm, pyEq, Val.num?, Lit.num?]

theorem scanTerm_spec (bs t : Bytes) (ht : t ≠ []) (fuel cur : Nat)
    (hf : bs.length - cur + 1 ≤ fuel) :
    (∃ k, FirstTerminator bs cur t k ∧
      scanTerm bs t.length (.bytes t) fuel cur (cur + t.length) = .found (cur + (k + 1) * t.length)) ∨
    ((∀ k, ¬ TerminatorAt bs cur t k) ∧
      ∃ n, scanTerm bs t.length (.bytes t) fuel cur (cur + t.length) = .notFound n) := by
  have hpos : 0 < t.length := List.length_pos_iff.mpr ht
  have hsl : ∀ cur, slice bs cur (cur + t.length) = window bs cur t.length := by
    intro cur; simp [slice, window]
  induction fuel generalizing cur with
  | zero => omega
  | succ fuel ih =>
    rw [scanTerm]
    simp only [hsl]
    by_cases hlt : cur < bs.length
    · rw [if_pos hlt]
      by_cases hterm : window bs cur t.length = t
      · rw [if_pos ((isTerm_iff _ _).mpr hterm)]
        exact .inl ⟨0, ⟨by simpa [TerminatorAt] using hterm, by omega⟩, by simp⟩
      · rw [if_neg (fun h => hterm ((isTerm_iff _ _).mp h))]
        have hsh : ∀ k, TerminatorAt bs (cur + t.length) t k ↔ TerminatorAt bs cur t (k + 1) := by
          intro k
          unfold TerminatorAt
          rw [show cur + t.length + k * t.length = cur + (k + 1) * t.length by rw [Nat.add_mul]; omega]
        rcases ih (cur + t.length) (by omega) with ⟨k, ⟨h1, h2⟩, h3⟩ | ⟨h1, n, h2⟩
        · refine .inl ⟨k + 1, ⟨(hsh k).mp h1, ?_⟩, ?_⟩
          · intro j hj
            cases j with
            | zero => simpa [TerminatorAt] using hterm
            | succ j => rw [← hsh]; exact h2 j (by omega)
          · rw [h3]; congr 1; simp only [Nat.add_mul]; omega
        · refine .inr ⟨?_, n, h2⟩
          intro k
          cases k with
          | zero => simpa [TerminatorAt] using hterm
          | succ k => rw [← hsh]; exact h1 k
    · rw [if_neg hlt]
      have hno : ∀ k, ¬ TerminatorAt bs cur t k := by
        intro k hk
        have := window_full ht hk
        omega
      rw [if_neg (fun h => hno 0 (by simpa [TerminatorAt] using (isTerm_iff _ _).mp h))]
      exact .inr ⟨hno, _, rfl⟩

theorem terminatorAt_drop (bs t : Bytes) (off k : Nat) :
    TerminatorAt (bs.drop off) 0 t k ↔ TerminatorAt bs off t k := by
  simp [TerminatorAt, window, List.drop_drop]

theorem firstTerminator_drop (bs t : Bytes) (off k : Nat) :
    FirstTerminator (bs.drop off) 0 t k ↔ FirstTerminator bs off t k := by
  simp [FirstTerminator, terminatorAt_drop]

/-- **C21** A stream with only a terminator `t` of the size of an element gives the
bytes up to and including the first terminator at a multiple of the element
size, and raises ByteStreamTooSmallError exactly when there is none. -/
theorem C21_terminated_stream (E : Env) (nm : String) (o : Order) (h : Hdr) (info : SeqInfo)
    (hk : info.kind = .stream) (hd : info.dataSize = none ∧ info.dataSizeExpr = none)
    (hn : info.numElements = none ∧ info.numElementsExpr = none) (t : Bytes) (ht : t ≠ [])
    (hti : info.terminator = some (.bytes t)) (e : Defn) (hes : e.byteSize = some (t.length : Int))
    (m : DMap) (hm : createAs E nm o (.seq h info e) = .ok m)
    (bs : Bytes) (off depth : Nat) (c : Ctx) (hc : c.Clean) :
    (∀ k, FirstTerminator bs off t k →
      (mapStream E m bs off depth c).1 = .ok (.bytes (window bs off ((k + 1) * t.length))) ∧
      (mapStream E m bs off depth c).2.byteSize = some ((k + 1) * t.length)) ∧
    ((mapStream E m bs off depth c).1 = .error .tooSmall ↔ ∀ k, ¬ TerminatorAt bs off t k) ∧
    ((∃ k, FirstTerminator bs off t k) ∨ ∀ k, ¬ TerminatorAt bs off t k) := by
  obtain ⟨n', eo, em, -, -, rfl, -⟩ := createAs_seq hm
  have hsize : streamSize E info ⟨e.byteSize, e.isComposite, e.terminator?⟩ c.values = .ok none := by
    simp [streamSize, SeqInfo.hasDataSize, SeqInfo.hasNumElements, hd, hn]
  rw [hes] at hsize
  have hsc := scanTerm_spec (bs.drop off) t ht (bs.length - off + 2) 0 (by simp)
  simp only [Nat.zero_add, terminatorAt_drop, firstTerminator_drop] at hsc
  have huniq : ∀ j k, FirstTerminator bs off t j → FirstTerminator bs off t k → j = k := by
    intro j k ⟨h1, h2⟩ ⟨h3, h4⟩
    rcases Nat.lt_trichotomy j k with h | h | h
    · exact absurd h1 (h4 j h)
    · exact h
    · exact absurd h3 (h2 k h)
  rcases hsc with ⟨k, hk1, hs⟩ | ⟨hno, n, hs⟩
  · have hp : parse E (.seq { h with name := nm, order := o } info
        ⟨e.byteSize, e.isComposite, e.terminator?⟩ (Defn.seq h info e).byteSize em) bs off depth c.values =
        .ok (.bytes (window bs off ((k + 1) * t.length)), (k + 1) * t.length) := by
      simp [parse, hk, streamParse, hsize, hti, hes, hs, slice, window]
    refine ⟨?_, ?_, .inl ⟨k, hk1⟩⟩
    · intro j hj
      rw [huniq j k hj hk1]
      exact mapStream_of_parse hc hp
    · rw [mapStream_error hc, hp]
      constructor
      · intro h; cases h
      · intro h; exact absurd hk1.1 (h k)
  · refine ⟨?_, ?_, .inr hno⟩
    · intro k hk1; exact absurd hk1.1 (hno k)
    · rw [mapStream_error hc]
      simp [parse, hk, streamParse, hsize, hti, hes, hs, hno]

/-- Two elements before the terminator; the misaligned zero bytes do not end it. -/
example : ∃ m, createMap exEnv (exZ [0, 0]) = .ok m ∧
    FirstTerminator [1, 0, 0, 1, 0, 0, 7] 0 [0, 0] 2 ∧
    (mapStream exEnv m [1, 0, 0, 1, 0, 0, 7] 0 0 {}).1 = .ok (.bytes [1, 0, 0, 1, 0, 0]) ∧
    (mapStream exEnv m [1, 0, 0, 1, 0] 0 0 {}).1 = .error .tooSmall := by
  refine ⟨_, rfl, ⟨by unfold TerminatorAt; decide, ?_⟩, rfl, rfl⟩
  intro j hj
  have : j = 0 ∨ j = 1 := by omega
  rcases this with rfl | rfl <;> unfold TerminatorAt <;> decide

/-! ### C22 -/

theorem cutOffset_spec (b t : Bytes) (ht : t ≠ []) (fuel cur : Nat) (hf : b.length - cur ≤ fuel) :
    (∃ k, FirstTerminator b cur t k ∧ cutOffset b t fuel cur = cur + k * t.length) ∨
    ((∀ k, ¬ TerminatorAt b cur t k) ∧ b.length ≤ cutOffset b t fuel cur) := by
  have hpos : 0 < t.length := List.length_pos_iff.mpr ht
  have hend : b.length ≤ cur → ∀ k, ¬ TerminatorAt b cur t k := by
    intro hle k hk
    have := window_full ht hk
    omega
  induction fuel generalizing cur with
  | zero =>
    right
    exact ⟨hend (by omega), by simp [cutOffset]; omega⟩
  | succ fuel ih =>
    rw [cutOffset]
    by_cases hlt : cur < b.length
    · rw [if_pos hlt]
      have hsl : slice b cur (cur + t.length) = window b cur t.length := by simp [slice, window]
      rw [hsl]
      by_cases hterm : window b cur t.length = t
      · rw [if_pos (by simpa using hterm)]
        exact .inl ⟨0, ⟨by simpa [TerminatorAt] using hterm, by omega⟩, by simp⟩
      · rw [if_neg (by simpa using hterm)]
        have hsh : ∀ k, TerminatorAt b (cur + t.length) t k ↔ TerminatorAt b cur t (k + 1) := by
          intro k
          unfold TerminatorAt
          rw [show cur + t.length + k * t.length = cur + (k + 1) * t.length by rw [Nat.add_mul]; omega]
        have hend' : b.length ≤ cur + t.length → ∀ k, ¬ TerminatorAt b (cur + t.length) t k := by
          intro hle k hk
          have := window_full ht hk
          omega
        rcases ih (cur + t.length) (by omega) hend' with ⟨k, ⟨h1, h2⟩, h3⟩ | ⟨h1, h2⟩
        · refine .inl ⟨k + 1, ⟨(hsh k).mp h1, ?_⟩, ?_⟩
          · intro j hj
            cases j with
            | zero => simpa [TerminatorAt] using hterm
            | succ j => rw [← hsh]; exact h2 j (by omega)
          · rw [h3]; simp only [Nat.add_mul]; omega
        · refine .inr ⟨?_, h2⟩
          intro k
          cases k with
          | zero => simpa [TerminatorAt] using hterm
          | succ k => rw [← hsh]; exact h1 k
    · rw [if_neg hlt]
      exact .inr ⟨hend (by omega), by omega⟩

theorem cutString_spec (b t : Bytes) (ht : t ≠ []) :
    CutAt t b (b.take (cutOffset b t b.length 0)) := by
  rcases cutOffset_spec b t ht b.length 0 (by omega) with ⟨k, h1, h2⟩ | ⟨h1, h2⟩
  · exact .inl ⟨k, h1, by rw [h2]; simp⟩
  · exact .inr ⟨h1, List.take_of_length_le h2⟩

/-- **C22** A string gives what the stream with the same attributes gives (see C20
and C21), cut at the first aligned terminator if one is declared, and decoded;
it raises MappingError if decoding fails, and the error of the stream if that
fails. It takes as many bytes as the stream. -/
theorem C22_string (E : Env) (nm : String) (o : Order) (h : Hdr) (info : SeqInfo) (enc : String)
    (e : Defn) (ms mt : DMap) (ht : info.terminator = none ∨ ∃ t, t ≠ [] ∧ info.terminator = some (.bytes t))
    (hs : createAs E nm o (.seq h { info with kind := .stream } e) = .ok ms)
    (hm : createAs E nm o (.seq h { info with kind := .string enc } e) = .ok mt)
    (bs : Bytes) (off depth : Nat) (c : Ctx) (hc : c.Clean) :
    (∀ x, (mapStream E ms bs off depth c).1 = .error x → (mapStream E mt bs off depth c).1 = .error x) ∧
    (∀ v n, (mapStream E ms bs off depth c).1 = .ok v → (mapStream E ms bs off depth c).2.byteSize = some n →
      ∃ b r, v = .bytes b ∧
        (info.terminator = none → r = b) ∧
        (∀ t, info.terminator = some (.bytes t) → CutAt t b r) ∧
        (∀ cs, E.decode enc r = some cs →
          (mapStream E mt bs off depth c).1 = .ok (.str cs) ∧
          (mapStream E mt bs off depth c).2.byteSize = some n) ∧
        (E.decode enc r = none → (mapStream E mt bs off depth c).1 = .error .mapping)) := by
  obtain ⟨n1, eo1, em1, -, -, rfl, -⟩ := createAs_seq hs
  obtain ⟨n2, eo2, em2, -, -, rfl, -⟩ := createAs_seq hm
  have hsp : streamParse E { info with kind := .string enc } ⟨e.byteSize, e.isComposite, e.terminator?⟩ bs off
      c.values = streamParse E { info with kind := .stream } ⟨e.byteSize, e.isComposite, e.terminator?⟩ bs
      off c.values := rfl
  constructor
  · intro x hx
    rw [mapStream_error hc] at hx ⊢
    simp only [parse] at hx ⊢
    simp only [stringParse, hsp]
    generalize streamParse E { info with kind := .stream } _ bs off c.values = r at hx ⊢
    rcases r with y | ⟨b, n⟩
    · cases hx; rfl
    · cases hx
  · intro v n hv hn
    obtain ⟨n', hp, hb⟩ := mapStream_ok hc hv
    rw [hn] at hb; cases hb
    simp only [parse] at hp
    generalize hr : streamParse E { info with kind := .stream } _ bs off c.values = r at hp
    rcases r with y | ⟨b, k⟩
    · cases hp
    cases hp
    have hcut : ∃ r, cutString { info with kind := .string enc } b = .ok r ∧
        (info.terminator = none → r = b) ∧ (∀ t, info.terminator = some (.bytes t) → CutAt t b r) := by
      rcases ht with ht | ⟨t, ht, hti⟩
      · exact ⟨b, by simp [cutString, ht], by simp, by simp [ht]⟩
      · refine ⟨b.take (cutOffset b t b.length 0), by simp [cutString, hti], by simp [hti], ?_⟩
        intro t' ht'
        rw [hti] at ht'
        cases ht'
        exact cutString_spec b t ht
    obtain ⟨r, h1, h2, h3⟩ := hcut
    refine ⟨b, r, rfl, h2, h3, ?_, ?_⟩
    · intro cs hcs
      apply mapStream_of_parse hc
      simp [parse, stringParse, hsp, hr, h1, hcs]
    · intro hcs
      rw [mapStream_error hc]
      simp [parse, stringParse, hsp, hr, h1, hcs]

/-- A string of 4 bytes with a terminator in it, and one without. -/
def exStr (n : Option Int) (t : Option Lit) : Defn :=
  .seq { name := "str" } { kind := .string "ascii", elementDataType := some "uint8", dataSize := n, terminator := t } exU8

example : ∃ m, createMap exEnv (exStr (some 4) (some (.bytes [0]))) = .ok m ∧
    (mapStream exEnv m [9, 65, 66, 0, 67] 1 0 {}).1 = .ok (.str [65, 66]) ∧
    (mapStream exEnv m [9, 65, 66, 0, 67] 1 0 {}).2.byteSize = some 4 ∧
    (mapStream exEnv m [65, 66, 67, 68] 0 0 {}).1 = .ok (.str [65, 66, 67, 68]) ∧
    CutAt [0] [65, 66, 0, 67] [65, 66] := by
  refine ⟨_, rfl, rfl, rfl, rfl, .inl ⟨2, ⟨by unfold TerminatorAt; decide, ?_⟩, rfl⟩⟩
  intro j hj
  have : j = 0 ∨ j = 1 := by omega
  rcases this with rfl | rfl <;> unfold TerminatorAt <;> decide

/-! ### C23 -/

/-- **C23** Padding takes the least number of bytes `p` that makes the offset a
multiple of the alignment size; `p` is less than the alignment size. It gives
these bytes, or raises ByteStreamTooSmallError if they are not all there. -/
theorem C23_padding (E : Env) (nm : String) (o : Order) (h : Hdr) (a : Nat) (ha : 0 < a) (m : DMap)
    (hm : createAs E nm o (.padding h (some a)) = .ok m)
    (bs : Bytes) (off depth : Nat) (c : Ctx) (hc : c.Clean) :
    ∃ p < a, a ∣ off + p ∧ (∀ q, a ∣ off + q → p ≤ q) ∧
      (off + p ≤ bs.length →
        (mapStream E m bs off depth c).1 = .ok (.bytes (window bs off p)) ∧
        (mapStream E m bs off depth c).2.byteSize = some p) ∧
      (bs.length < off + p → (mapStream E m bs off depth c).1 = .error .tooSmall) := by
  simp only [createAs, Except.ok.injEq] at hm
  subst hm
  have hcalc : ∃ p : Nat, calcPadding (some a) off = .ok (p : Int) ∧ p < a ∧ a ∣ off + p ∧
      ∀ q, a ∣ off + q → p ≤ q := by
    have hlt := Nat.mod_lt off ha
    have hdm := Nat.div_add_mod off a
    obtain ⟨b, rfl⟩ : ∃ b, a = b + 1 := ⟨a - 1, by omega⟩
    simp only [calcPadding, paddingSize]
    have hcast : ((off : Int) % ((b : Int) + 1)) = ((off % (b + 1) : Nat) : Int) := by simp
    rw [hcast]
    generalize hr : off % (b + 1) = r at *
    generalize off / (b + 1) = d at *
    by_cases hr0 : 0 < r
    · refine ⟨b + 1 - r, ?_, by omega, ⟨d + 1, ?_⟩, ?_⟩
      · rw [if_pos (by omega)]; congr 1; omega
      · rw [Nat.mul_add]; omega
      · rintro q ⟨x, hx⟩
        rcases Nat.lt_or_ge q (b + 1 - r) with hq | hq
        · exfalso
          have h1 : (b + 1) * d < (b + 1) * x := by omega
          have h2 : (b + 1) * x < (b + 1) * (d + 1) := by rw [Nat.mul_add]; omega
          have h3 := Nat.lt_of_mul_lt_mul_left h1
          have h4 := Nat.lt_of_mul_lt_mul_left h2
          omega
        · exact hq
    · refine ⟨0, ?_, by omega, ⟨d, by omega⟩, by omega⟩
      rw [if_neg (by omega)]; congr 1; omega
  obtain ⟨p, h1, h2, h3, h4⟩ := hcalc
  refine ⟨p, h2, h3, h4, ?_, ?_⟩
  · intro hle
    apply mapStream_of_parse hc
    have : tooSmall bs off (p : Int) = false := by simp [tooSmall]; omega
    simp [parse, paddingParse, h1, this, slice, window]
  · intro hlt
    rw [mapStream_error hc]
    have : tooSmall bs off (p : Int) = true := by simp [tooSmall]; omega
    simp [parse, paddingParse, h1, this]

example : ∃ m, createMap exEnv (.padding { name := "p" } (some 4)) = .ok m ∧
    (mapStream exEnv m [1, 2, 3, 4, 5] 1 0 {}).1 = .ok (.bytes [2, 3, 4]) ∧
    (mapStream exEnv m [1, 2, 3, 4, 5] 4 0 {}).1 = .ok (.bytes []) :=
  ⟨_, rfl, rfl, rfl⟩

/-- **C23** The same in a structure: a padding member starts where the member before it
ends, gives the least number of bytes that makes the offset a multiple of the alignment
size, and the next member starts there. -/
theorem C23_member (E : Env) (nm : String) (o : Order) (h hp : Hdr) (pre post : List Defn) (a : Nat) (ha : 0 < a)
    (hdt : DistinctTypes (pre ++ .padding hp (some a) :: post)) (m : DMap)
    (hm : createAs E nm o (.struct h (pre ++ .padding hp (some a) :: post)) = .ok m)
    (bs : Bytes) (off depth : Nat) (c : Ctx) (hc : c.Clean) (v : Val) (hv : (mapStream E m bs off depth c).1 = .ok v) :
    ∃ names vpre vs p k e, names = (pre ++ .padding hp (some a) :: post).map Defn.name ∧
      Layout E bs depth c.values nm o names [] pre off vpre p ∧
      k < a ∧ a ∣ p + k ∧ (∀ q, a ∣ p + q → k ≤ q) ∧ p + k ≤ bs.length ∧
      Layout E bs depth c.values nm o names (vpre ++ [.bytes (window bs p k)]) post (p + k) vs e ∧
      v = .struct nm (fill names vs) ∧ getAttr v hp.name = .bytes (window bs p k) ∧
      (mapStream E m bs off depth c).2.byteSize = some (e - off) := by
  have ho : OneOrder E o (pre ++ .padding hp (some a) :: post) := by
    intro hall
    exact absurd rfl ((hall (.padding hp (some a)) (by simp)).2 hp (some a))
  obtain ⟨vs, n, hlay, hlen, rfl, hb⟩ := C16_layout E nm o h _ hdt ho m hm bs off depth c hc v hv
  obtain ⟨vpre, p, hl1, hl2⟩ := Layout.append hlay
  cases hl2 with
  | absent hc' => cases hc' with
    | cond h1 => simp [Defn.memInfo] at h1
  | @present _ _ _ _ _ _ k m' w hpres hm' hv' hk hsup hl3 =>
    obtain ⟨n', o', -, hcr⟩ := hm'
    obtain ⟨k', h1, h2, h3, h4, h5⟩ := C23_padding E _ _ hp a ha m' hcr bs p (depth + 1) _ (Ctx.clean_fresh _)
    by_cases hle : p + k' ≤ bs.length
    · obtain ⟨h6, h7⟩ := h4 hle
      rw [hv'] at h6
      rw [hk] at h7
      cases h6
      cases h7
      refine ⟨_, vpre, vs, p, k, off + n, rfl, hl1, h1, h2, h3, hle, hl3, rfl, ?_, by rw [hb]; congr 1; omega⟩
      obtain ⟨r1, rfl, hr1⟩ := Layout.prefix hl1
      obtain ⟨r2, rfl, -⟩ := Layout.prefix hl3
      obtain ⟨_, _, _, _, hcls, -⟩ := createAs_struct hm
      have hnd := (createClass_nodup hcls).1
      simp only [List.map_append, List.map_cons, List.nil_append, List.append_assoc, List.cons_append] at hnd ⊢
      simp only [getAttr]
      rw [show hp.name = (Defn.padding hp (some a)).name from rfl, fill_get _ _ _ _ _ _ (by simpa using hr1) hnd]
      rfl
    · rw [h5 (by omega)] at hv'
      cases hv'

/-- `struct { uint8 a; padding to 4; uint16 b; }` -/
example : ∃ m, createMap exEnv (.struct { name := "T" } [.member { name := "a" } exU8 none (some "uint8") none,
      .padding { name := "p" } (some 4), .member { name := "b" } exU16 none (some "uint16") none]) = .ok m ∧
    (mapStream exEnv m [1, 2, 3, 4, 5, 0] 0 0 {}).1 =
      .ok (.struct "T" [("a", .int 1), ("p", .bytes [2, 3, 4]), ("b", .int 5)]) ∧
    (mapStream exEnv m [1, 2, 3, 4, 5, 0] 0 0 {}).2.byteSize = some 6 :=
  ⟨_, rfl, rfl, rfl⟩

end Dtf
