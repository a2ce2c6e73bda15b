import Verif.Props.Complete
import Verif.Props.Streams
import Verif.Props.Primitive
/-!
C87: a stream of bytes and a sequence of 8-bit numbers are the same data.
-/
namespace Dtf
namespace Spec

/-- The bytes of a stream as the numbers of a sequence. -/
def numbersOf (b : Bytes) : Val := .tuple (b.map fun x => .int x.toNat)

/-- What a sequence of 8-bit numbers gives where the stream of the same bytes gives `r`. -/
def asNumbers : Except Err Val → Except Err Val
  | .ok (.bytes b) => .ok (numbersOf b)
  | r => r

/-- An 8-bit unsigned integer, whatever its name and byte order. -/
def octet (h : Hdr) : Defn := .prim h (.integer true) (.bytes 1) "bytes"

end Spec
open Spec

theorem octet_mapped {E : Env} {h : Hdr} {nm : String} {o : Order} {em : DMap}
    (hm : createAs E nm o (octet h) = .ok em) (bs : Bytes) (p depth : Nat) (hp : p < bs.length) (c : Ctx) :
    (mapStream E em bs p depth c).1 = .ok (.int bs[p].toNat) ∧ (mapStream E em bs p depth c).2.byteSize = some 1 := by
  have hm' : createMap E (.prim { h with name := nm, order := o } (.integer true) (.bytes 1) "bytes") = .ok em := by
    rw [← hm]
    simp [octet, createMap, createAs, Defn.name, Defn.hdr, Defn.orderOrNative, Defn.order?]
  obtain ⟨i, h1, h2, h3, h4⟩ := C01_integer_map E { h with name := nm, order := o } true 1 (.inl rfl) _ hm'
    bs p depth c (by omega)
  refine ⟨?_, h2⟩
  rw [h1]
  have hw : window bs p 1 = [bs[p]] := by
    simp only [window, List.drop_eq_getElem_cons hp, List.take_succ_cons, List.take_zero]
  rw [hw] at h3
  have hs : stored E o [bs[p]] = bs[p].toNat := by simp [stored, number]
  simp only [hs] at h3
  simp only [if_true] at h4
  have : i = (bs[p].toNat : Int) := by omega
  rw [this]

theorem octet_step {E : Env} {h : Hdr} {nm : String} {o : Order} {em : DMap}
    (hm : createAs E nm o (octet h) = .ok em) (bs : Bytes) (p depth : Nat) (hp : p < bs.length) :
    parse E em bs p depth [] = .ok (.int bs[p].toNat, 1) :=
  (mapped_iff (show Ctx.Clean {} from rfl)).1 (octet_mapped hm bs p depth hp {})

/-- The numbers can be read one after the other. -/
theorem octets_readable {E : Env} {h : Hdr} {nm : String} {o : Order} {em : DMap}
    (hm : createAs E nm o (octet h) = .ok em) (bs : Bytes) (depth stop : Nat) (hstop : stop ≤ bs.length) :
    ∀ n p, p + n ≤ stop →
      Readable E em bs depth stop p ((window bs p n).map fun x => .int x.toNat) (p + n)
  | 0, p, _ => by simpa [window] using Readable.nil p
  | n + 1, p, hp => by
    have hlt : p < bs.length := by omega
    have hw : window bs p (n + 1) = bs[p] :: window bs (p + 1) n := by
      simp only [window, List.drop_eq_getElem_cons hlt, List.take_succ_cons]
    obtain ⟨h1, h2⟩ := octet_mapped hm bs p depth hlt {}
    rw [hw, List.map_cons, show p + (n + 1) = p + 1 + n by omega]
    exact .cons (by omega) h1 h2 (octets_readable hm bs depth stop hstop n (p + 1) (by omega))

/-- Each takes one byte. -/
theorem octets_end {E : Env} {h : Hdr} {nm : String} {o : Order} {em : DMap}
    (hm : createAs E nm o (octet h) = .ok em) {bs : Bytes} {depth stop : Nat} (hstop : stop ≤ bs.length)
    {p e : Nat} {vs : List Val} (hr : Readable E em bs depth stop p vs e) :
    e = p + vs.length ∧ (vs.length = 0 ∨ e ≤ stop) := by
  induction hr with
  | nil => simp
  | cons hp _ hk _ ih =>
    rw [(octet_mapped hm bs _ depth (by omega) {}).2] at hk
    cases hk
    simp only [List.length_cons]
    omega

/-- There can only be too few of them. -/
theorem octets_short {bs : Bytes} {step : Nat → PRes} {num ds : Option Int} {term : Option Lit}
    (hstep : ∀ p, p < bs.length → ∃ v, step p = .ok (v, 1)) :
    ∀ (fuel off used index : Nat) (last : Val) (x : Err), 0 < fuel → bs.length < off + fuel →
      seqParse step bs.length num ds term fuel off used index last = .error x → x = .tooSmall
  | 0, _, _, _, _, _, h, _, _ => by omega
  | fuel + 1, off, used, index, last, x, _, hf, he => by
    have hend : ∀ i u l, seqEnd num ds term i u l = .error x → x = .tooSmall := by
      intro i u l h
      unfold seqEnd at h
      repeat' split at h
      all_goals first | exact (Except.error.inj h).symm | cases h
    rw [seqParse] at he
    split at he
    · exact hend _ _ _ he
    · rename_i ho
      have ho : off < bs.length := by
        simp only [Bool.or_eq_true, decide_eq_true_eq, not_or] at ho
        omega
      obtain ⟨v, hv⟩ := hstep off ho
      simp only [hv] at he
      split at he
      · rename_i he'
        cases he
        split at he'
        · exact hend _ _ _ he'
        · exact octets_short hstep fuel _ _ _ _ _ (by omega) (by omega) he'
      · cases he

/-- A sequence of octets that cannot be mapped lacks bytes, provided its length is known. -/
theorem octets_too_few {E : Env} {h : Hdr} {nm : String} {o : Order} {em : DMap} (hem : createAs E nm o (octet h) = .ok em)
    {bs : Bytes} {off depth : Nat} (hd : depth ≤ 10) {info : SeqInfo} {ei : ElemInfo} {ns : Namespace}
    {r : Option Int × Option Lit × Option Int} (hr : (seqRules E info ei ns).1 = .ok r)
    (hno : ∀ v n, compositeSeqParse E info ei (fun p => parse E em bs p (depth + 1) []) bs.length off depth ns ≠ .ok (v, n)) :
    compositeSeqParse E info ei (fun p => parse E em bs p (depth + 1) []) bs.length off depth ns = .error .tooSmall := by
  have h1 := @octets_short bs (fun p => parse E em bs p (depth + 1) []) r.2.2 r.1 r.2.1
    (fun p hp => ⟨_, octet_step hem bs p (depth + 1) hp⟩) (seqFuel bs.length off r.2.2 0) off 0 0 .pyNone
  unfold compositeSeqParse at hno ⊢
  rw [if_neg (by omega)] at hno ⊢
  obtain ⟨ds, term, num⟩ := r
  simp only [hr] at hno ⊢ h1
  cases hp : seqParse (fun p => parse E em bs p (depth + 1) []) bs.length num ds term (seqFuel bs.length off num 0) off 0
      0 .pyNone with
  | ok p => exact absurd (by simp only [hp]) (hno (.tuple p.1) p.2)
  | error x => simp only [h1 x (by simp [seqFuel]) (by simp only [seqFuel]; omega) hp]

theorem counts_of_integral {v : Val} {n : Int} (h : Integral v n) : Counts v (.finite (n * 2 ^ 1074)) := by
  cases h with
  | int => exact .int
  | no => rw [Int.zero_mul]; exact .no
  | yes => exact .yes

theorem amounts_of_evaluates {E : Env} {const : Option Int} {expr : Option String} {ns : Namespace} {n : Int}
    (h : Evaluates E const expr ns n) : Amounts E const expr ns n := by
  obtain ⟨h0, h1 | ⟨h1, s, v, h2, h3, h4, h5⟩⟩ := h
  · exact ⟨h0, .inl h1⟩
  · exact ⟨h0, .inr ⟨h1, s, v, h2, h3, h4, counts_of_integral h5⟩⟩

theorem rules_number {E : Env} {info : SeqInfo} {ei : ElemInfo} {ns : Namespace} {n : Int}
    (h1 : info.dataSize = none) (h2 : info.dataSizeExpr = none) (h3 : info.terminator = none)
    (hev : evalNumElements E info ns = .ok n) (hhas : info.hasNumElements = true) :
    (seqRules E info ei ns).1 = .ok (none, none, some n) := by
  have hnd : info.hasDataSize = false := by simp [SeqInfo.hasDataSize, h1, h2]
  simp only [seqRules, countable, hnd, Bool.false_eq_true, if_false, h3, Option.isSome_none, hhas, if_true, hev]

/-- **C87** A stream and a sequence of 8-bit numbers with the same data size or number of elements:
mapping the sequence gives the numbers of the bytes that mapping the stream gives, and both take the same
number of bytes; where one raises ByteStreamTooSmallError, so does the other. -/
theorem C87_sized (E : Env) (nm : String) (o : Order) (h eh : Hdr) (info : SeqInfo) (ms mq : DMap)
    (hs : createAs E nm o (.seq h { info with kind := .stream } (octet eh)) = .ok ms)
    (hq : createAs E nm o (.seq h { info with kind := .sequence } (octet eh)) = .ok mq)
    (ht : info.terminator = none) (hone : info.dataSize = none ∨ info.numElements = none)
    (bs : Bytes) (off depth : Nat) (hoff : off ≤ bs.length) (hd : depth ≤ 10) (c : Ctx) (hc : c.Clean) (n : Int)
    (hn : Sized E info (some 1) c.values n) :
    (mapStream E mq bs off depth c).1 = asNumbers (mapStream E ms bs off depth c).1 ∧
    ((mapStream E ms bs off depth c).1 = .error .tooSmall ↔ (bs.length : Int) < off + n) ∧
    ((off : Int) + n ≤ bs.length → (mapStream E ms bs off depth c).1 = .ok (.bytes (window bs off n.toNat)) ∧
      (mapStream E ms bs off depth c).2.byteSize = some n.toNat ∧
      (mapStream E mq bs off depth c).2.byteSize = some n.toNat) := by
  have h0 : 0 ≤ n := by
    rcases hn with h | ⟨-, -, k, s, h, h2, rfl⟩
    · exact h.1
    · cases h2; have := h.1; omega
  obtain ⟨hst, -⟩ := C20_sized_stream E nm o h { info with kind := .stream } rfl (octet eh) ms hs bs off depth c hc
  obtain ⟨hst1, hst2⟩ := hst n h0 hn
  have hseq : ∃ en em r, createAs E en (elementOrder o (octet eh)) (octet eh) = .ok em ∧
      (seqRules E { info with kind := .sequence } ⟨some 1, false, none⟩ c.values).1 = .ok r ∧
      ∃ stop, stop ≤ bs.length ∧ (off + n.toNat ≤ bs.length → off + n.toNat ≤ stop) ∧ ∀ v k,
      ((mapStream E mq bs off depth c).1 = .ok v ∧ (mapStream E mq bs off depth c).2.byteSize = some k) ↔
        ∃ vs, v = .tuple vs ∧ vs.length = n.toNat ∧ Readable E em bs (depth + 1) stop off vs (off + k) := by
    rcases hn with hn | ⟨h1, h2, k, s, hn, h3, rfl⟩
    · obtain ⟨en, em, -, hem, hiff⟩ := C85_data_size E nm o h { info with kind := .sequence } rfl (octet eh) mq hq
        (by intros; simp [octet]) bs off depth hd c hc n.toNat 1
        (by rw [Int.toNat_of_nonneg h0]; exact amounts_of_evaluates hn) rfl (by omega)
        (fun hne => ⟨⟨n.toNat, by omega⟩, hone.resolve_left hne⟩)
      obtain ⟨hev, hhas⟩ := evalData_of (info := { info with kind := .sequence }) hn
      refine ⟨en, em, (some n, none, some n), hem, ?_, min bs.length (off + n.toNat), by omega, by omega, ?_⟩
      · simp only [seqRules, hhas, if_true, hev]
        simp
      · simpa using hiff
    · cases h3
      rw [Int.mul_one] at *
      obtain ⟨en, em, -, hem, hiff⟩ := C85_number E nm o h { info with kind := .sequence } rfl (octet eh) mq hq
        (by intros; simp [octet]) bs off depth hd c hc h1 h2 ht k.toNat
        (by rw [Int.toNat_of_nonneg h0]; exact amounts_of_evaluates hn)
      obtain ⟨hev, hhas⟩ := evalNum_of (info := { info with kind := .sequence }) hn
      refine ⟨en, em, (none, none, some k), hem, ?_, bs.length, by omega, by omega, hiff⟩
      exact rules_number h1 h2 ht hev hhas
  obtain ⟨en, em, r, hem, hrules, stop, hstop, hfit, hiff⟩ := hseq
  by_cases hfits : (off : Int) + n ≤ bs.length
  · obtain ⟨h1, h2⟩ := hst1 hfits
    have hr := octets_readable hem bs (depth + 1) stop hstop n.toNat off (hfit (by omega))
    obtain ⟨h3, h4⟩ := (hiff (numbersOf (window bs off n.toNat)) n.toNat).2
      ⟨_, rfl, by simp [window]; omega, hr⟩
    refine ⟨by rw [h1, h3]; rfl, ?_, fun _ => ⟨h1, h2, h4⟩⟩
    rw [h1]
    simp
    omega
  · have h1 := hst2 (by omega)
    refine ⟨?_, by simp only [h1, true_iff]; omega, fun h => absurd h hfits⟩
    rw [h1]
    refine (mapStream_error hc).2 ?_
    show parse E mq bs off depth c.values = .error .tooSmall
    have hno : ∀ v k, parse E mq bs off depth c.values ≠ .ok (v, k) := by
      intro v k hp
      obtain ⟨vs, -, hl, hr⟩ := (hiff v k).1 ((mapped_iff hc).2 hp)
      obtain ⟨h2, h3⟩ := octets_end hem hstop hr
      omega
    cases hlin : seqLinear { info with kind := .sequence } ⟨some 1, false, none⟩ with
    | false =>
      obtain ⟨en', eo, em', he, ⟨eo', heo, heq⟩, rfl, -⟩ := createAs_seq hq
      have hpe : parse E (.seq { h with name := nm, order := o } { info with kind := .sequence }
          ⟨some 1, false, none⟩ (Defn.seq h { info with kind := .sequence } (octet eh)).byteSize em')
          bs off depth c.values = compositeSeqParse E { info with kind := .sequence } ⟨some 1, false, none⟩
            (fun p => parse E em' bs p (depth + 1) []) bs.length off depth c.values := by
        rw [parse]
        simp only [hlin, Bool.false_eq_true, if_false]
      refine hpe.trans (octets_too_few he hd hrules ?_)
      intro v k hv
      exact hno v k (hpe.trans hv)
    | true =>
      obtain ⟨en', eo, em', he, ⟨eo', heo, heq⟩, rfl, -⟩ := createAs_seq hq
      have hsize : (Defn.seq h { info with kind := .sequence } (octet eh)).byteSize = some n := by
        have hx : info.dataSizeExpr = none ∧ info.numElementsExpr = none := by
          simpa [seqLinear, ht] using hlin
        rcases hn with ⟨-, ⟨h2, h3⟩ | ⟨-, s, v, h2, -⟩⟩ | ⟨h4, -, k, s, ⟨-, ⟨h2, h3⟩ | ⟨-, s, v, h2, -⟩⟩, h5, rfl⟩
        · simp [Defn.byteSize, truthyInt, h2, h3]
        · simp [hx.1] at h2
        · cases h5
          rw [Defn.byteSize, show (octet eh).byteSize = some 1 from rfl]
          simp [truthyInt, h2, h3, h4]
        · simp [hx.2] at h2
      rw [hsize, parse]
      simp only [show (octet eh).byteSize = some 1 from rfl, show (octet eh).isComposite = false from rfl,
        show (octet eh).terminator? = none from rfl, hlin, if_true, linearSeqParse]
      rw [if_pos (by simp [tooSmall]; omega)]

theorem octet_equals {b t : UInt8} : Equals (.int b.toNat) (.int t.toNat) ↔ b = t := by
  rw [← pyEq_iff]
  simp only [pyEq, Val.num?, Lit.num?, Num.eq]
  constructor
  · intro h
    have : b.toNat = t.toNat := Int.ofNat_inj.mp (by simpa using h)
    exact UInt8.toNat_inj.mp this
  · rintro rfl
    simp

theorem octet_terminator {bs : Bytes} {off k : Nat} {t : UInt8} :
    TerminatorAt bs off [t] k ↔ bs[off + k]? = some t := by
  simp only [TerminatorAt, List.length_singleton, Nat.mul_one, window]
  cases hb : bs[off + k]? with
  | none =>
    rw [List.getElem?_eq_none_iff] at hb
    rw [List.drop_eq_nil_of_le hb]
    simp
  | some b =>
    obtain ⟨hl, rfl⟩ := List.getElem?_eq_some_iff.mp hb
    rw [List.drop_eq_getElem_cons hl]
    simp only [List.take_succ_cons, List.take_zero, List.cons.injEq, and_true, Option.some.injEq]

/-- **C87** A stream that ends at the byte `t` and a sequence of 8-bit numbers that ends at the number
of that byte: mapping the sequence gives the numbers of the bytes that mapping the stream gives, and both take
the same number of bytes; where one raises ByteStreamTooSmallError, so does the other. -/
theorem C87_terminated (E : Env) (nm : String) (o : Order) (h eh : Hdr) (element : Option String) (t : UInt8)
    (ms mq : DMap)
    (hs : createAs E nm o (.seq h { kind := .stream, elementDataType := element, terminator := some (.bytes [t]) }
      (octet eh)) = .ok ms)
    (hq : createAs E nm o (.seq h { kind := .sequence, elementDataType := element, terminator := some (.int t.toNat) }
      (octet eh)) = .ok mq)
    (bs : Bytes) (off depth : Nat) (hd : depth ≤ 10) (c : Ctx) (hc : c.Clean) :
    (mapStream E mq bs off depth c).1 = asNumbers (mapStream E ms bs off depth c).1 ∧
    ((mapStream E ms bs off depth c).1 = .error .tooSmall ∨ ∃ b, (mapStream E ms bs off depth c).1 = .ok (.bytes b) ∧
      (mapStream E ms bs off depth c).2.byteSize = some b.length ∧
      (mapStream E mq bs off depth c).2.byteSize = some b.length) := by
  obtain ⟨hst1, hst2, hst3⟩ := C21_terminated_stream E nm o h _ rfl ⟨rfl, rfl⟩ ⟨rfl, rfl⟩ [t] (by simp) rfl (octet eh) rfl
    ms hs bs off depth c hc
  obtain ⟨en, em, -, hem, hiff⟩ := C85_terminator E nm o h _ rfl (octet eh) mq hq (by intros; simp [octet]) bs off depth hd
    c hc rfl rfl _ rfl (by simp)
  rcases hst3 with ⟨k, hk⟩ | hnone
  · obtain ⟨h1, h2⟩ := hst1 k hk
    simp only [List.length_singleton, Nat.mul_one] at h1 h2
    have hkt := octet_terminator.mp hk.1
    obtain ⟨hl, hbk⟩ := List.getElem?_eq_some_iff.mp hkt
    have hr := octets_readable hem bs (depth + 1) bs.length (Nat.le_refl _) (k + 1) off (by omega)
    have hw : window bs off (k + 1) = window bs off k ++ [t] := by
      simp only [window, List.take_add_one, List.getElem?_drop, hkt, Option.toList_some]
    have hlen : (window bs off (k + 1)).length = k + 1 := by simp [window]; omega
    have hbefore : ∀ y ∈ (window bs off k).map fun x => Val.int x.toNat, ¬ Equals y (.int t.toNat) := by
      intro y hy
      obtain ⟨x, hx, rfl⟩ := List.mem_map.mp hy
      rw [octet_equals]
      rintro rfl
      obtain ⟨i, hi, hix⟩ := List.getElem_of_mem hx
      have hik : i < k := by simp [window] at hi; omega
      refine hk.2 i hik (octet_terminator.mpr ?_)
      rw [← hix]
      simp only [window, List.getElem_take, List.getElem_drop]
      exact List.getElem?_eq_getElem (by omega)
    obtain ⟨h3, h4⟩ := (hiff (numbersOf (window bs off (k + 1))) (k + 1)).2
      ⟨(window bs off k).map fun x => .int x.toNat, .int t.toNat, by rw [numbersOf, hw, List.map_append]; rfl,
        octet_equals.mpr rfl, hbefore, by rw [hw, List.map_append] at hr; exact hr⟩
    exact ⟨by rw [h1, h3]; rfl, .inr ⟨_, h1, by rw [hlen]; exact h2, by rw [hlen]; exact h4⟩⟩
  · have h1 := hst2.2 hnone
    refine ⟨?_, .inl h1⟩
    rw [h1]
    refine (mapStream_error hc).2 ?_
    have hno : ∀ v k, parse E mq bs off depth c.values ≠ .ok (v, k) := by
      intro v k hp
      obtain ⟨vs, x, -, hx, -, hr⟩ := (hiff v k).1 ((mapped_iff hc).2 hp)
      have key : ∀ vs p e, Readable E em bs (depth + 1) bs.length p (vs ++ [x]) e → off ≤ p → False := by
        intro vs
        induction vs with
        | nil =>
          intro p e hr hp
          cases hr with
          | cons hlt hv _ _ =>
            rw [(octet_mapped hem bs p _ hlt {}).1] at hv
            cases hv
            refine hnone (p - off) (octet_terminator.mpr ?_)
            rw [show off + (p - off) = p by omega, List.getElem?_eq_getElem hlt, octet_equals.mp hx]
        | cons y vs ih =>
          intro p e hr hp
          cases hr with
          | cons hlt hv _ hrest => exact ih _ _ hrest (by omega)
      exact key vs off _ hr (Nat.le_refl _)
    obtain ⟨en', eo, em', he, -, rfl, -⟩ := createAs_seq hq
    have hpe : parse E (.seq { h with name := nm, order := o }
        { kind := .sequence, elementDataType := element, terminator := some (.int t.toNat) } ⟨some 1, false, none⟩
        (Defn.seq h { kind := .sequence, elementDataType := element, terminator := some (.int t.toNat) }
          (octet eh)).byteSize em') bs off depth c.values =
        compositeSeqParse E { kind := .sequence, elementDataType := element, terminator := some (.int t.toNat) }
          ⟨some 1, false, none⟩ (fun p => parse E em' bs p (depth + 1) []) bs.length off depth c.values := by
      rw [parse]
      simp [seqLinear]
    refine hpe.trans (octets_too_few he hd (r := (none, some (.int t.toNat), none)) (by rfl) ?_)
    intro v k hv
    exact hno v k (hpe.trans hv)

/-- The hypotheses of `C87_sized` and `C87_terminated`: three bytes, and bytes up to a zero. -/
example : ∃ ms mq, createAs exEnv "row" .native (.seq { name := "row" } { kind := .stream, numElements := some 3 } exU8) = .ok ms ∧
    createAs exEnv "row" .native (.seq { name := "row" } { kind := .sequence, numElements := some 3 } exU8) = .ok mq ∧
    exU8 = octet { name := "uint8" } ∧
    Sized exEnv { kind := .stream, numElements := some 3 } (some 1) [] 3 ∧
    (mapStream exEnv ms [1, 2, 255, 4] 0 0 {}).1 = .ok (.bytes [1, 2, 255]) ∧
    (mapStream exEnv mq [1, 2, 255, 4] 0 0 {}).1 = .ok (.tuple [.int 1, .int 2, .int 255]) := by
  refine ⟨_, _, rfl, rfl, rfl, .inr ⟨rfl, rfl, 3, 1, ⟨by decide, .inl ⟨rfl, by decide⟩⟩, rfl, rfl⟩, rfl, rfl⟩

example : ∃ ms mq,
    createAs exEnv "row" .native (.seq { name := "row" } { kind := .stream, terminator := some (.bytes [0]) } exU8) = .ok ms ∧
    createAs exEnv "row" .native (.seq { name := "row" } { kind := .sequence, terminator := some (.int 0) } exU8) = .ok mq ∧
    (mapStream exEnv ms [7, 200, 0, 4] 0 0 {}).1 = .ok (.bytes [7, 200, 0]) ∧
    (mapStream exEnv mq [7, 200, 0, 4] 0 0 {}).1 = .ok (.tuple [.int 7, .int 200, .int 0]) ∧
    (mapStream exEnv mq [7, 200] 0 0 {}).1 = .error .tooSmall := by
  refine ⟨_, _, rfl, rfl, rfl, rfl, rfl⟩

end Dtf
