import Verif.Elements
import Verif.Props.Structures
/-!
# Properties C17, C25 (sequences) and C28: sequences
-/
namespace Dtf

namespace Spec

/-- `vs` are the values the map `em` gives when called repeatedly, each time where
the previous value ended, from position `p` to position `e`. -/
inductive Elements (E : Env) (em : DMap) (bs : Bytes) (depth : Nat) : Nat → List Val → Nat → Prop
  | nil (p : Nat) : Elements E em bs depth p [] p
  | cons {p k e : Nat} {v : Val} {vs : List Val}
      (hv : (mapStream E em bs p depth {}).1 = .ok v)
      (hk : (mapStream E em bs p depth {}).2.byteSize = some k)
      (t : Elements E em bs depth (p + k) vs e) : Elements E em bs depth p (v :: vs) e

/-- The byte order an element of a sequence is to be read in: its own if it declares
one; if not, that of the sequence for a scalar, that of the platform for others. -/
def elementOrder (so : Order) (e : Defn) : Order :=
  match e.order? with
  | some .little => .little
  | some .big => .big
  | _ => if e.isComposite then .native else so

/-- The value is the `int` `n`; a `bool` is one, too. -/
inductive Integral : Val → Int → Prop
  | int {n : Int} : Integral (.int n) n
  | no : Integral (.bool false) 0
  | yes : Integral (.bool true) 1

/-- A size given as a number, or as an expression over the context, is `n`. -/
def Evaluates (E : Env) (const : Option Int) (expr : Option String) (ns : Namespace) (n : Int) : Prop :=
  0 ≤ n ∧ ((const = some n ∧ n ≠ 0) ∨
    (const = none ∧ ∃ s v, expr = some s ∧ s ≠ "" ∧ E.evalExpr s (withBuiltins ns) = some v ∧
      Integral v n))

/-- The number of elements or the data size of a sequence, given as a number, or as an
expression over the context whose value is a number equal to `n`: an `int`, a `bool` or a
`float`. -/
def Amounts (E : Env) (const : Option Int) (expr : Option String) (ns : Namespace) (n : Int) : Prop :=
  0 ≤ n ∧ ((const = some n ∧ n ≠ 0) ∨
    (const = none ∧ ∃ s v, expr = some s ∧ s ≠ "" ∧ E.evalExpr s (withBuiltins ns) = some v ∧
      Counts v (.finite (n * 2 ^ 1074))))

end Spec
open Spec

theorem elements_iff {E : Env} {em : DMap} {bs : Bytes} {depth p e : Nat} {vs : List Val} :
    Elems (fun p => parse E em bs p depth []) p vs e ↔ Elements E em bs depth p vs e := by
  constructor
  · intro h
    induction h with
    | nil => exact .nil _
    | cons h _ ih =>
      have := mapStream_of_parse (c := {}) (Ctx.clean_fresh []) h
      exact .cons this.1 this.2 ih
  · intro h
    induction h with
    | nil => exact .nil _
    | @cons p k e v vs hv hk _ ih =>
      obtain ⟨n, hp, hb⟩ := mapStream_ok (c := {}) (Ctx.clean_fresh []) hv
      rw [hk] at hb; cases hb
      exact .cons hp ih

theorem checkSize_integral {kd : SeqKind} {v : Val} {n : Int} (h0 : 0 ≤ n) (h : Integral v n) :
    checkSize kd (some v) = .ok n := by
  cases h with
  | int => simp only [checkSize]; rw [if_neg (by omega)]
  | no => rfl
  | yes => rfl

theorem evalNum_of {E : Env} {info : SeqInfo} {ns : Namespace} {n : Int}
    (h : Evaluates E info.numElements info.numElementsExpr ns n) :
    evalNumElements E info ns = .ok n ∧ info.hasNumElements = true := by
  obtain ⟨h0, ⟨h1, h2⟩ | ⟨h1, s, v, h2, h3, h4, h5⟩⟩ := h
  · constructor
    · have : truthyInt info.numElements = true := by rw [h1]; simpa [truthyInt] using h2
      unfold evalNumElements
      rw [if_pos this, h1]
      simp [checkSize]; omega
    · simp [SeqInfo.hasNumElements, h1]
  · constructor
    · unfold evalNumElements
      rw [if_neg (by simp [h1, truthyInt]), h2]
      simp [evalSize, h3, h4, checkSize_integral h0 h5]
    · simp [SeqInfo.hasNumElements, h2]

theorem evalData_of {E : Env} {info : SeqInfo} {ns : Namespace} {n : Int}
    (h : Evaluates E info.dataSize info.dataSizeExpr ns n) :
    evalDataSize E info ns = .ok n ∧ info.hasDataSize = true := by
  obtain ⟨h0, ⟨h1, h2⟩ | ⟨h1, s, v, h2, h3, h4, h5⟩⟩ := h
  · constructor
    · have : truthyInt info.dataSize = true := by rw [h1]; simpa [truthyInt] using h2
      unfold evalDataSize
      rw [if_pos this, h1]
      simp [checkSize]; omega
    · simp [SeqInfo.hasDataSize, h1]
  · constructor
    · unfold evalDataSize
      rw [if_neg (by simp [h1, truthyInt]), h2]
      simp [evalSize, h3, h4, checkSize_integral h0 h5]
    · simp [SeqInfo.hasDataSize, h2]

/-- A number that equals `n` is accepted as `n` by a sequence. -/
theorem checkSize_counts {v : Val} {n : Int} (h0 : 0 ≤ n) (h : Counts v (.finite (n * 2 ^ 1074))) :
    checkSize .sequence (some v) = .ok n := by
  have h := (val_number v _).mp h
  have hp : ((2 : Int) ^ 1074) ≠ 0 := Int.pow_ne_zero (by decide)
  cases v <;> simp only [Val.num?, Option.bind_some, Option.bind_none, Num.quantity?, Option.some.injEq,
    Quantity.finite.injEq, reduceCtorEq] at h
  · have := Int.eq_of_mul_eq_mul_right hp h
    simp only [checkSize, this]
  · have := Int.eq_of_mul_eq_mul_right hp h
    subst this
    simp only [checkSize]
    rw [if_neg (by omega)]
  · rw [quantity_fin] at h
    have h1 : ¬ n * 2 ^ 1074 < 0 := by
      have := Int.mul_nonneg h0 (show (0 : Int) ≤ 2 ^ 1074 from Int.pow_nonneg (by decide))
      omega
    simp only [checkSize, h]
    rw [if_neg h1, if_pos ⟨trivial, Int.mul_emod_left _ _⟩, Int.mul_ediv_cancel _ hp]

theorem evalNum_amounts {E : Env} {info : SeqInfo} (hk : info.kind = .sequence) {ns : Namespace} {n : Int}
    (h : Amounts E info.numElements info.numElementsExpr ns n) :
    evalNumElements E info ns = .ok n ∧ info.hasNumElements = true := by
  obtain ⟨h0, h | ⟨h1, s, v, h2, h3, h4, h5⟩⟩ := h
  · exact evalNum_of ⟨h0, .inl h⟩
  · constructor
    · unfold evalNumElements
      rw [if_neg (by simp [h1, truthyInt]), h2]
      simp only [evalSize, beq_eq_false_iff_ne.mpr h3, Bool.false_eq_true, if_false, h4, hk, checkSize_counts h0 h5]
    · simp [SeqInfo.hasNumElements, h2]

theorem evalData_amounts {E : Env} {info : SeqInfo} (hk : info.kind = .sequence) {ns : Namespace} {n : Int}
    (h : Amounts E info.dataSize info.dataSizeExpr ns n) :
    evalDataSize E info ns = .ok n ∧ info.hasDataSize = true := by
  obtain ⟨h0, h | ⟨h1, s, v, h2, h3, h4, h5⟩⟩ := h
  · exact evalData_of ⟨h0, .inl h⟩
  · constructor
    · unfold evalDataSize
      rw [if_neg (by simp [h1, truthyInt]), h2]
      simp only [evalSize, beq_eq_false_iff_ne.mpr h3, Bool.false_eq_true, if_false, h4, hk, checkSize_counts h0 h5]
    · simp [SeqInfo.hasDataSize, h2]

/-- What a successful mapping of a sequence means. -/
theorem seq_parse {E : Env} {nm : String} {o : Order} {h : Hdr} {info : SeqInfo} {e : Defn} {m : DMap}
    (hk : info.kind = .sequence) (hm : createAs E nm o (.seq h info e) = .ok m)
    (bs : Bytes) (off depth : Nat) (ns : Namespace) (v : Val) (n : Nat)
    (hp : parse E m bs off depth ns = .ok (v, n)) :
    ∃ hd bsz em vs p, m = .seq hd info ⟨e.byteSize, e.isComposite, e.terminator?⟩ bsz em ∧
      v = .tuple vs ∧ Elems (fun p => parse E em bs p (depth + 1) []) off vs p ∧
      p ≤ off + n ∧ (info.dataSize = none → p = off + n) ∧
      ((seqLinear info ⟨e.byteSize, e.isComposite, e.terminator?⟩ = true ∧
        (truthyInt info.dataSize = true → ∀ es, e.byteSize = some es →
          info.dataSize.map (Int.fdiv · es) = some (vs.length : Int)) ∧
        (truthyInt info.dataSize = false → info.numElements = some (vs.length : Int))) ∨
      (seqLinear info ⟨e.byteSize, e.isComposite, e.terminator?⟩ = false ∧ ∃ ds term num,
        (seqRules E info ⟨e.byteSize, e.isComposite, e.terminator?⟩ ns).1 = .ok (ds, term, num) ∧
        EndsOk num ds term 0 0 .pyNone vs n)) := by
  have hm0 := hm
  obtain ⟨n', eo, em, he, -, rfl, hfin⟩ := createAs_seq hm
  simp only [parse, hk] at hp
  split at hp
  · rename_i hlin
    have hnc : e.isComposite = false := by
      simp only [seqLinear, Bool.not_eq_true', Bool.or_eq_false_iff] at hlin
      exact hlin.1.1.1
    unfold linearSeqParse at hp
    split at hp
    · cases hp
    rename_i sz hbs
    split at hp
    · cases hp
    rename_i hts
    cases hop : (DMap.seq { h with name := nm, order := o } info
        ⟨e.byteSize, e.isComposite, e.terminator?⟩ (Defn.seq h info e).byteSize em).op with
    | none => rw [hop] at hp; simp at hp
    | some op =>
      obtain ⟨h', k, psz, u, c, cnt, ec, rfl, hme, hord, hc, hcs, hcodes, hpos, hd1, hd2⟩ :=
        seq_op hk hm0 hnc op hop
      simp only [DMap.seq.injEq] at hme
      obtain ⟨-, -, -, -, rfl⟩ := hme
      rw [hop] at hp
      simp only [Option.bind_some] at hp
      split at hp
      · cases hp
      rename_i vs hvs
      unfold Op.readFrom at hvs
      split at hvs
      · cases hvs
      rename_i hl
      cases hvs
      split at hp
      · cases hp
      rename_i xs hxs
      cases hp
      rw [hcodes, ← hord] at hxs
      rw [hcodes, codesSize_replicate] at hl
      have hfs : u = "bytes" := by
        cases hds : truthyInt info.dataSize with
        | true => exact (hd1 hds).1
        | false =>
          simp only [Defn.byteSize, hds, Bool.false_eq_true, if_false, fixedByteSize] at hbs
          split at hbs
          · split at hbs
            · rename_i s hs
              split at hs
              · rename_i hu; simpa using hu
              · cases hs
            · cases hbs
          · cases hbs
      subst hfs
      have hfs : fixedByteSize (.bytes psz) "bytes" = some (c.size : Int) := by
        simp [fixedByteSize, hcs]
      have hsz : 0 < c.size := by cases c <;> simp [Code.size]
      have hmul : 0 < cnt * c.size := Nat.mul_pos hpos hsz
      obtain ⟨h1, h2⟩ := (linear_elems hc hfs bs off cnt xs (off + cnt * c.size)).mp
        ⟨.inl (by simp at hl; omega), rfl, hxs⟩
      refine ⟨_, _, _, xs, _, rfl, rfl, h1, ?_, ?_, .inl ⟨hlin, ?_, ?_⟩⟩
      · cases hds : truthyInt info.dataSize with
        | true =>
          have hd := (hd1 hds).2
          simp only [Defn.byteSize, hds, if_true] at hbs
          rw [hbs] at hd
          simp only [Option.map_some, Option.some.injEq] at hd
          have := Int.mul_fdiv_add_fmod sz psz
          have h3 := Int.fmod_nonneg_of_pos sz (b := psz) (by omega)
          rw [hd] at this
          rw [hcs] at hmul ⊢
          have h4 : ((cnt * psz : Nat) : Int) = psz * cnt := by rw [Int.natCast_mul, Int.mul_comm]
          omega
        | false =>
          have hd := hd2 hds
          simp only [Defn.byteSize, hds, Bool.false_eq_true, if_false, hfs, hd] at hbs
          split at hbs
          · split at hbs
            · cases hbs
            · simp only [Option.map_some, Option.some.injEq] at hbs
              subst hbs
              have : ((c.size : Int) * cnt).toNat = cnt * c.size := by
                rw [← Int.natCast_mul, Int.toNat_natCast, Nat.mul_comm]
              omega
          · cases hbs
      · intro hnone
        have hds : truthyInt info.dataSize = false := by rw [hnone]; rfl
        have hd := hd2 hds
        simp only [Defn.byteSize, hds, Bool.false_eq_true, if_false, hfs, hd] at hbs
        split at hbs
        · split at hbs
          · cases hbs
          · simp only [Option.map_some, Option.some.injEq] at hbs
            subst hbs
            have : ((c.size : Int) * cnt).toNat = cnt * c.size := by
              rw [← Int.natCast_mul, Int.toNat_natCast, Nat.mul_comm]
            omega
        · cases hbs
      · intro hds es hes
        simp only [Defn.byteSize, hfs, Option.some.injEq] at hes
        subst hes
        rw [h2, ← (hd1 hds).2, hcs]
      · intro hds
        rw [h2, hd2 hds]
  · rename_i hlin
    simp only [Bool.not_eq_true] at hlin
    unfold compositeSeqParse at hp
    split at hp
    · cases hp
    split at hp
    · cases hp
    rename_i ds term num hr
    split at hp
    · cases hp
    rename_i vs u hs
    cases hp
    obtain ⟨⟨p, h1, h2⟩, h3⟩ := seqParse_elems _ _ _ _ _ _ _ _ _ _ _ _ hs
    exact ⟨_, _, _, vs, p, rfl, rfl, h1, by omega, fun _ => by omega, .inr ⟨hlin, ds, term, num, hr, h3⟩⟩

theorem elementOrder_eq {o eo : Order} {e : Defn} (h : e.order? = some eo) :
    elementOrder o e = if o ≠ .native ∧ eo = .native ∧ e.isComposite = false then o else eo := by
  simp only [elementOrder, h]
  cases o <;> cases eo <;> cases e.isComposite <;> simp

/-- **C17** When a sequence map succeeds, it returns a tuple of the values of its
elements, the first mapped at the offset and each next one where the previous one
ended. -/
theorem C17_elements (E : Env) (nm : String) (o : Order) (h : Hdr) (info : SeqInfo)
    (hk : info.kind = .sequence) (e : Defn) (m : DMap)
    (hm : createAs E nm o (.seq h info e) = .ok m) (bs : Bytes) (off depth : Nat)
    (c : Ctx) (hc : c.Clean) (v : Val) (hv : (mapStream E m bs off depth c).1 = .ok v) :
    ∃ en em vs p n, (e.isComposite = true → en = e.name) ∧ createAs E en (elementOrder o e) e = .ok em ∧ v = .tuple vs ∧
      (mapStream E m bs off depth c).2.byteSize = some n ∧
      Elements E em bs (depth + 1) off vs p ∧ p ≤ off + n ∧ (info.dataSize = none → p = off + n) := by
  obtain ⟨n, hp, hb⟩ := mapStream_ok hc hv
  obtain ⟨hd, bsz, em, vs, p, hme, rfl, h1, h2, h3, -⟩ := seq_parse hk hm bs off depth c.values v n hp
  obtain ⟨en, eo, em', hen, he, ⟨eo', heo, heq⟩, hm', -⟩ := createAs_seq_named hm
  rw [hm'] at hme
  cases hme
  rw [elementOrder_eq heo, ← heq]
  exact ⟨en, em, vs, p, n, hen, he, rfl, hb, elements_iff.mp h1, h2, h3⟩

/-- **C24** for sequences: under the conditions of `C24_member_order_partial` the
elements of a sequence are read in the byte order the element declares; a scalar
element that declares none is read in the byte order the sequence declares, and if
it declares none in that of the structure. -/
theorem C24_elements_partial (E : Env) (nm : String) (o : Order) (h : Hdr) (ms : List Defn)
    (hdt : DistinctTypes ms) (ho : OneOrder E o ms) (m : DMap)
    (hm : createAs E nm o (.struct h ms) = .ok m)
    (bs : Bytes) (off depth : Nat) (c : Ctx) (hc : c.Clean) (v : Val)
    (hv : (mapStream E m bs off depth c).1 = .ok v) (d : Defn) (hd : d ∈ ms)
    (hcd : d.memInfo.condition = none) (hs : Hdr) (info : SeqInfo) (e : Defn)
    (hk : info.kind = .sequence) (ht : d.target = .seq hs info e) :
    ∃ en em vs p q, (e.isComposite = true → en = e.name) ∧
      createAs E en (elementOrder (effectiveOrder o d) e) e = .ok em ∧
      getAttr v d.name = .tuple vs ∧ off ≤ p ∧ Elements E em bs (depth + 2) p vs q := by
  rcases C24_member_order_partial E nm o h ms hdt ho m hm bs off depth c hc v hv d hd with
    ⟨-, cond, hcd', -⟩ | ⟨md, p, ns, hcr, hp, hx⟩
  · rw [hcd] at hcd'; cases hcd'
  · rw [ht] at hcr
    obtain ⟨en, em, vs, q, n, h0, h1, h2, -, h3, -⟩ :=
      C17_elements E _ _ hs info hk e md hcr bs p (depth + 1) _ (Ctx.clean_fresh ns) _ hx
    exact ⟨en, em, vs, p, q, h0, h1, h2, hp, h3⟩

/-- **C24** for sequences of integers: the elements are the numbers stored one after
the other in that byte order. -/
theorem C24_integers_partial (E : Env) (nm : String) (o : Order) (h : Hdr) (ms : List Defn)
    (hdt : DistinctTypes ms) (ho : OneOrder E o ms) (m : DMap)
    (hm : createAs E nm o (.struct h ms) = .ok m)
    (bs : Bytes) (off depth : Nat) (c : Ctx) (hc : c.Clean) (v : Val)
    (hv : (mapStream E m bs off depth c).1 = .ok v) (d : Defn) (hd : d ∈ ms)
    (hcd : d.memInfo.condition = none) (hs : Hdr) (info : SeqInfo) (hh : Hdr) (u : Bool) (n : Nat)
    (hn : n = 1 ∨ n = 2 ∨ n = 4 ∨ n = 8) (hk : info.kind = .sequence)
    (ht : d.target = .seq hs info (.prim hh (.integer u) (.bytes n) "bytes"))
    (order : Order) (hord : order = if hh.order = .native then effectiveOrder o d else hh.order) :
    ∃ (p : Nat) (vs : List Val), off ≤ p ∧ getAttr v d.name = .tuple vs ∧
      ∀ k (hl : k < vs.length), p + n * k + n ≤ bs.length ∧
        ∃ i : Int, vs[k] = .int i ∧ i % 256 ^ n = stored E order (window bs (p + n * k) n) := by
  obtain ⟨en, em, vs, p, q, -, hcr, hv, hp, hel⟩ :=
    C24_elements_partial E nm o h ms hdt ho m hm bs off depth c hc v hv d hd hcd hs info _ hk ht
  have heo : elementOrder (effectiveOrder o d) (.prim hh (.integer u) (.bytes n) "bytes") = order := by
    rw [hord]
    simp only [elementOrder, Defn.order?, Defn.isComposite]
    cases hh.order <;> simp
  rw [heo] at hcr
  have hcr' : createMap E (.prim { hh with name := en, order := order } (.integer u) (.bytes n) "bytes") = .ok em := by
    rw [← hcr]
    simp [createMap, createAs, Defn.orderOrNative, Defn.order?, Defn.name, Defn.hdr]
  refine ⟨p, vs, hp, hv, ?_⟩
  clear hv hp
  induction hel with
  | nil p => intro k hl; simp at hl
  | @cons p k' e x xs hx hk' t ih =>
    have hle : p + n ≤ bs.length ∧ k' = n := by
      obtain ⟨k, hk, hb⟩ := mapStream_ok (Ctx.clean_fresh []) hx
      rw [hk'] at hb
      cases hb
      obtain rfl := createMap_prim _ _ _ _ _ _ hcr'
      simp only [parse, primParse, fixedByteSize, beq_self_eq_true, if_true] at hk
      split at hk
      · cases hk
      · rename_i hts
        simp [tooSmall] at hts
        refine ⟨by omega, ?_⟩
        split at hk
        · cases hk
        · simp only [Except.ok.injEq, Prod.mk.injEq] at hk
          rw [← hk.2]
          rfl
    obtain ⟨hle, rfl⟩ := hle
    intro k hl
    cases k with
    | zero =>
      obtain ⟨i, h1, -, h3, -⟩ := C01_integer_map E _ u _ hn em hcr' bs p (depth + 2) {} hle
      rw [hx] at h1
      exact ⟨by simpa using hle, i, by simpa using h1, by simpa using h3⟩
    | succ k =>
      obtain ⟨h1, i, h2, h3⟩ := ih k (by simpa using hl)
      have he : p + k' * (k + 1) = p + k' + k' * k := by rw [Nat.mul_succ]; omega
      rw [he]
      exact ⟨h1, i, by simpa using h2, h3⟩

/-- **C17** A sequence whose number of elements is `k` has `k` elements. -/
theorem C17_count (E : Env) (nm : String) (o : Order) (h : Hdr) (info : SeqInfo)
    (hk : info.kind = .sequence) (e : Defn) (m : DMap)
    (hm : createAs E nm o (.seq h info e) = .ok m) (bs : Bytes) (off depth : Nat)
    (c : Ctx) (hc : c.Clean) (v : Val) (hv : (mapStream E m bs off depth c).1 = .ok v)
    (h1 : info.dataSize = none) (h2 : info.dataSizeExpr = none) (h3 : info.terminator = none)
    (k : Int) (hn : Amounts E info.numElements info.numElementsExpr c.values k) :
    ∃ vs, v = .tuple vs ∧ (vs.length : Int) = k := by
  obtain ⟨n, hp, hb⟩ := mapStream_ok hc hv
  obtain ⟨hd, bsz, em, vs, p, hme, rfl, -, -, -, hl⟩ := seq_parse hk hm bs off depth c.values v n hp
  refine ⟨vs, rfl, ?_⟩
  rcases hl with ⟨hlin, -, hl⟩ | ⟨hlin, ds, term, num, hr, he, -⟩
  · have := hl (by rw [h1]; rfl)
    obtain ⟨-, ⟨h4, -⟩ | ⟨h4, -⟩⟩ := hn
    · rw [h4] at this; exact (Option.some.inj this).symm
    · rw [h4] at this; cases this
  · obtain ⟨hev, hhas⟩ := evalNum_amounts hk hn
    have hnd : info.hasDataSize = false := by simp [SeqInfo.hasDataSize, h1, h2]
    simp only [seqRules, countable, hnd, Bool.false_eq_true, if_false, h3, Option.isSome_none, hhas, if_true,
      hev, Except.ok.injEq, Prod.mk.injEq] at hr
    have := he k hr.2.2.symm
    simpa using this

/-- **C17** A sequence whose data size is `ds`, of elements of `es` bytes, has as
many elements as fit into `ds` bytes. -/
theorem C17_data_size (E : Env) (nm : String) (o : Order) (h : Hdr) (info : SeqInfo)
    (hk : info.kind = .sequence) (e : Defn) (m : DMap)
    (hm : createAs E nm o (.seq h info e) = .ok m) (bs : Bytes) (off depth : Nat)
    (c : Ctx) (hc : c.Clean) (v : Val) (hv : (mapStream E m bs off depth c).1 = .ok v)
    (ds es : Int) (hds : Amounts E info.dataSize info.dataSizeExpr c.values ds)
    (hes : e.byteSize = some es) (hpos : 0 < es) :
    ∃ vs, v = .tuple vs ∧ es * vs.length ≤ ds ∧ ds < es * (vs.length + 1) := by
  obtain ⟨n, hp, hb⟩ := mapStream_ok hc hv
  obtain ⟨hd, bsz, em, vs, p, hme, rfl, -, -, -, hl⟩ := seq_parse hk hm bs off depth c.values v n hp
  refine ⟨vs, rfl, ?_⟩
  have hdiv : Int.fdiv ds es = (vs.length : Int) := by
    rcases hl with ⟨hlin, hl, -⟩ | ⟨hlin, ds', term, num, hr, he, -⟩
    · obtain ⟨-, ⟨h4, h5⟩ | ⟨h4, s, v, h5, -⟩⟩ := hds
      · have := hl (by rw [h4]; simpa [truthyInt] using h5) es hes
        rw [h4] at this
        exact Option.some.inj this
      · simp [seqLinear, h5] at hlin
    · obtain ⟨hev, hhas⟩ := evalData_amounts hk hds
      simp only [seqRules, hhas, if_true, hev, hes, if_neg (show ¬ es = 0 by omega), Except.ok.injEq,
        Prod.mk.injEq] at hr
      have := he _ hr.2.2.symm
      simp at this
      exact this.symm
  have h1 := Int.mul_fdiv_add_fmod ds es
  have h2 := Int.fmod_nonneg_of_pos ds hpos
  have h3 := Int.fmod_lt_of_pos ds hpos
  rw [hdiv] at h1
  rw [Int.mul_add]
  omega

/-- **C17** A sequence with a terminator only ends with the first element equal to
the terminator. -/
theorem C17_terminator (E : Env) (nm : String) (o : Order) (h : Hdr) (info : SeqInfo)
    (hk : info.kind = .sequence) (e : Defn) (m : DMap)
    (hm : createAs E nm o (.seq h info e) = .ok m) (bs : Bytes) (off depth : Nat)
    (c : Ctx) (hc : c.Clean) (v : Val) (hv : (mapStream E m bs off depth c).1 = .ok v)
    (h1 : info.dataSize = none) (h2 : info.dataSizeExpr = none) (t : Lit)
    (ht : info.terminator = some t) (hnull : t ≠ .null) :
    ∃ vs x, v = .tuple (vs ++ [x]) ∧ Equals x t ∧ ∀ y ∈ vs, ¬ Equals y t := by
  simp only [← pyEq_iff, ← litEq_iff, Bool.not_eq_true]
  obtain ⟨n, hp, hb⟩ := mapStream_ok hc hv
  obtain ⟨hd, bsz, em, vs, p, hme, rfl, -, -, -, hl⟩ := seq_parse hk hm bs off depth c.values v n hp
  rcases hl with ⟨hlin, -⟩ | ⟨hlin, ds, term, num, hr, -, he, -⟩
  · simp [seqLinear, ht] at hlin
  · have hnd : info.hasDataSize = false := by simp [SeqInfo.hasDataSize, h1, h2]
    simp only [seqRules, hnd, Bool.false_eq_true, if_false, ht, Option.isSome_some, if_true,
      Except.ok.injEq, Prod.mk.injEq] at hr
    obtain ⟨rfl, rfl, rfl⟩ := hr
    obtain ⟨h3, h4⟩ := he t rfl
    rcases List.eq_nil_or_concat vs with rfl | ⟨init, x, rfl⟩
    · exfalso
      simp [atDataSize] at h3
      cases t <;> simp_all [pyEq, Val.num?, Lit.num?]
    · refine ⟨init, x, by simp, ?_, ?_⟩
      · simpa [atDataSize] using h3
      · simpa using h4

/-- A sequence of integers without a byte order in a big-endian structure. -/
def exOrders : Defn :=
  .struct { name := "T", order := .big }
    [.member { name := "a" } exU16 none (some "uint16") none,
      .member { name := "b" } (.seq { name := "s" }
        { kind := .sequence, elementDataType := some "n16", numElements := some 2 } exN16) none (some "s") none]

example : ∃ h ms m, exOrders = .struct h ms ∧ DistinctTypes ms ∧ OneOrder exEnv h.order ms ∧
    createMap exEnv exOrders = .ok m ∧
    (mapStream exEnv m [0, 1, 0, 1, 0, 2] 0 0 {}).1 =
      .ok (.struct "T" [("a", .int 256), ("b", .tuple [.int 1, .int 2])]) := by
  refine ⟨_, _, _, rfl, ?_, ?_, rfl, rfl⟩
  · simp [DistinctTypes, exU16, Defn.target, Defn.name, Defn.hdr]
  · intro _ hs
    have := hs [] .big .little [.native] rfl
    simp at this

/-- `sequence of 3 uint16` and `uint8 sequence up to 0`. -/
def exSeqT : Defn :=
  .seq { name := "z" } { kind := .sequence, elementDataType := some "uint8", terminator := some (.int 0) } exU8

/-- Sequences with a number, a data size and a terminator. -/
example :
    (∃ m, createMap exEnv exSeq = .ok m ∧
      (mapStream exEnv m [9, 1, 0, 2, 0, 3, 0] 1 0 {}).1 = .ok (.tuple [.int 1, .int 2, .int 3])) ∧
    (∃ m, createMap exEnv (.seq { name := "s" }
        { kind := .sequence, elementDataType := some "uint16", dataSize := some 5 } exU16) = .ok m ∧
      (mapStream exEnv m [1, 0, 2, 0, 3, 0] 0 0 {}).1 = .ok (.tuple [.int 1, .int 2])) ∧
    (∃ m, createMap exEnv exSeqT = .ok m ∧
      (mapStream exEnv m [1, 2, 0, 3, 0] 0 0 {}).1 = .ok (.tuple [.int 1, .int 2, .int 0])) ∧
    Evaluates exEnv (some 3) none [] 3 :=
  ⟨⟨_, rfl, rfl⟩, ⟨_, rfl, rfl⟩, ⟨_, rfl, rfl⟩, by simp [Evaluates]⟩

end Dtf
