import Verif.Props.Sequences

/-!
# The linear path of sequences (C25)
-/

namespace Dtf

open Spec

/-! ### C25: the linear path of sequences -/

theorem linear_elem_prim {E : Env} {nm : String} {o : Order} {h : Hdr} {info : SeqInfo} {e : Defn}
    {m : DMap} (hk : info.kind = .sequence) (hm : createAs E nm o (.seq h info e) = .ok m)
    (hmem : ∀ h i c t v, e ≠ .member h i c t v)
    (hlin : seqLinear info ⟨e.byteSize, e.isComposite, e.terminator?⟩ = true) :
    ∃ h' k s u ec, e = .prim h' k s u ∧
      m = .seq { h with name := nm, order := o } info ⟨fixedByteSize s u, false, none⟩
        (Defn.seq h info e).byteSize (.prim ec k s u) := by
  obtain ⟨n', eo, em, he, -, rfl, hfin⟩ := createAs_seq hm
  have hnc : e.isComposite = false := by
    simp only [seqLinear, Bool.not_eq_true', Bool.or_eq_false_iff] at hlin
    exact hlin.1.1.1
  unfold finishSeq at hfin
  split at hfin
  · cases hfin
  simp only [hk] at hfin
  split at hfin
  · cases hfin
  rename_i op hop
  unfold DMap.operation at hop
  cases e <;> simp [Defn.isComposite] at hnc
  case prim h' k s u =>
    simp only [createAs] at he
    split at he
    · cases he
    · cases he
      exact ⟨h', k, s, u, _, rfl, rfl⟩
  case member h i c t v => exact absurd rfl (hmem h i c t v)
  all_goals
    simp [createAs] at he
    subst he
    simp [DMap.orderStr] at hop

theorem seq_op_of_prim {hd ec : Hdr} {info : SeqInfo} (hk : info.kind = .sequence) {k : PrimKind} {s : Size}
    {u : String} {c : Code} (hc : primCode k s = some c) (hs : fixedByteSize s u = some (c.size : Int))
    {bsz : Option Int} {cnt : Nat} (hcnt : 0 < cnt)
    (h1 : truthyInt info.dataSize = true → info.dataSize.map (Int.fdiv · c.size) = some (cnt : Int))
    (h2 : truthyInt info.dataSize = false → info.numElements = some (cnt : Int)) :
    (DMap.seq hd info ⟨fixedByteSize s u, false, none⟩ bsz (.prim ec k s u)).op =
      some ⟨ec.order, List.replicate cnt c⟩ := by
  have hcs : c.size ≠ 0 := by cases c <;> simp [Code.size]
  have hf : (DMap.seq hd info ⟨fixedByteSize s u, false, none⟩ bsz (.prim ec k s u)).fmt =
      .ok (some (decStr cnt ++ [c.char])) := by
    simp only [DMap.fmt, hk, hc, Option.map_some]
    cases hds : truthyInt info.dataSize with
    | false =>
      rw [if_neg (by simp), h2 hds]
      have : cnt ≠ 0 := by omega
      simp [seqFmt, this]
    | true =>
      rw [if_pos rfl]
      have := h1 hds
      rw [Option.map_eq_some_iff] at this
      obtain ⟨ds, hds', hq⟩ := this
      rw [hds', hs]
      have hcnt' : cnt ≠ 0 := by omega
      simp [hcs, hq, seqFmt, hcnt']
  have hp := parseCodes_count (cnt : Int) c []
  rw [if_pos (by omega)] at hp
  simp only [parseCodes, Option.map_some, List.append_nil, Int.toNat_natCast] at hp
  unfold DMap.op DMap.operation
  simp only [DMap.orderStr, hf]
  generalize decStr (cnt : Int) ++ [c.char] = f at hp
  cases f with
  | nil =>
    simp only [parseCodes, Option.some.injEq] at hp
    have := congrArg List.length hp
    simp at this
    omega
  | cons a f => simp [mkOp, hp]

theorem linear_seq_iff {E : Env} {nm : String} {o : Order} {h : Hdr} {info : SeqInfo} {e : Defn} {m : DMap}
    (hk : info.kind = .sequence) (hm : createAs E nm o (.seq h info e) = .ok m)
    (hmem : ∀ h i c t v, e ≠ .member h i c t v)
    (hlin : seqLinear info ⟨e.byteSize, e.isComposite, e.terminator?⟩ = true)
    (hdvd : ∀ ds es, info.dataSize = some ds → e.byteSize = some es → es ∣ ds)
    (hone : info.dataSize = none ∨ info.numElements = none)
    (bs : Bytes) (off depth : Nat) (hdepth : depth ≤ 10) (ns : Namespace) (v : Val) (n : Nat) :
    ∃ hd bsz em, m = .seq hd info ⟨e.byteSize, e.isComposite, e.terminator?⟩ bsz em ∧ em.isSeq = false ∧
      (parse E m bs off depth ns = .ok (v, n) ↔
        compositeSeqParse E info ⟨e.byteSize, e.isComposite, e.terminator?⟩
          (fun p => parse E em bs p (depth + 1) []) bs.length off depth ns = .ok (v, n)) := by
  have hm0 := hm
  obtain ⟨h', k, s, u, ec, rfl, rfl⟩ := linear_elem_prim hk hm hmem hlin
  refine ⟨_, _, _, rfl, rfl, ?_⟩
  have hnt : info.terminator = none ∧ info.dataSizeExpr = none ∧ info.numElementsExpr = none := by
    simp only [seqLinear, Bool.not_eq_true', Bool.or_eq_false_iff, Option.isSome_eq_false_iff,
      Option.isNone_iff_eq_none] at hlin
    exact ⟨hlin.1.2, hlin.1.1.2, hlin.2⟩
  obtain ⟨hnt, hdx, hnx⟩ := hnt
  constructor
  · intro hp
    obtain ⟨hd, bsz, em, vs, p, hme, rfl, h1, h2, h3, hl⟩ := seq_parse hk hm0 bs off depth ns v n hp
    cases hme
    rcases hl with ⟨-, hl1, hl2⟩ | ⟨hl, -⟩
    rotate_left
    · rw [hlin] at hl; cases hl
    -- the operation exists, so the elements have a code and a size
    have hlin' : seqLinear info ⟨fixedByteSize s u, false, none⟩ = true := hlin
    simp only [parse, hk, hlin', if_true] at hp
    unfold linearSeqParse at hp
    split at hp
    · cases hp
    rename_i sz hbs
    split at hp
    · cases hp
    cases hop : (DMap.seq { h with name := nm, order := o } info ⟨fixedByteSize s u, false, none⟩
        (Defn.seq h info (.prim h' k s u)).byteSize (.prim ec k s u)).op with
    | none => rw [hop] at hp; simp at hp
    | some op =>
    obtain ⟨h'', k', psz, u', c, cnt, ec', heq, -, -, hc, hcs, -, hpos, hd1, hd2⟩ :=
      seq_op hk hm0 (by rfl) op hop
    cases heq
    rw [hop] at hp
    simp only [Option.bind_some] at hp
    split at hp
    · cases hp
    split at hp
    · cases hp
    cases hp
    have hu : u = "bytes" := by
      cases hds : truthyInt info.dataSize with
      | true => exact (hd1 hds).1
      | false =>
        simp only [Defn.byteSize, hds, Bool.false_eq_true, if_false, fixedByteSize] at hbs
        split at hbs
        · split at hbs
          · rename_i s hs
            split at hs
            · rename_i hu; simpa using hu
            · cases hs
          · cases hbs
        · cases hbs
    subst hu
    have hfs : fixedByteSize (.bytes psz) "bytes" = some (c.size : Int) := by simp [fixedByteSize, hcs]
    have hsz : 0 < c.size := by cases c <;> simp [Code.size]
    have hcnt : (vs.length : Int) = cnt := by
      cases hds : truthyInt info.dataSize with
      | true =>
        have a := hl1 hds psz (by simp [Defn.byteSize, fixedByteSize])
        rw [(hd1 hds).2] at a
        exact (Option.some.inj a).symm
      | false =>
        have a := hl2 hds
        rw [hd2 hds] at a
        exact (Option.some.inj a).symm
    have hcnt' : vs.length = cnt := by omega
    -- the position after the elements
    have hend : p = off + cnt * c.size := by
      have := (linear_elems hc hfs bs off cnt vs p).mpr ⟨h1, hcnt'⟩
      exact this.2.1
    -- the rules
    have hrules : ∃ ds, (seqRules E info ⟨fixedByteSize (.bytes psz) "bytes", false, none⟩ ns).1 =
        .ok (ds, none, some (cnt : Int)) ∧ (∀ x, ds = some x → x = (cnt : Int) * c.size) ∧
        sz.toNat = cnt * c.size := by
      cases hds : truthyInt info.dataSize with
      | true =>
        obtain ⟨-, hd⟩ := hd1 hds
        cases hdsz : info.dataSize with
        | none => rw [hdsz] at hds; simp [truthyInt] at hds
        | some ds =>
          rw [hdsz] at hd hds
          simp only [Option.map_some, Option.some.injEq] at hd
          have hdv := hdvd ds psz hdsz (by simp [Defn.byteSize, fixedByteSize])
          have hmul := Int.fdiv_mul_cancel hdv
          rw [hd] at hmul
          have hnn : 0 ≤ ds := by rw [← hmul]; exact Int.mul_nonneg (by omega) (by omega)
          refine ⟨some ds, ?_, ?_, ?_⟩
          · have hpsz : psz ≠ 0 := by omega
            have : ¬ ds < 0 := by omega
            simp [seqRules, SeqInfo.hasDataSize, hdsz, evalDataSize, hds, checkSize, this, fixedByteSize,
              hpsz, hd]
          · rintro x ⟨⟩; rw [hcs]; exact hmul.symm
          · simp only [Defn.byteSize, hdsz, hds, if_true, Option.some.injEq] at hbs
            subst hbs
            rw [← hmul, hcs, ← Int.natCast_mul, Int.toNat_natCast]
      | false =>
        have hd := hd2 hds
        have hdn : info.dataSize = none := by
          rcases hone with h | h
          · exact h
          · rw [hd] at h; cases h
        have htn : truthyInt (some (cnt : Int)) = true := by simp [truthyInt]; omega
        refine ⟨none, ?_, by simp, ?_⟩
        · have : ¬ (cnt : Int) < 0 := by omega
          simp [seqRules, countable, SeqInfo.hasDataSize, SeqInfo.hasNumElements, hdn, hdx, hnt, hd, evalNumElements,
            htn, checkSize, this]
        · simp only [Defn.byteSize, hds, Bool.false_eq_true, if_false, hfs, hd, htn, if_true] at hbs
          split at hbs
          · cases hbs
          · simp only [Option.map_some, Option.some.injEq] at hbs
            subst hbs
            rw [← Int.natCast_mul, Int.toNat_natCast, Nat.mul_comm]
    obtain ⟨ds, hr1, hr2, hr3⟩ := hrules
    unfold compositeSeqParse
    rw [if_neg (by omega)]
    have hr1' : (seqRules E info ⟨Defn.byteSize (.prim h' k (.bytes psz) "bytes"),
      Defn.isComposite (.prim h' k (.bytes psz) "bytes"),
      Defn.terminator? (.prim h' k (.bytes psz) "bytes")⟩ ns).1 = .ok (ds, none, some (cnt : Int)) := hr1
    simp only [hr1']
    have hstep : ∀ p v n, parse E (.prim ec k (.bytes psz) "bytes") bs p (depth + 1) [] = .ok (v, n) →
        n = c.size ∧ p + c.size ≤ bs.length := by
      intro p v n hpp
      have := (primParse_iff hc hfs bs p v n).mp hpp
      exact ⟨this.1, this.2.1⟩
    have hle : off + cnt * c.size ≤ bs.length := by
      have := (linear_elems hc hfs bs off cnt vs p).mpr ⟨h1, hcnt'⟩
      rcases this.1 with h | h
      · exact h
      · omega
    have hcc : cnt ≤ cnt * c.size := Nat.le_mul_of_pos_right _ hsz
    rw [seqParse_of_elems (fun p => parse E (.prim ec k (.bytes psz) "bytes") bs p (depth + 1) [])
      bs.length c.size hsz hstep cnt ds hr2 _ off 0 0 .pyNone vs p h1 (by simp [hcnt]) (by simp)
      (by unfold seqFuel; simp; omega)]
    simp only [hr3, Except.ok.injEq, Prod.mk.injEq, true_and]
    omega
  · intro hp
    unfold compositeSeqParse at hp
    rw [if_neg (by omega)] at hp
    split at hp
    · cases hp
    rename_i ds term num hr
    split at hp
    · cases hp
    rename_i vs w hs
    cases hp
    obtain ⟨⟨p, h1, h2⟩, hcount, -, -⟩ := seqParse_elems _ _ _ _ _ _ _ _ _ _ _ _ hs
    -- the number of elements is positive
    have hnum : ∃ cnt : Nat, num = some (cnt : Int) ∧ 0 < cnt ∧
        (truthyInt info.dataSize = true → ∃ es ds', fixedByteSize s u = some es ∧ info.dataSize = some ds' ∧
          es ≠ 0 ∧ Int.fdiv ds' es = cnt) ∧
        (truthyInt info.dataSize = false → info.dataSize = none ∧ info.numElements = some (cnt : Int)) := by
      have hr' : (seqRules E info ⟨fixedByteSize s u, false, none⟩ ns).1 = .ok (ds, term, num) := hr
      unfold seqRules at hr'
      cases hdsz : info.dataSize with
      | none =>
        have hh : info.hasDataSize = false := by simp [SeqInfo.hasDataSize, hdsz, hdx]
        simp only [hh, Bool.false_eq_true, if_false, hnt, Option.isSome_none] at hr'
        cases hnn : info.hasNumElements with
        | false => simp [hnn] at hr'
        | true =>
          simp only [hnn, if_true] at hr'
          cases hev : countable (evalNumElements E info ns) with
          | error x => rw [hev] at hr'; cases hr'
          | ok x =>
            rw [hev] at hr'
            cases hr'
            have hev : evalNumElements E info ns = .ok x := by
              rcases countable_ok hev with hev | ⟨-, rfl⟩
              · exact hev
              · exact (seqParse_reached hs).elim
            unfold evalNumElements at hev
            rw [hnx] at hev
            cases hne : info.numElements with
            | none => rw [hne] at hev; simp [truthyInt, evalSize] at hev
            | some y =>
              rw [hne] at hev
              by_cases hy : y = 0
              · subst hy; simp [truthyInt, evalSize] at hev
              · have ht : truthyInt (some y) = true := by simpa [truthyInt] using hy
                simp only [ht, if_true, Option.map_some, checkSize] at hev
                split at hev
                · cases hev
                · injection hev with hev
                  subst hev
                  exact ⟨y.toNat, by congr 1; omega, by omega, by simp [truthyInt],
                    fun _ => ⟨rfl, by congr 1; omega⟩⟩
      | some ds0 =>
        have hh : info.hasDataSize = true := by simp [SeqInfo.hasDataSize, hdsz]
        simp only [hh, if_true] at hr'
        cases hev : evalDataSize E info ns with
        | error x => rw [hev] at hr'; cases hr'
        | ok x =>
          rw [hev] at hr'
          unfold evalDataSize at hev
          rw [hdx, hdsz] at hev
          by_cases hy : ds0 = 0
          · subst hy; simp [truthyInt, evalSize] at hev
          · have ht : truthyInt (some ds0) = true := by simpa [truthyInt] using hy
            simp only [ht, if_true, Option.map_some, checkSize] at hev
            split at hev
            · cases hev
            · injection hev with hev
              subst hev
              cases hes : fixedByteSize s u with
              | none => rw [hes] at hr'; cases hr'
              | some es =>
                rw [hes] at hr'
                simp only at hr'
                by_cases he0 : es = 0
                · simp [he0] at hr'
                · simp only [he0, if_false, Except.ok.injEq, Prod.mk.injEq] at hr'
                  obtain ⟨-, -, rfl⟩ := hr'
                  have hesp : 0 < es := by
                    unfold fixedByteSize at hes
                    split at hes
                    · cases hes
                    · split at hes
                      · cases hes; omega
                      · cases hes
                  have hdv := hdvd ds0 es hdsz hes
                  have hmul := Int.fdiv_mul_cancel hdv
                  have hxp : 0 < ds0 := by omega
                  have hq : 0 < Int.fdiv ds0 es := by
                    apply Int.lt_of_not_ge
                    intro hle
                    have : Int.fdiv ds0 es * es ≤ 0 := Int.mul_nonpos_of_nonpos_of_nonneg hle (by omega)
                    omega
                  exact ⟨(Int.fdiv ds0 es).toNat, by congr 1; omega, by omega,
                    fun _ => ⟨es, ds0, rfl, rfl, he0, by omega⟩, by simp [ht]⟩
    obtain ⟨cnt, rfl, hpos, hd1, hd2⟩ := hnum
    have hcnt : vs.length = cnt := by have := hcount cnt rfl; simp at this; omega
    -- at least one element was read, so the type has a code and a size
    have hfirst : ∃ c, primCode k s = some c ∧ fixedByteSize s u = some (c.size : Int) := by
      cases h1 with
      | nil => simp at hcnt; omega
      | cons hst _ =>
        simp only [parse, primParse] at hst
        split at hst
        · cases hst
        rename_i x hfs
        split at hst
        · cases hst
        split at hst
        · cases hst
        rename_i y hy
        unfold primRead at hy
        split at hy
        · cases hy
        rename_i c hc
        refine ⟨c, hc, ?_⟩
        cases s with
        | native => simp [fixedByteSize] at hfs
        | bytes b =>
          rw [primCode_size hc]
          unfold fixedByteSize at hfs ⊢
          simp only at hfs ⊢
          split at hfs
          · rename_i hu; rw [if_pos hu]
          · cases hfs
    obtain ⟨c, hc, hfs⟩ := hfirst
    have hop := seq_op_of_prim (hd := { h with name := nm, order := o }) (ec := ec) hk hc hfs
      (bsz := (Defn.seq h info (.prim h' k s u)).byteSize) hpos
      (by
        intro hds
        obtain ⟨es, ds', e1, e2, -, e3⟩ := hd1 hds
        rw [hfs] at e1; cases e1
        rw [e2, Option.map_some, e3])
      (fun hds => (hd2 hds).2)
    obtain ⟨h3, h4, h5⟩ := (linear_elems hc hfs bs off cnt vs p).mpr ⟨h1, hcnt⟩
    have hle : off + cnt * c.size ≤ bs.length := by
      rcases h3 with h | h
      · exact h
      · omega
    have hbs : (Defn.seq h info (.prim h' k s u)).byteSize = some ((cnt * c.size : Nat) : Int) := by
      simp only [Defn.byteSize, hfs]
      cases hds : truthyInt info.dataSize with
      | true =>
        rw [if_pos rfl]
        obtain ⟨es, ds', e1, e2, -, e3⟩ := hd1 hds
        rw [hfs] at e1; cases e1
        have hmul := Int.fdiv_mul_cancel (hdvd ds' c.size e2 hfs)
        rw [e2, ← hmul, e3, Int.natCast_mul]
      | false =>
        rw [if_neg (by simp), (hd2 hds).2]
        have hcn : cnt ≠ 0 := by omega
        have hcs : c.size ≠ 0 := by cases c <;> simp [Code.size]
        simp [truthyInt, hcn, hcs, Int.mul_comm]
    simp only [parse, hk, hlin, if_true]
    have hlin' : seqLinear info ⟨fixedByteSize s u, false, none⟩ = true := hlin
    simp only [hlin', if_true]
    unfold linearSeqParse
    rw [hop, hbs]
    have hts : tooSmall bs off ((cnt * c.size : Nat) : Int) = false := by simp [tooSmall]; omega
    have hl : ¬ (bs.drop off).length < codesSize (List.replicate cnt c) := by
      rw [codesSize_replicate]; simp; omega
    simp only [hts, Bool.false_eq_true, if_false, Option.bind_some, Op.readFrom, if_neg hl, h5,
      Int.toNat_natCast, Except.ok.injEq, Prod.mk.injEq, true_and]
    omega

/-- **C25** for sequences: a sequence map that reads all elements in one go succeeds
exactly if reading the elements one by one (the composite path) does, with the
same value and size, when the data size (if given) is a multiple of the element
size. -/
theorem C25_sequence (E : Env) (nm : String) (o : Order) (h : Hdr) (info : SeqInfo)
    (hk : info.kind = .sequence) (e : Defn) (m : DMap)
    (hm : createAs E nm o (.seq h info e) = .ok m)
    (hmem : ∀ h i c t v, e ≠ .member h i c t v)
    (hlin : seqLinear info ⟨e.byteSize, e.isComposite, e.terminator?⟩ = true)
    (hdvd : ∀ ds es, info.dataSize = some ds → e.byteSize = some es → es ∣ ds)
    (hone : info.dataSize = none ∨ info.numElements = none)
    (bs : Bytes) (off depth : Nat) (hdepth : depth ≤ 10) (c : Ctx) (hc : c.Clean) (v : Val) (n : Nat) :
    ∃ hd bsz em, m = .seq hd info ⟨e.byteSize, e.isComposite, e.terminator?⟩ bsz em ∧
      (((mapStream E m bs off depth c).1 = .ok v ∧
          (mapStream E m bs off depth c).2.byteSize = some n) ↔
        ((compositeSeqMap E info ⟨e.byteSize, e.isComposite, e.terminator?⟩
            (fun p c => mapStream E em bs p (depth + 1) c) bs off depth c).1 = .ok v ∧
          (compositeSeqMap E info ⟨e.byteSize, e.isComposite, e.terminator?⟩
            (fun p c => mapStream E em bs p (depth + 1) c) bs off depth c).2.byteSize = some n)) := by
  obtain ⟨hd, bsz, em, hme, hprim, hiff⟩ := linear_seq_iff hk hm hmem hlin hdvd hone bs off depth hdepth c.values v n
  refine ⟨hd, bsz, em, hme, ?_⟩
  have h1 : ((mapStream E m bs off depth c).1 = .ok v ∧
      (mapStream E m bs off depth c).2.byteSize = some n) ↔
      parse E m bs off depth c.values = .ok (v, n) := by
    constructor
    · rintro ⟨h1, h2⟩
      obtain ⟨k, hk, hb⟩ := mapStream_ok hc h1
      rw [h2] at hb; cases hb; exact hk
    · exact mapStream_of_parse hc
  rw [h1, hiff]
  have hr := compositeSeqMap_refines E info ⟨e.byteSize, e.isComposite, e.terminator?⟩
    (fun p c => mapStream E em bs p (depth + 1) c) (fun p => parse E em bs p (depth + 1) [])
    (fun c => c.Clean ∧ c.values = []) ⟨rfl, rfl⟩ (by
      intro off' c' ⟨hc', hv⟩
      have h := refines E em bs off' (depth + 1) c' hc'
      rw [hv] at h
      generalize parse E em bs off' (depth + 1) [] = p at h ⊢
      rcases p with e' | ⟨v, n⟩
      · exact h
      · obtain ⟨h1, h2, h3, h4⟩ := h
        refine ⟨h1, h2, h3, ?_⟩
        rcases h4 with h4 | ⟨he, h4⟩
        · rw [h4]; exact hv
        · rw [hprim] at he; cases he) bs off depth c hc
  generalize compositeSeqMap E info _ _ bs off depth c = r at hr ⊢
  generalize compositeSeqParse E info _ _ _ off depth c.values = q at hr ⊢
  rcases q with x | ⟨v', n'⟩
  · have hr : r.1 = .error x := hr
    rw [hr]; simp
  · obtain ⟨h1, h2, -⟩ := hr
    rw [h1, h2]; simp

/-- `exSeq`, three 2-byte integers, is read in one go. -/
example : ∃ h info e, exSeq = .seq h info e ∧ info.kind = .sequence ∧
    seqLinear info ⟨e.byteSize, e.isComposite, e.terminator?⟩ = true ∧ info.dataSize = none ∧
    (∀ h i c t v, e ≠ .member h i c t v) :=
  ⟨_, _, _, rfl, rfl, rfl, rfl, by intros; simp [exU16]⟩

end Dtf
