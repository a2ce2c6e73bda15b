import Verif.Depth
import Verif.Props.Streams
/-!
# Properties C27 and C28: recursion depth and termination
-/
namespace Dtf

namespace Spec

/-- `k` levels of structures and sequences inside each other below the outermost
one, each the first thing its parent maps, and all mapped one by one (not in a
single read). -/
inductive Nested : Nat → DMap → Prop
  | struct (h : Hdr) (b : Option Int) (io : Bool) (infos : List MemInfo) (maps : List DMap) :
      Nested 0 (.struct h b false io infos maps)
  | sequence (h : Hdr) (info : SeqInfo) (ei : ElemInfo) (b : Option Int) (e : DMap)
      (hk : info.kind = .sequence) (hl : seqLinear info ei = false) : Nested 0 (.seq h info ei b e)
  | inStructure {k : Nat} {m : DMap} (h : Hdr) (b : Option Int) (i : MemInfo) (infos : List MemInfo)
      (maps : List DMap) (hc : i.condition = none) (hm : Nested k m) :
      Nested (k + 1) (.struct h b false true (i :: infos) (m :: maps))
  | inSequence {k : Nat} {e : DMap} (h : Hdr) (info : SeqInfo) (ei : ElemInfo) (b : Option Int)
      (n : Int) (hk : info.kind = .sequence) (hl : seqLinear info ei = false)
      (hd : info.dataSize = none ∧ info.dataSizeExpr = none) (ht : info.terminator = none)
      (hn : info.numElements = some n) (hn0 : 0 < n) (he : Nested k e) :
      Nested (k + 1) (.seq h info ei b e)

/-- Mapping `m` always takes at least one byte. -/
def TakesBytes (E : Env) (m : DMap) : Prop :=
  ∀ bs off depth c v, Ctx.Clean c → (mapStream E m bs off depth c).1 = .ok v →
    (mapStream E m bs off depth c).2.byteSize ≠ some 0

/-- The number of elements is known before the first one is mapped: it is
declared, or follows from a data size and the size of the elements. Neither is a fraction. -/
def Counted (E : Env) (info : SeqInfo) (es : Option Int) : Prop :=
  (info.dataSize = none ∧ info.dataSizeExpr = none ∧ info.terminator = none ∧
    ∀ x ns v, info.numElementsExpr = some x → E.evalExpr x ns = some v → ¬ Fractional v) ∨
  ((info.dataSize ≠ none ∨ info.dataSizeExpr ≠ none) ∧ (∃ n, es = some n ∧ 0 < n) ∧
    ∀ x ns v, info.dataSizeExpr = some x → E.evalExpr x ns = some v → ¬ Fractional v)

/-- A sequence has a known number of elements or elements that take bytes, and
the elements of a terminated stream have a size. -/
def Advances (E : Env) : Defn → Prop
  | .seq _ info e =>
    match info.kind with
    | .sequence => Counted E info e.byteSize ∨ ∀ n o em, createAs E n o e = .ok em → TakesBytes E em
    | _ => ∀ es, e.byteSize = some es → 0 < es
  | _ => True

end Spec
open Spec

/-! ### C27: recursion depth -/

theorem parse_nested (E : Env) {k : Nat} {m : DMap} (hm : Nested k m) (bs : Bytes) (off depth : Nat)
    (hoff : off < bs.length) (hd : 10 < depth + k) (ns : Namespace) :
    parse E m bs off depth ns = .error .mapping := by
  induction hm generalizing depth ns with
  | struct h b io infos maps => simp [parse]; omega
  | sequence h info ei b e hk hl =>
    simp only [parse, hk, hl, compositeSeqParse, Bool.false_eq_true, if_false]
    rw [if_pos (by omega)]
  | @inStructure k m h b i infos maps hc hm ih =>
    simp only [parse, Bool.false_eq_true, if_false]
    split
    · rfl
    · simp [parseMembers, evalCondition, hc, truthyStr, ih (depth + 1) (by omega), wrapErr]
  | @inSequence k e h info ei b n hk hl hd' ht hn hn0 he ih =>
    simp only [parse, hk, hl, compositeSeqParse, Bool.false_eq_true, if_false]
    split
    · rfl
    · have hne : n ≠ 0 := by omega
      have hnn : ¬ n < 0 := by omega
      have hr : (seqRules E info ei ns).1 = .ok (none, none, some n) := by
        simp [seqRules, countable, SeqInfo.hasDataSize, SeqInfo.hasNumElements, hd', ht, hn, evalNumElements,
          truthyInt, hne, checkSize, hnn]
      simp only [hr]
      have hg : (decide (bs.length ≤ off) || atNumber (some n) 0 || atDataSize none 0) = false := by
        simp [atNumber, atDataSize]; omega
      rw [seqFuel, seqParse, hg]
      simp [ih (depth + 1) (by omega), wrapErr]

/-- **C27a** More than 10 levels of nesting raise MappingError. -/
theorem C27_too_deep (E : Env) (k : Nat) (hk : 10 < k) (m : DMap) (hm : Nested k m) (bs : Bytes)
    (off : Nat) (hoff : off < bs.length) (c : Ctx) (hc : c.Clean) :
    (mapStream E m bs off 0 c).1 = .error .mapping := by
  rw [mapStream_error hc]
  exact parse_nested E hm bs off 0 hoff (by omega) c.values

/-- **C27b** A definition with at most 10 levels below the outermost one is mapped
as if there was no limit: the result is that of `parseFree`, which has none. -/
theorem C27_within_limit (E : Env) (d : Defn) (hd : d.levels ≤ 11) (m : DMap)
    (hm : createMap E d = .ok m) (bs : Bytes) (off : Nat) (c : Ctx) (hc : c.Clean) :
    (∀ e, (mapStream E m bs off 0 c).1 = .error e ↔ parseFree E m bs off c.values = .error e) ∧
    (∀ v n, ((mapStream E m bs off 0 c).1 = .ok v ∧ (mapStream E m bs off 0 c).2.byteSize = some n) ↔
      parseFree E m bs off c.values = .ok (v, n)) := by
  have hl := levels_createAs d _ _ _ hm
  rw [← parse_free E m bs 0 (by omega)]
  refine ⟨fun e => mapStream_error hc, fun v n => ⟨?_, mapStream_of_parse hc⟩⟩
  rintro ⟨h1, h2⟩
  obtain ⟨k, hk, hb⟩ := mapStream_ok hc h1
  rw [h2] at hb; cases hb; exact hk

/-- `k` structures around a structure with a UUID. -/
def exNest : Nat → Defn
  | 0 => .struct { name := "T", order := .little } [.member { name := "u" } exUuid none (some "uuid") none]
  | k + 1 => .struct { name := "T", order := .little } [.member { name := "x" } (exNest k) none (some "t") none]

/-- 11 levels can be mapped, 12 cannot. -/
example : (exNest 10).levels = 11 ∧
    (∃ m v, createMap exEnv (exNest 10) = .ok m ∧ (mapStream exEnv m (List.replicate 16 7) 0 0 {}).1 = .ok v) ∧
    (∃ m, createMap exEnv (exNest 11) = .ok m ∧ Nested 11 m) := by
  refine ⟨rfl, ⟨_, _, rfl, rfl⟩, ⟨_, rfl, ?_⟩⟩
  repeat' first
    | exact Nested.struct ..
    | apply Nested.inStructure _ _ _ _ _ rfl

/-! ### C28: termination -/

theorem seqParse_ends (step : Nat → PRes) (len : Nat) (num dataSize : Option Int) (term : Option Lit)
    (hstep : ∀ p, step p ≠ .error .diverge) (fuel off used index : Nat) (last : Val)
    (hf : seqBound len off num index < fuel)
    (h : (∀ p v, step p ≠ .ok (v, 0)) ∨ ∃ k, num = some k ∧ (index : Int) ≤ k) :
    seqParse step len num dataSize term fuel off used index last ≠ .error .diverge := by
  have hend : ∀ i u l, seqEnd num dataSize term i u l ≠ .error .diverge := by
    intro i u l hc
    unfold seqEnd at hc
    split at hc
    · cases hc
    · cases term <;> simp only at hc <;> split at hc <;> cases hc
  induction fuel generalizing off used index last with
  | zero => omega
  | succ fuel ih =>
    rw [seqParse]
    split
    · exact hend _ _ _
    rename_i hg
    simp only [Bool.or_eq_true, decide_eq_true_eq, not_or, Bool.not_eq_true] at hg
    cases hs : step off with
    | error e =>
      have := hstep off
      rw [hs] at this
      intro hc
      simp only [Except.error.injEq] at hc
      cases e <;> simp_all [wrapErr]
    | ok r =>
      obtain ⟨v, n⟩ := r
      simp only
      have hrec : (if atTerm term v then seqEnd num dataSize term (index + 1) (used + n) v
          else seqParse step len num dataSize term fuel (off + n) (used + n) (index + 1) v) ≠
          .error .diverge := by
        split
        · exact hend _ _ _
        · apply ih
          · unfold seqBound at hf ⊢
            rcases h with h | ⟨k, rfl, hk⟩
            · have : n ≠ 0 := fun h0 => h off v (by rw [hs, h0])
              omega
            · have : ¬ (index : Int) = k := by simpa [atNumber] using hg.1.2
              simp only [Option.getD_some] at hf ⊢
              omega
          · rcases h with h | ⟨k, rfl, hk⟩
            · exact .inl h
            · have : ¬ (index : Int) = k := by simpa [atNumber] using hg.1.2
              exact .inr ⟨k, rfl, by omega⟩
      generalize (if atTerm term v then seqEnd num dataSize term (index + 1) (used + n) v
          else seqParse step len num dataSize term fuel (off + n) (used + n) (index + 1) v) = r at hrec
      rcases r with e | ⟨vs, u⟩
      · exact hrec
      · simp

theorem checkSize_ne (kd : SeqKind) (v : Option Val) :
    checkSize kd v ≠ .error .diverge ∧ ∀ n, checkSize kd v = .ok n → 0 ≤ n :=
  ⟨fun h => by rcases checkSize_error h with h | ⟨h, -⟩ <;> exact absurd h (by simp), fun _ h => checkSize_nonneg h⟩

theorem evalSize_ne (E : Env) (kd : SeqKind) (x : Option String) (ns : Namespace) :
    evalSize E kd x ns ≠ .error .diverge ∧ ∀ n, evalSize E kd x ns = .ok n → 0 ≤ n := by
  unfold evalSize
  split
  · split
    · simp
    · split
      · simp
      · exact checkSize_ne _ _
  · simp

theorem evalData_ne (E : Env) (info : SeqInfo) (ns : Namespace) :
    evalDataSize E info ns ≠ .error .diverge ∧ ∀ n, evalDataSize E info ns = .ok n → 0 ≤ n := by
  unfold evalDataSize
  split
  · exact checkSize_ne _ _
  · exact evalSize_ne _ _ _ _

theorem evalNum_ne (E : Env) (info : SeqInfo) (ns : Namespace) :
    evalNumElements E info ns ≠ .error .diverge ∧ ∀ n, evalNumElements E info ns = .ok n → 0 ≤ n := by
  unfold evalNumElements
  split
  · exact checkSize_ne _ _
  · exact evalSize_ne _ _ _ _

theorem evalNum_other {E : Env} {info : SeqInfo} (hk : info.kind = .sequence) {ns : Namespace}
    (h : evalNumElements E info ns = .error .other) :
    ∃ x v, info.numElementsExpr = some x ∧ E.evalExpr x (withBuiltins ns) = some v ∧ Fractional v := by
  unfold evalNumElements at h
  rw [hk] at h
  split at h
  · cases hn : info.numElements with
    | none => rw [hn] at h; cases h
    | some n => rw [hn] at h; simp only [Option.map_some, checkSize] at h; split at h <;> cases h
  · unfold evalSize at h
    split at h
    · rename_i x hx
      split at h
      · cases h
      · split at h
        · cases h
        · rename_i v hv
          exact ⟨x, v, hx, hv, checkSize_other h⟩
    · cases h

theorem seqRules_ne (E : Env) (info : SeqInfo) (hk : info.kind = .sequence) (ei : ElemInfo) (ns : Namespace) :
    (seqRules E info ei ns).1 ≠ .error .diverge ∧
    ∀ ds term num, (seqRules E info ei ns).1 = .ok (ds, term, num) → Counted E info ei.byteSize →
      ∃ k, num = some k ∧ 0 ≤ k := by
  have hd := evalData_ne E info ns
  have hn := evalNum_ne E info ns
  unfold seqRules
  cases hh : info.hasDataSize with
  | true =>
    simp only [if_true]
    cases hev : evalDataSize E info ns with
    | error x =>
      rw [hev] at hd
      simp only [ne_eq, Except.error.injEq] at hd
      exact ⟨by simpa using hd.1, by simp⟩
    | ok n =>
      have hn0 := hd.2 n hev
      cases hes : ei.byteSize with
      | none =>
        cases hte : ei.terminator with
        | none => simp
        | some t =>
          simp only
          cases t with
          | none => simp
          | some t =>
            simp only [ne_eq, reduceCtorEq, not_false_eq_true, true_and]
            intro ds term num _ hc
            rcases hc with ⟨h1, h2, -, -⟩ | ⟨-, ⟨n, h, -⟩, -⟩
            · simp [SeqInfo.hasDataSize, h1, h2] at hh
            · cases h
      | some es =>
        by_cases he0 : es = 0
        · simp [he0]
        · simp only [he0, if_false, ne_eq, reduceCtorEq, not_false_eq_true, true_and, Except.ok.injEq,
            Prod.mk.injEq]
          rintro ds term num ⟨rfl, rfl, rfl⟩ hc
          refine ⟨_, rfl, ?_⟩
          rcases hc with ⟨h1, h2, -, -⟩ | ⟨-, ⟨n', h, hp⟩, -⟩
          · simp [SeqInfo.hasDataSize, h1, h2] at hh
          · cases h
            exact Int.fdiv_nonneg hn0 (by omega)
  | false =>
    simp only [Bool.false_eq_true, if_false]
    have hdn : info.dataSize = none ∧ info.dataSizeExpr = none := by
      simpa [SeqInfo.hasDataSize] using hh
    cases ht : info.terminator with
    | some t =>
      simp only [Option.isSome_some, if_true]
      refine ⟨by simp, ?_⟩
      intro ds term num _ hc
      rcases hc with ⟨-, -, h, -⟩ | ⟨h, -⟩
      · rw [ht] at h; cases h
      · simp [hdn] at h
    | none =>
      simp only [Option.isSome_none, Bool.false_eq_true, if_false]
      cases hnn : info.hasNumElements with
      | false => simp
      | true =>
        simp only [if_true]
        cases hev : countable (evalNumElements E info ns) with
        | error x =>
          rw [(countable_error hev).1] at hn
          simp only [ne_eq, Except.error.injEq] at hn
          exact ⟨by simpa using hn.1, by simp⟩
        | ok n =>
          simp only [ne_eq, reduceCtorEq, not_false_eq_true, true_and, Except.ok.injEq, Prod.mk.injEq]
          rintro ds term num ⟨rfl, rfl, rfl⟩ hc
          rcases countable_ok hev with hev' | ⟨hev', rfl⟩
          · exact ⟨n, rfl, hn.2 n hev'⟩
          · rcases hc with ⟨-, -, -, hc⟩ | ⟨h, -⟩
            · obtain ⟨x, v, hx, hv, hf⟩ := evalNum_other hk hev'
              exact absurd hf (hc x _ v hx hv)
            · simp [hdn] at h

theorem streamParse_ends (E : Env) (info : SeqInfo) (ei : ElemInfo) (bs : Bytes) (off : Nat)
    (ns : Namespace) (h : ∀ es, ei.byteSize = some es → 0 < es) :
    streamParse E info ei bs off ns ≠ .error .diverge := by
  have hs : streamSize E info ei ns ≠ .error .diverge := by
    have hd := (evalData_ne E info ns).1
    have hn := (evalNum_ne E info ns).1
    unfold streamSize
    split
    · split
      · rename_i hx; rw [hx] at hd; exact fun h => hd (by cases h; rfl)
      · simp
    · split
      · split
        · simp
        · split
          · rename_i hx; rw [hx] at hn; exact fun h => hn (by cases h; rfl)
          · simp
      · simp
  unfold streamParse
  split
  · rename_i x hx
    rw [hx] at hs
    intro h
    cases x <;> first | exact hs rfl | cases h
  · split <;> simp
  · split
    · simp
    · split
      · simp
      · rename_i es hes
        have := h es hes
        have hnd := fun t => scanTerm_no_diverge (bs.drop off) es.toNat t (by omega) (bs.length - off + 2) 0
          es.toNat (by simp) (by omega)
        split <;> simp_all

/-- What termination needs of a single map. -/
def MapAdvances (E : Env) : DMap → Prop
  | .seq _ info ei _ e =>
    match info.kind with
    | .sequence => Counted E info ei.byteSize ∨ TakesBytes E e
    | _ => ∀ es, ei.byteSize = some es → 0 < es
  | _ => True

theorem wrapErr_diverge {e : Err} (h : wrapErr e = .diverge) : e = .diverge := by
  cases e <;> simp_all [wrapErr]

theorem parseMembers_ends (E : Env) (cls : String) (bs : Bytes) (depth : Nat) (outer : Namespace)
    (maps : List DMap) (ih : ∀ m ∈ maps, ∀ off depth ns, parse E m bs off depth ns ≠ .error .diverge)
    (infos : List MemInfo) (off used : Nat) (attrs : List (String × Val)) :
    parseMembers E cls bs depth outer infos maps off used attrs ≠ .error .diverge := by
  induction maps generalizing infos off used attrs with
  | nil => simp [parseMembers]
  | cons m maps ihm =>
    cases infos with
    | nil => simp [parseMembers]
    | cons info infos =>
      have ih' := ihm fun m hm => ih m (List.mem_cons_of_mem _ hm)
      simp only [parseMembers]
      split
      · rename_i e he
        unfold evalCondition at he
        split at he
        · split at he <;> simp_all <;> subst he <;> simp
        · cases he
      · exact ih' _ _ _ _
      · split
        · rename_i e he
          intro hc
          simp only [Except.error.injEq] at hc
          exact ih m List.mem_cons_self _ _ _ (by rw [he, wrapErr_diverge hc])
        · split
          · simp
          · exact ih' _ _ _ _

theorem parseNth_ends (E : Env) (bs : Bytes) (maps : List DMap)
    (ih : ∀ m ∈ maps, ∀ off depth ns, parse E m bs off depth ns ≠ .error .diverge) (i off depth : Nat) :
    parseNth E maps i bs off depth ≠ .error .diverge := by
  induction maps generalizing i with
  | nil => simp [parseNth]
  | cons m maps ihm =>
    cases i with
    | zero => simp only [parseNth]; exact ih m List.mem_cons_self _ _ _
    | succ i => simp only [parseNth]; exact ihm (fun m hm => ih m (List.mem_cons_of_mem _ hm)) i

theorem mapValues_ne (k : PrimKind) (vs : List Val) : mapValues k vs ≠ .error .diverge := by
  induction vs with
  | nil => simp [mapValues]
  | cons v vs ih =>
    rw [mapValues]
    split
    · simp
    · split
      · rename_i h; rw [h] at ih; exact fun h => ih (by cases h; rfl)
      · simp

theorem parse_ends (E : Env) (m : DMap) (hm : m.Every (MapAdvances E)) (bs : Bytes) :
    ∀ off depth ns, parse E m bs off depth ns ≠ .error .diverge := by
  induction m using DMap.ind with
  | seq h info ei b e ih =>
    intro off depth ns
    simp only [DMap.Every] at hm
    have ih := ih hm.2
    have hself := hm.1
    simp only [MapAdvances] at hself
    simp only [parse]
    cases hk : info.kind with
    | stream =>
      simp only [hk] at hself
      have := streamParse_ends E info ei bs off ns hself
      simp only
      split
      · rename_i hx; rw [hx] at this; exact fun h => this (by cases h; rfl)
      · simp
    | string enc =>
      simp only [hk] at hself
      have := streamParse_ends E info ei bs off ns hself
      simp only [stringParse]
      split
      · rename_i hx; rw [hx] at this; exact fun h => this (by cases h; rfl)
      · split
        · rename_i hx
          unfold cutString at hx
          split at hx <;> simp_all
          subst hx; simp
        · split <;> simp
    | sequence =>
      simp only [hk] at hself
      simp only
      split
      · unfold linearSeqParse
        split
        · simp
        · split
          · simp
          · split
            · simp
            · split
              · split
                · rename_i hx
                  have := mapValues_ne
                  intro h
                  cases h
                  exact this _ _ hx
                · simp
              · simp
      · unfold compositeSeqParse
        split
        · simp
        have hr := seqRules_ne E info hk ei ns
        split
        · rename_i hx; rw [hx] at hr; exact fun h => hr.1 (by cases h; rfl)
        · rename_i ds term num hx
          have := seqParse_ends (fun off => parse E e bs off (depth + 1) []) bs.length num ds term
            (fun p => ih p _ _) (seqFuel bs.length off num 0) off 0 0 .pyNone
            (by unfold seqBound seqFuel; omega) (by
              rcases hself with hself | hself
              · obtain ⟨k, h1, h2⟩ := hr.2 _ _ _ hx hself
                exact .inr ⟨k, h1, by omega⟩
              · left
                intro p v hp
                have := mapStream_of_parse (c := {}) (Ctx.clean_fresh []) hp
                exact hself _ _ _ _ _ (Ctx.clean_fresh []) this.1 this.2)
          split
          · rename_i hx; rw [hx] at this; exact fun h => this (by cases h; rfl)
          · simp
  | struct h b l io infos maps ih =>
    intro off depth ns
    simp only [DMap.Every, everyMap_iff] at hm
    simp only [parse]
    split
    · unfold linearStructParse
      repeat' split
      all_goals simp
    · split
      · simp
      · split
        · simp
        · split
          · simp
          · have := parseMembers_ends E h.name bs depth ns maps
              (fun m hm' off depth ns => ih m hm' (hm.2 m hm') off depth ns) infos off 0
              (newInstance (infos.map (·.name)))
            split
            · rename_i hx; rw [hx] at this; exact fun h => this (by cases h; rfl)
            · simp
  | group h ident base dflt keys maps ih1 ih2 ih3 =>
    intro off depth ns
    simp only [DMap.Every, everyMap_iff, everyOptMap_iff] at hm
    have h1 := ih1 hm.2.1 off depth []
    have h2 : parseOpt E dflt bs off depth ≠ .error .diverge := by
      cases dflt with
      | none => simp [parseOpt]
      | some d => exact ih2 d rfl (hm.2.2.1 d rfl) off depth []
    have h3 := fun i => parseNth_ends E bs maps
      (fun m hm' off depth ns => ih3 m hm' (hm.2.2.2 m hm') off depth ns) i off depth
    have hw : ∀ (r : PRes) e, r ≠ .error .diverge → r = .error e →
        (.error (wrapErr e) : PRes) ≠ .error .diverge := by
      intro r e hr he hc
      simp only [Except.error.injEq] at hc
      exact hr (by rw [he, wrapErr_diverge hc])
    simp only [parse]
    split
    · rename_i hx; exact hw _ _ h1 hx
    · split
      · simp
      · split
        · split
          · simp
          · split
            · rename_i hx; exact hw _ _ (h3 _) hx
            · simp
        · split
          · simp
          · split
            · rename_i hx; exact hw _ _ h2 hx
            · simp
  | prim h k s u =>
    intro off depth ns
    simp only [parse, primParse]
    repeat' split
    all_goals simp
  | uuid h s u =>
    intro off depth ns
    simp only [parse, uuidParse]
    repeat' split
    all_goals simp
  | padding h a =>
    intro off depth ns
    simp only [parse, paddingParse]
    split
    · rename_i hx
      unfold calcPadding at hx
      split at hx <;> simp_all <;> subst hx <;> simp
    · split <;> simp
  | _ => intro off depth ns; simp [parse]

theorem mapAdvances_of {E : Env} (d : Defn) (nm : String) (o : Order) (m : DMap)
    (hm : createAs E nm o d = .ok m) (h : Advances E d) : MapAdvances E m := by
  cases d with
  | seq hh info e =>
    obtain ⟨n', eo, em, he, -, rfl, -⟩ := createAs_seq hm
    simp only [Advances] at h
    simp only [MapAdvances]
    cases hk : info.kind <;> simp only [hk] at h ⊢
    · rcases h with h | h
      · exact .inl h
      · exact .inr (h _ _ _ he)
    · exact h
    · exact h
  | struct hh ms =>
    obtain ⟨io, infos, maps, l, -, -, -, rfl, -⟩ := createAs_struct hm
    trivial
  | group hh base ident dflt ms =>
    obtain ⟨dm, bm, keys, maps, -, -, -, -, rfl⟩ := createAs_group hm
    trivial
  | prim hh k s u =>
    simp only [createAs] at hm
    split at hm
    · cases hm
    · cases hm; trivial
  | _ =>
    simp only [createAs, Except.ok.injEq] at hm
    subst hm
    trivial

/-- **C28a** MapByteStream terminates if every sequence in the definition has a
known number of elements or elements that take at least one byte. -/
theorem C28_terminates (E : Env) (d : Defn) (hd : d.Every (Advances E)) (m : DMap)
    (hm : createMap E d = .ok m) (bs : Bytes) (off depth : Nat) (c : Ctx) (hc : c.Clean) :
    (mapStream E m bs off depth c).1 ≠ .error .diverge := by
  rw [Ne, mapStream_error hc]
  exact parse_ends E m (createAs_every mapAdvances_of d _ _ m hm hd) bs off depth c.values

/-- Definitions of a fixed positive size take bytes, so they may be the elements
of any sequence. -/
theorem C28_fixed_size_elements (E : Env) (e : Defn) (he : e.Every Plain) (n : Int)
    (hn : e.byteSize = some n) (h0 : 0 < n) (nm : String) (o : Order) (em : DMap)
    (hm : createAs E nm o e = .ok em) : TakesBytes E em := by
  intro bs off depth c v hc hv hb
  obtain ⟨k, hp, hb'⟩ := mapStream_ok hc hv
  rw [hb] at hb'
  cases hb'
  have := (parse_exact E bs e he n hn).2 _ _ em hm off depth c.values
  rw [hp] at this
  have := this.1
  omega

/-- **C28b** The `while` loop of a sequence runs at most `n` times more when `n`
elements are missing, or at most once per remaining byte when every element
takes a byte: with that much fuel (and one for the last look at the condition)
it ends, and extra fuel does not change the result. -/
theorem C28_iterations (step : Nat → Ctx → Res) (hstep : ∀ p c, (step p c).1 ≠ .error .diverge)
    (len : Nat) (num dataSize : Option Int) (term : Option Lit) (s : SeqSt) (bound : Nat)
    (hb : ((∀ p c v, (step p c).1 = .ok v → (step p c).2.byteSize ≠ some 0) ∧ len - s.off ≤ bound) ∨
      (∃ n : Nat, num = some (n : Int) ∧ s.index ≤ n ∧ n - s.index ≤ bound)) (fuel : Nat) (hf : bound < fuel) :
    (∀ s', seqLoop step len num dataSize term (bound + 1) s ≠ .raised .diverge s') ∧
    seqLoop step len num dataSize term fuel s = seqLoop step len num dataSize term (bound + 1) s := by
  induction bound generalizing s fuel with
  | zero =>
    obtain ⟨f, rfl⟩ : ∃ f, fuel = f + 1 := ⟨fuel - 1, by omega⟩
    rw [seqLoop, seqLoop]
    rcases hb with ⟨h1, h2⟩ | ⟨n, rfl, h1, h2⟩
    · rw [if_pos (by omega), if_pos (by omega)]; simp
    · have : atNumber (some (n : Int)) s.index = true := by simp [atNumber]; omega
      rw [this]; simp only [if_true]; split <;> simp
  | succ bound ih =>
    obtain ⟨f, rfl⟩ : ∃ f, fuel = f + 1 := ⟨fuel - 1, by omega⟩
    conv => rhs; rw [seqLoop.eq_2, seqLoop.eq_2]
    conv => lhs; intro s'; rw [seqLoop.eq_2]
    split
    · simp
    split
    · simp
    split
    · simp
    rename_i hl hnum _
    rcases hst : step s.off s.sub with ⟨r, sub⟩
    have hs := hstep s.off s.sub
    rw [hst] at hs
    cases r with
    | error e =>
      simp only
      refine ⟨?_, trivial⟩
      intro s' hc
      cases hc
      exact hs rfl
    | ok v =>
      simp only
      cases hbs : sub.byteSize with
      | none => simp
      | some n =>
        simp only
        split
        · simp
        · apply ih
          · rcases hb with ⟨h1, h2⟩ | ⟨k, rfl, h1, h2⟩
            · left
              refine ⟨h1, ?_⟩
              have := h1 s.off s.sub v (by rw [hst])
              rw [hst] at this
              simp only [hbs, ne_eq, Option.some.injEq] at this
              simp only
              omega
            · right
              have : ¬ s.index = k := by
                intro h; apply hnum; simp [atNumber, h]
              exact ⟨k, rfl, by simp only; omega, by simp only; omega⟩
          · omega

/-- A terminated sequence of integers: a sequence without known number of elements. -/
example : exSeqT.Every (Advances exEnv) := by
  refine ⟨.inr fun n o em hm => C28_fixed_size_elements exEnv exU8 trivial 1 rfl (by omega) n o em hm, trivial⟩

/-- A zero-terminated sequence of structures `struct { uint8 a if T.a == 1; }`, which
take no bytes. -/
def exEndless : Defn :=
  .seq { name := "s" } { kind := .sequence, elementDataType := some "T", terminator := some (.int 0) }
    (.struct { name := "T", order := .little } [.member { name := "a" } exU8 (some "T.a == 1") (some "uint8") none])

/-- **C28c** Without that condition MapByteStream may not terminate: this loop runs
out of any amount of fuel. -/
theorem C28_endless : ∃ m h info ei b e, createMap exEnvE exEndless = .ok m ∧
    m = .seq h info ei b e ∧ (seqRules exEnvE info ei []).1 = .ok (none, some (.int 0), none) ∧
    ∀ bs : Bytes, bs ≠ [] →
      (mapStream exEnvE m bs 0 0 {}).1 = .error .diverge ∧
      ∀ fuel, seqParse (fun off => parse exEnvE e bs off 1 []) bs.length none none (some (.int 0)) fuel
        0 0 0 .pyNone = .error .diverge := by
  refine ⟨_, _, _, _, _, _, rfl, rfl, rfl, ?_⟩
  intro bs hbs
  have hl : ¬ bs.length ≤ 0 := by
    have := List.length_pos_iff.mpr hbs; omega
  rw [and_comm]
  refine (fun key => ⟨key, ?_⟩) fun fuel => seqParse_stuck _ bs.length none none (some (.int 0)) 0 0
    (.struct "T" [("a", .pyNone)]) rfl hl rfl rfl fuel 0 .pyNone (fun _ _ => rfl)
  rw [mapStream_error (Ctx.clean_fresh [])]
  have hk := key (seqFuel bs.length 0 none 0)
  exact congrArg (fun r : Except Err (List Val × Nat) => match r with
    | .error e => (.error e : PRes)
    | .ok (vs, n) => .ok (.tuple vs, n)) hk

/-- `n / 2` of the same structures, which `n` is odd for. -/
def exEnvOdd : Env :=
  { exEnvE with evalExpr := fun x ns => if x = "n / 2" then some (.float 0x4004000000000000) else exEnvE.evalExpr x ns }

def exEndlessHalf : Defn :=
  .seq { name := "s" } { kind := .sequence, elementDataType := some "T", numElementsExpr := some "n / 2" }
    (.struct { name := "T", order := .little } [.member { name := "a" } exU8 (some "T.a == 1") (some "uint8") none])

set_option exponentiation.threshold 2000 in
/-- **C28d** Nor need it terminate when the number of elements is a fraction, such as 2.5. -/
theorem C28_fraction : (∀ ns, ∃ v, exEnvOdd.evalExpr "n / 2" ns = some v ∧ Fractional v) ∧
    ∃ m h info ei b e, createMap exEnvOdd exEndlessHalf = .ok m ∧
    m = .seq h info ei b e ∧ ∀ bs : Bytes, bs ≠ [] →
      (mapStream exEnvOdd m bs 0 0 {}).1 = .error .diverge ∧
      ∀ fuel, seqParse (fun off => parse exEnvOdd e bs off 1 []) bs.length (some (-1)) none none fuel
        0 0 0 .pyNone = .error .diverge := by
  refine ⟨fun ns => ⟨_, rfl, checkSize_other (by rfl)⟩, _, _, _, _, _, _, rfl, rfl, ?_⟩
  intro bs hbs
  have hl : ¬ bs.length ≤ 0 := by
    have := List.length_pos_iff.mpr hbs; omega
  rw [and_comm]
  refine (fun key => ⟨key, ?_⟩) fun fuel => seqParse_stuck _ bs.length (some (-1)) none none 0 0
    (.struct "T" [("a", .pyNone)]) rfl hl rfl rfl fuel 0 .pyNone (fun _ _ => by simp [atNumber])
  rw [mapStream_error (Ctx.clean_fresh [])]
  have hk := key (seqFuel bs.length 0 (some (-1)) 0)
  exact congrArg (fun r : Except Err (List Val × Nat) => match r with
    | .error e => (.error e : PRes)
    | .ok (vs, n) => .ok (.tuple vs, n)) hk

end Dtf
