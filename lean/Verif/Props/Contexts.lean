import Verif.Props.Mapping
import Verif.Props.Groups
import Verif.Props.Streams
import Verif.Props.Structures
/-!
# Property C64: contexts after an error
-/
namespace Dtf

namespace Spec

/-- The map of a structure group. -/
def IsGroup : DMap → Prop
  | .group _ _ _ _ _ _ => True
  | _ => False

end Spec
open Spec

/-- No unfinished state, and the caller's values up to `__builtins__`. -/
def Leaves (c c' : Ctx) : Prop :=
  c'.Clean ∧ (c'.values = c.values ∨ c'.values = withBuiltins c.values)

theorem Leaves.of_eq {c c' : Ctx} (hc : c.Clean) (b : Option Nat) (r : Option Int)
    (h : c' = { c with byteSize := b, requestedSize := r }) : Leaves c c' := by
  subst h
  refine ⟨?_, .inl rfl⟩
  rw [Ctx.clean_iff] at hc ⊢
  exact hc

theorem Leaves.sized {c c' : Ctx} (h : Leaves c c') (b : Option Nat) (r : Option Int) :
    Leaves c { c' with byteSize := b, requestedSize := r } := by
  refine ⟨?_, h.2⟩
  have := h.1
  rw [Ctx.clean_iff] at this ⊢
  exact this

theorem Leaves.clear {c c' : Ctx} (h : Leaves c c') : Leaves c c'.clear := ⟨Ctx.clean_clear _, h.2⟩

theorem streamMap_leaves (E : Env) (info : SeqInfo) (ei : ElemInfo) (bs : Bytes) (off : Nat)
    (c : Ctx) (hc : c.Clean) (h : (streamMap E info ei bs off c).1 ≠ .error .tooSmall) :
    Leaves c (streamMap E info ei bs off c).2 := by
  obtain ⟨-, h2, h3⟩ := calcDataSize_clean E info ei c hc
  unfold streamMap at h ⊢
  rcases hcd : calcDataSize E info ei c with ⟨r, c'⟩
  rw [hcd] at h h2 h3
  have hl : Leaves c c' := ⟨h2, h3⟩
  rcases r with e | (_ | n)
  · exact hl
  · simp only at h ⊢
    generalize info.terminator = tt at h ⊢
    rcases tt with _ | t
    · exact hl.sized _ _
    · generalize ei.byteSize = es at h ⊢
      rcases es with _ | es
      · exact hl.sized _ _
      · simp only at h ⊢
        generalize scanTerm (bs.drop off) es.toNat t (bs.length - off + 2) 0 es.toNat = sc at h ⊢
        rcases sc with n | n | _ | _
        · exact ⟨Ctx.clean_clear _, h3⟩
        · exact absurd rfl h
        · exact ⟨Ctx.clean_clear _, h3⟩
        · exact hl.sized _ _
  · simp only at h ⊢
    split at h
    · exact absurd rfl h
    · rename_i hs
      rw [if_neg hs]
      exact ⟨Ctx.clean_clear _, h3⟩

theorem mapStream_leaves (E : Env) (m : DMap) (hm : ¬ IsGroup m) (bs : Bytes) (off depth : Nat) (c : Ctx)
    (hc : c.Clean) (h : (mapStream E m bs off depth c).1 ≠ .error .tooSmall) :
    Leaves c (mapStream E m bs off depth c).2 := by
  have hcc := hc
  rw [Ctx.clean_iff] at hcc
  obtain ⟨h1, h2, h3, h4, h5, h6, h7, h8, h9, h10⟩ := hcc
  have hself : Leaves c c := ⟨hc, .inl rfl⟩
  cases m with
  | missing => exact hself
  | constant _ => exact hself
  | enumeration _ _ => exact hself
  | format _ _ => exact hself
  | group _ _ _ _ _ _ => exact absurd trivial hm
  | prim hh k s u =>
    simp only [mapStream, primMap] at h ⊢
    split
    · exact hself
    · split
      · exact hself
      · split
        · exact hself.sized _ _
        · exact hself.sized _ _
  | uuid hh s u =>
    simp only [mapStream, uuidMap] at h ⊢
    split
    · exact hself
    · split
      · exact hself
      · split
        · exact hself.sized _ _
        · split <;> exact hself.sized _ _
        · split <;> exact hself.sized _ _
  | padding hh a =>
    simp only [mapStream, paddingMap] at h ⊢
    split
    · exact hself
    · split <;> exact hself.sized _ _
  | seq hh info ei bsz e =>
    simp only [mapStream] at h ⊢
    split
    · rename_i hk
      simp only [hk] at h
      have := streamMap_leaves E info ei bs off c hc
      rcases hs : streamMap E info ei bs off c with ⟨r, c'⟩
      rw [hs] at this h
      rcases r with x | b
      · exact this (by simpa using h)
      · exact this (by simp)
    · rename_i enc hk
      simp only [hk] at h
      unfold stringMap at h ⊢
      have := streamMap_leaves E info ei bs off c hc
      rcases hs : streamMap E info ei bs off c with ⟨r, c'⟩
      rw [hs] at this h
      rcases r with x | b
      · exact this (by simpa using h)
      · have := this (by simp)
        simp only
        split
        · exact this
        · split <;> exact this
    · rename_i hk
      simp only [hk] at h
      split
      · rename_i hl
        simp only [hl, if_true] at h
        unfold linearSeqMap at h ⊢
        simp only at h ⊢
        split
        · exact hself.sized _ _
        · simp only at h
          split
          · rename_i ht; simp only [ht, if_true] at h; exact absurd rfl h
          · split
            · exact hself.sized _ _
            · split
              · split <;> exact ⟨Ctx.clean_clear _, .inl rfl⟩
              · exact hself.sized _ _
      · rename_i hl
        simp only [hl] at h
        unfold compositeSeqMap at h ⊢
        split
        · exact hself
        rename_i hd
        simp only [if_neg hd, Bool.false_eq_true, if_false] at h
        have hv := seqRules_values E info ei c.values
        rcases hr : seqRules E info ei c.values with ⟨r, ns⟩
        rw [hr] at hv h
        have hvals : ∀ b, Leaves c { c with byteSize := b, values := ns } := by
          intro b
          refine ⟨?_, ?_⟩
          · rw [Ctx.clean_iff]; exact ⟨h1, h2, h3, h4, h5, h6, h7, h8, h9, h10⟩
          · exact hv
        rcases r with e | ⟨ds, term, num⟩
        · exact hvals c.byteSize
        · simp only at h ⊢
          generalize seqLoop _ _ _ _ _ _ _ = out at h ⊢
          split
          · exact absurd rfl h
          · rename_i e s hne
            simp only [h2, h6, Option.map_none]
            refine ⟨?_, hv⟩
            rw [Ctx.clean_iff]; exact ⟨h1, rfl, h3, h4, h5, rfl, h7, h8, h9, h10⟩
          · rename_i s
            simp only at h
            split
            · rename_i h1; rw [if_pos h1] at h; exact absurd rfl h
            rename_i h1
            rw [if_neg h1] at h
            split
            · rename_i h2; rw [if_pos h2] at h; exact absurd rfl h
            · exact ⟨Ctx.clean_clear _, hv⟩
  | struct hh bsz linear io infos maps =>
    simp only [mapStream] at h ⊢
    split
    · rename_i hl
      simp only [hl, if_true] at h
      unfold linearStructMap at h ⊢
      simp only at h ⊢
      split
      · exact hself.sized _ _
      · simp only at h
        split
        · rename_i ht; simp only [ht, if_true] at h; exact absurd rfl h
        · split
          · exact hself.sized _ _
          · split
            · exact hself.sized _ _
            · split
              · exact hself.sized _ _
              · split
                · exact ⟨Ctx.clean_clear _, .inl rfl⟩
                · exact hself.sized _ _
    · rename_i hl
      rw [if_neg hl] at h
      split
      · exact hself
      rename_i hd
      rw [if_neg hd] at h
      split
      · exact hself
      rename_i hi
      rw [if_neg hi] at h
      generalize structLoop _ _ _ _ _ _ _ _ = out at h ⊢
      split
      · simp only [h2, h7, Option.map_none]
        refine ⟨?_, .inl rfl⟩
        rw [Ctx.clean_iff]; exact ⟨h1, rfl, h3, h4, h5, h6, rfl, h8, h9, h10⟩
      · exact absurd rfl h
      · simp only at h
        split
        · rename_i hx; rw [if_pos hx] at h; exact absurd rfl h
        · exact ⟨Ctx.clean_clear _, .inl rfl⟩

/-- **C64** After an error other than ByteStreamTooSmallError the context has no
unfinished state and can be used for another mapping of any type, which gives the
same as with a fresh context with the caller's values. Missing: structure groups,
for which this fails (below); groups inside other types do no harm. -/
theorem C64_after_error_partial (E : Env) (m : DMap) (hm : ¬ IsGroup m) (bs : Bytes) (off depth : Nat)
    (c : Ctx) (hc : c.Clean) (e : Err) (he : (mapStream E m bs off depth c).1 = .error e)
    (hne : e ≠ .tooSmall) :
    (mapStream E m bs off depth c).2.Clean ∧
    ∀ (m' : DMap) (bs' : Bytes) (off' depth' : Nat),
      (mapStream E m' bs' off' depth' (mapStream E m bs off depth c).2).1 =
        (mapStream E m' bs' off' depth' { values := c.values }).1 ∧
      ((∃ v, (mapStream E m' bs' off' depth' { values := c.values }).1 = .ok v) →
        (mapStream E m' bs' off' depth' (mapStream E m bs off depth c).2).2.byteSize =
          (mapStream E m' bs' off' depth' { values := c.values }).2.byteSize) := by
  obtain ⟨hcl, hvals⟩ := mapStream_leaves E m hm bs off depth c hc (by rw [he]; simpa using hne)
  refine ⟨hcl, ?_⟩
  intro m' bs' off' depth'
  have h := mapStream_congr (E := E) (m := m') (m' := m') (bs := bs') (bs' := bs') (off := off')
    (off' := off') (depth := depth') (depth' := depth') hcl (Ctx.clean_fresh c.values) (by
      rcases hvals with hv | hv
      · rw [hv]
      · rw [hv, parse_builtins_all])
  exact ⟨h.1, fun hv => h.2 (by rw [h.1]; exact hv)⟩

/-! ### Structure groups -/

/-- Only a structure group looks at the member identifier of the state. -/
theorem mapStream_ident (E : Env) (m : DMap) (hm : ¬ IsGroup m) (bs : Bytes) (off depth : Nat)
    (c : Ctx) (x : Option Val) :
    (mapStream E m bs off depth { c with memberIdentifier := x }).1 = (mapStream E m bs off depth c).1 := by
  have hcd : ∀ info ei, calcDataSize E info ei { c with memberIdentifier := x } =
      ((calcDataSize E info ei c).1, { (calcDataSize E info ei c).2 with memberIdentifier := x }) := by
    intro info ei
    simp only [calcDataSize]
    repeat' split
    all_goals rfl
  have hst : ∀ info ei, (streamMap E info ei bs off { c with memberIdentifier := x }).1 =
      (streamMap E info ei bs off c).1 := by
    intro info ei
    simp only [streamMap, hcd]
    rcases calcDataSize E info ei c with ⟨r, c'⟩
    rcases r with e | (_ | n)
    · rfl
    · simp only
      repeat' split
      all_goals rfl
    · simp only
      split <;> rfl
  cases m with
  | missing => rfl
  | constant _ => rfl
  | enumeration _ _ => rfl
  | format _ _ => rfl
  | group _ _ _ _ _ _ => exact absurd trivial hm
  | prim hh k s u =>
    simp only [mapStream, primMap]
    repeat' split
    all_goals rfl
  | uuid hh s u =>
    simp only [mapStream, uuidMap]
    repeat' split
    all_goals rfl
  | padding hh a =>
    simp only [mapStream, paddingMap]
    repeat' split
    all_goals rfl
  | seq hh info ei bsz e =>
    simp only [mapStream]
    split
    · have h := hst info ei
      generalize streamMap E info ei bs off { c with memberIdentifier := x } = p at h ⊢
      generalize streamMap E info ei bs off c = q at h ⊢
      rcases p with ⟨p1, p2⟩; rcases q with ⟨q1, q2⟩
      simp only at h; subst h
      rcases p1 with e | b <;> rfl
    · unfold stringMap
      have h := hst info ei
      generalize streamMap E info ei bs off { c with memberIdentifier := x } = p at h ⊢
      generalize streamMap E info ei bs off c = q at h ⊢
      rcases p with ⟨p1, p2⟩; rcases q with ⟨q1, q2⟩
      simp only at h; subst h
      rcases p1 with e | b
      · rfl
      · simp only
        repeat' split
        all_goals rfl
    · split
      · unfold linearSeqMap
        simp only
        repeat' split
        all_goals rfl
      · unfold compositeSeqMap
        simp only
        repeat' split
        all_goals rfl
  | struct hh bsz linear io infos maps =>
    simp only [mapStream]
    split
    · unfold linearStructMap
      simp only
      repeat' split
      all_goals rfl
    · repeat' split
      all_goals rfl

/-- **C64, groups** After an error other than ByteStreamTooSmallError the map of a
structure group leaves at most the member identifier in the context: without it
the context has no unfinished state, and mapping any type other than a structure
group gives the same as with a fresh context. -/
theorem C64_group_partial (E : Env) (m : DMap) (hm : IsGroup m) (bs : Bytes) (off depth : Nat)
    (c : Ctx) (hc : c.Clean) (e : Err) (he : (mapStream E m bs off depth c).1 = .error e)
    (hne : e ≠ .tooSmall) :
    { (mapStream E m bs off depth c).2 with memberIdentifier := none }.Clean ∧
    ∀ (m' : DMap), ¬ IsGroup m' → ∀ (bs' : Bytes) (off' depth' : Nat),
      (mapStream E m' bs' off' depth' (mapStream E m bs off depth c).2).1 =
        (mapStream E m' bs' off' depth' { values := c.values }).1 := by
  have key : Leaves c { (mapStream E m bs off depth c).2 with memberIdentifier := none } := by
    have hcc := hc
    rw [Ctx.clean_iff] at hcc
    obtain ⟨h1, h2, h3, h4, h5, h6, h7, h8, h9, h10⟩ := hcc
    have hself : ∀ b, Leaves c { c with byteSize := b, memberIdentifier := none } := by
      intro b
      refine ⟨?_, .inl rfl⟩
      rw [Ctx.clean_iff]; exact ⟨h1, h2, h3, h4, h5, h6, h7, h8, h9, rfl⟩
    have hbase : ∀ b, Leaves c { c with byteSize := b, sub := none, memberIdentifier := none } := by
      intro b
      refine ⟨?_, .inl rfl⟩
      rw [Ctx.clean_iff]; exact ⟨h1, rfl, h3, h4, h5, h6, h7, h8, h9, rfl⟩
    cases m with
    | group hh ident base dflt keys maps =>
      generalize hq : mapStream E (.group hh ident base dflt keys maps) bs off depth c = q at he ⊢
      rw [mapStream] at hq
      have fin : ∀ (id : Val) (r : Res), q = (match r with
          | (.error .tooSmall, sub) => ((.error .tooSmall : Except Err Val),
              { c with byteSize := none, sub := some sub, memberIdentifier := some id })
          | (.error e, _) => (.error (wrapErr e), { c with byteSize := none, sub := none, memberIdentifier := some id })
          | (.ok v, sub) => (.ok v, ({ c with byteSize := sub.byteSize, sub := none, memberIdentifier := some id } : Ctx).clear)) →
          Leaves c { q.2 with memberIdentifier := none } := by
        rintro id r rfl
        split at he
        · exact absurd (by simpa using he.symm) hne
        · exact hbase none
        · cases he
      simp only [h10, h2, Option.map_none, Option.getD_none] at hq
      generalize mapStream E base bs off depth {} = p at hq
      split at hq
      · rename_i e' ctx heq
        subst hq
        split at heq
        · cases heq; exact absurd (by simpa using he.symm) hne
        · cases heq; exact hbase c.byteSize
        · split at heq
          · cases heq; exact hbase c.byteSize
          · cases heq
      · rename_i id ctx heq
        have hctx : ctx = { c with sub := none, memberIdentifier := some id } := by
          split at heq
          · cases heq
          · cases heq
          · split at heq
            · cases heq
            · cases heq; rfl
        subst hctx
        split at hq
        · split at hq
          · subst hq; exact hbase c.byteSize
          · exact fin id _ hq.symm
        · split at hq
          · subst hq; exact hbase c.byteSize
          · exact fin id _ hq.symm
    | _ => exact absurd hm (by simp [IsGroup])
  refine ⟨key.1, ?_⟩
  intro m' hm' bs' off' depth'
  rw [← mapStream_ident E m' hm' bs' off' depth' _ none]
  exact (mapStream_congr (E := E) (m := m') (m' := m') (bs := bs') (bs' := bs') (off := off')
    (off' := off') (depth := depth') (depth' := depth') key.1 (Ctx.clean_fresh c.values) (by
      rcases key.2 with hv | hv
      · rw [hv]
      · rw [hv, parse_builtins_all])).1

/-- The hypotheses are met: a structure with a value that is not supported raises
MappingError, also inside a group inside a sequence. -/
example : ∃ m, createMap exEnvE exCond = .ok m ∧ ¬ IsGroup m ∧ (({} : Ctx).Clean) ∧
    (mapStream exEnvE m [0, 6] 0 0 {}).1 = .error .mapping ∧
    (mapStream exEnvE m [0, 5] 0 0 (mapStream exEnvE m [0, 6] 0 0 {}).2).1 =
      .ok (.struct "T" [("a", .int 0), ("b", .pyNone), ("c", .int 5)]) :=
  ⟨_, rfl, by simp [IsGroup], rfl, rfl, rfl⟩

def exGroups : Defn :=
  .seq { name := "gs" } { kind := .sequence, elementDataType := some "g", numElements := some 2 }
    (exGroup none [exOne, exTwo])

example : ∃ m, createMap exEnv exGroups = .ok m ∧ ¬ IsGroup m ∧
    (mapStream exEnv m [1, 5, 9, 5] 0 0 {}).1 = .error .mapping ∧
    (mapStream exEnv m [1, 5, 2, 6] 0 0 (mapStream exEnv m [1, 5, 9, 5] 0 0 {}).2).1 =
      .ok (.tuple [.struct "one" [("kind", .int 1), ("x", .int 5)],
        .struct "one" [("kind", .int 2), ("x", .int 6)]]) :=
  ⟨_, rfl, by simp [IsGroup], rfl, rfl⟩

/-- **C64 does not hold for groups** An unknown identifier stays in the context: a
later record with a known identifier is refused too. -/
theorem C64_group_refuted : ∃ (E : Env) (m : DMap) (bs bs' : Bytes),
    createMap E (exGroup none [exOne, exTwo]) = .ok m ∧
    (mapStream E m bs 0 0 {}).1 = .error .mapping ∧
    (mapStream E m bs' 0 0 {}).1 = .ok (.struct "two" [("kind", .int 3), ("y", .int 513)]) ∧
    (mapStream E m bs' 0 0 (mapStream E m bs 0 0 {}).2).1 = .error .mapping :=
  ⟨exEnv, _, [9, 1, 2], [3, 1, 2], rfl, rfl, rfl, rfl⟩

/-- A default structure with a supported value. -/
def exStrict : Defn := .struct { name := "strict" } [exMem "kind" exU8 none, exMem "x" exU8 (some [.int 0])]

/-- **C64 does not hold for groups, values** After a record that the default structure
refuses, a record of a member is mapped as the default structure. -/
theorem C64_value_refuted : ∃ (E : Env) (m : DMap) (bs bs' : Bytes),
    createMap E (exGroup (some exStrict) [exOne, exTwo]) = .ok m ∧
    (mapStream E m bs 0 0 {}).1 = .error .mapping ∧
    (mapStream E m bs' 0 0 {}).1 = .ok (.struct "two" [("kind", .int 3), ("y", .int 512)]) ∧
    (mapStream E m bs' 0 0 (mapStream E m bs 0 0 {}).2).1 =
      .ok (.struct "strict" [("kind", .int 3), ("x", .int 0)]) :=
  ⟨exEnv, _, [9, 1, 2], [3, 0, 2], rfl, rfl, rfl, rfl⟩

/-- **Not after ByteStreamTooSmallError** The context is then meant for the same type
and more bytes. With another stream type it gives the size of the first. -/
theorem C64_unfinished_refuted : ∃ (E : Env) (m m' : DMap) (bs bs' : Bytes),
    createMap E (exStream (some 4) none) = .ok m ∧ createMap E (exStream (some 2) none) = .ok m' ∧
    (mapStream E m bs 0 0 {}).1 = .error .tooSmall ∧
    (mapStream E m' bs' 0 0 {}).1 = .ok (.bytes [1, 2]) ∧
    (mapStream E m' bs' 0 0 (mapStream E m bs 0 0 {}).2).1 = .ok (.bytes [1, 2, 3, 4]) :=
  ⟨exEnv, _, _, [1], [1, 2, 3, 4], rfl, rfl, rfl, rfl, rfl⟩

end Dtf
