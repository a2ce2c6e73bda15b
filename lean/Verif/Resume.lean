import Verif.Props.Expressions
import Verif.HintFacts
/-!
Calling MapByteStream again with a context left by a call that ran out of bytes.
-/
namespace Dtf

namespace Spec

/-- Maps that take all their bytes at once: a call that runs out of bytes has not
used any. -/
def Atomic : DMap → Bool
  | .prim _ _ _ _ | .uuid _ _ _ => true
  | .seq _ info ei _ _ =>
    match info.kind with
    | .sequence => seqLinear info ei
    | _ => true
  | .struct _ _ linear _ _ _ => linear
  | _ => false

/-- Not a sequence mapped element by element. -/
def NoLoop : DMap → Prop
  | .seq h info ei b e => Atomic (.seq h info ei b e) = true
  | _ => True

/-- Maps that can be resumed: there is no padding; the elements of a sequence mapped
element by element contain no such sequence, and are `Atomic` when the sequence has a
data size; in a structure mapped member by member only the last member may contain
such a sequence; the base of a group is `Atomic`. -/
def Resumable : DMap → Prop
  | .padding _ _ => False
  | .seq h info ei b e =>
    Atomic (.seq h info ei b e) = true ∨
      (e.Every NoLoop ∧ (info.hasDataSize = true → Atomic e = true))
  | .struct _ _ linear _ _ maps => linear = true ∨ ∀ m ∈ maps.dropLast, m.Every NoLoop
  | .group _ _ base _ _ _ => Atomic base = true
  | _ => True

mutual
/-- The number of bytes used by a call that ran out of bytes, from the context
before and after it: the sizes of the members and elements completed, as recorded in
`members_data_size` and `elements_data_offset`, including those of the member or
element that was begun. -/
def used (m : DMap) (c c' : Ctx) : Nat :=
  match m with
  | .seq h info ei b e =>
    if Atomic (.seq h info ei b e) then 0
    else c'.elementsDataOffset.getD 0 - c.elementsDataOffset.getD 0 +
      used e (if c.elementIndex.getD 0 = c'.elementIndex.getD 0 then c.sub.getD {} else {}) (c'.sub.getD {})
  | .struct _ _ linear _ _ maps =>
    if linear then 0
    else (c'.membersDataSize.getD 0).toNat +
      usedNth maps (c'.attributeIndex.getD 0)
        (if c.attributeIndex.getD 0 = c'.attributeIndex.getD 0 then c.sub.getD {} else {}) (c'.sub.getD {})
  | .group _ _ _ dflt keys maps =>
    match c'.memberIdentifier with
    | none => 0
    | some id =>
      match groupIndex keys id with
      | some i => usedNth maps i (if c.memberIdentifier.isSome then c.sub.getD {} else {}) (c'.sub.getD {})
      | none => usedOpt dflt (if c.memberIdentifier.isSome then c.sub.getD {} else {}) (c'.sub.getD {})
  | _ => 0
termination_by structural m
def usedNth (ms : List DMap) (i : Nat) (c c' : Ctx) : Nat :=
  match ms with
  | [] => 0
  | m :: ms =>
    match i with
    | 0 => used m c c'
    | i + 1 => usedNth ms i c c'
termination_by structural ms
def usedOpt (m : Option DMap) (c c' : Ctx) : Nat :=
  match m with
  | none => 0
  | some m => used m c c'
termination_by structural m
end

end Spec
open Spec

/-! ### Bytes used -/

theorem usedNth_eq (ms : List DMap) (i : Nat) (c c' : Ctx) :
    usedNth ms i c c' = match ms[i]? with
      | none => 0
      | some m => used m c c' := by
  induction ms generalizing i with
  | nil => simp [usedNth]
  | cons m ms ih => cases i <;> simp [usedNth, ih]

theorem used_atomic {m : DMap} (h : Atomic m = true) (c c' : Ctx) : used m c c' = 0 := by
  cases m <;> simp only [used] <;> try rfl
  · rw [if_pos h]
  · simp only [Atomic] at h; rw [if_pos h]
  · cases h

theorem used_values (m : DMap) (c c' : Ctx) (x y : Namespace) :
    used m { c with values := x } { c' with values := y } = used m c c' := by
  cases m <;> simp only [used]

theorem used_values_right (m : DMap) (c c' : Ctx) (y : Namespace) :
    used m c { c' with values := y } = used m c c' := by
  cases m <;> simp only [used]

theorem used_values_left (m : DMap) (c c' : Ctx) (x : Namespace) :
    used m { c with values := x } c' = used m c c' := by
  cases m <;> simp only [used]

/-- Nothing is used when the context holds no state afterwards. -/
theorem used_clean_right (m : DMap) : ∀ c c' : Ctx, c'.Clean → used m c c' = 0 := by
  induction m using DMap.ind with
  | seq h info ei b e ih =>
    intro c c' hc
    rw [Ctx.clean_iff] at hc
    obtain ⟨h1, h2, h3, h4, h5, h6, h7, h8, h9, h10⟩ := hc
    simp only [used, h2, h4, Option.getD_none]
    split
    · rfl
    · rw [ih _ {} rfl]; omega
  | struct h b l io infos maps ih =>
    intro c c' hc
    rw [Ctx.clean_iff] at hc
    obtain ⟨h1, h2, h3, h4, h5, h6, h7, h8, h9, h10⟩ := hc
    simp only [used, h1, h2, h9, Option.getD_none]
    split
    · rfl
    · rw [usedNth_eq]
      split
      · rfl
      · rename_i m hm
        rw [ih m (List.mem_of_getElem? hm) _ {} rfl]; rfl
  | group h ident base dflt keys maps ih1 ih2 ih3 =>
    intro c c' hc
    rw [Ctx.clean_iff] at hc
    obtain ⟨h1, h2, h3, h4, h5, h6, h7, h8, h9, h10⟩ := hc
    simp only [used, h10]
  | _ => intros; simp only [used]

/-- A context without state before a call counts as a fresh one. -/
theorem used_clean_left (m : DMap) (c c' : Ctx) (hc : c.Clean) : used m c c' = used m {} c' := by
  rw [Ctx.clean_iff] at hc
  obtain ⟨h1, h2, h3, h4, h5, h6, h7, h8, h9, h10⟩ := hc
  cases m <;> simp only [used, h1, h2, h3, h4, h10]

/-! ### Contexts in progress -/

theorem SameNs.refl (a : Namespace) : SameNs a a := rfl
theorem SameNs.symm {a b : Namespace} (h : SameNs a b) : SameNs b a := Eq.symm h
theorem SameNs.trans {a b c : Namespace} (h : SameNs a b) (h' : SameNs b c) : SameNs a c := Eq.trans h h'

theorem SameNs.of_left {a b : Namespace} (h : a = b ∨ a = withBuiltins b) : SameNs a b := by
  rcases h with rfl | rfl
  · rfl
  · exact withBuiltins_idem b

theorem parse_same (E : Env) (m : DMap) (bs : Bytes) (off depth : Nat) {a b : Namespace} (h : SameNs a b) :
    parse E m bs off depth a = parse E m bs off depth b := by
  rw [← parse_builtins_all E m bs off depth a, ← parse_builtins_all E m bs off depth b, h]

theorem streamSize_builtins (E : Env) (info : SeqInfo) (ei : ElemInfo) (ns : Namespace) :
    streamSize E info ei (withBuiltins ns) = streamSize E info ei ns := by
  unfold streamSize; rw [evalDataSize_builtins, evalNumElements_builtins]

theorem streamSize_same (E : Env) (info : SeqInfo) (ei : ElemInfo) {a b : Namespace} (h : SameNs a b) :
    streamSize E info ei a = streamSize E info ei b := by
  rw [← streamSize_builtins E info ei a, ← streamSize_builtins E info ei b, h]

theorem seqRules_same (E : Env) (info : SeqInfo) (ei : ElemInfo) {a b : Namespace} (h : SameNs a b) :
    (seqRules E info ei a).1 = (seqRules E info ei b).1 := by
  rw [← seqRules_builtins E info ei a, ← seqRules_builtins E info ei b, h]

theorem mapStream_same (E : Env) (m : DMap) (bs : Bytes) (off depth : Nat) (c : Ctx) :
    SameNs (mapStream E m bs off depth c).2.values c.values :=
  SameNs.of_left ((mapStream_values E m bs off depth c).imp id (·.2))

/-- What an `Atomic` map leaves in a context. -/
def AtomReady (E : Env) : DMap → Ctx → Prop
  | .seq _ info ei _ _, c =>
    match info.kind with
    | .sequence => True
    | _ => c.numberOfElements = none ∧
        (c.elementsDataSize = none ∨ streamSize E info ei c.values = .ok c.elementsDataSize)
  | .struct _ _ _ _ _ _, _ => True
  | _, c => c.Clean

theorem AtomReady.of_clean {E : Env} (m : DMap) {c : Ctx} (h : c.Clean) : AtomReady E m c := by
  have h' := h
  rw [Ctx.clean_iff] at h'
  obtain ⟨h1, h2, h3, h4, h5, h6, h7, h8, h9, h10⟩ := h'
  cases m with
  | seq hh info ei b e =>
    simp only [AtomReady]
    split
    · trivial
    · exact ⟨h8, .inl h5⟩
  | struct => trivial
  | _ => exact h

theorem AtomReady.values {E : Env} {m : DMap} {c : Ctx} (h : AtomReady E m c) {x : Namespace}
    (hx : SameNs x c.values) : AtomReady E m { c with values := x } := by
  cases m with
  | seq hh info ei b e =>
    simp only [AtomReady] at h ⊢
    split
    · trivial
    · rename_i hk
      split at h
      · exact absurd ‹_› hk
      · rw [streamSize_same E info ei hx]; exact h
  | struct => trivial
  | _ => simp only [AtomReady] at h ⊢; rw [Ctx.clean_iff] at h ⊢; exact h

/-- The elements after the element `v`, which ends at `off`: the sequence ends with
`v` or goes on. -/
def SeqRest (E : Env) (e : DMap) (rem : Bytes) (depth : Nat) (num ds : Option Int) (term : Option Lit)
    (off used index : Nat) (v : Val) (rest : List Val) (u : Nat) : Prop :=
  (atTerm term v = true ∧ seqEnd num ds term index used v = .ok (rest, u)) ∨
  (atTerm term v = false ∧ ∃ fuel, seqParse (fun off => parse E e rem off (depth + 1) []) rem.length num ds
    term fuel off used index v = .ok (rest, u))

/-- The member of a group for an identifier. -/
def groupTarget (keys : List Lit) (maps : List DMap) (dflt : Option DMap) (id : Val) : Option DMap :=
  match groupIndex keys id with
  | some i => maps[i]?
  | none => dflt

/-- `Resumes E m depth ns rem c v n`: mapping `rem` with the context `c` goes on with a
mapping of `m` that gives `v` and takes `n` more bytes. -/
inductive Resumes (E : Env) : DMap → Nat → Namespace → Bytes → Ctx → Val → Nat → Prop
  | start {m : DMap} {depth : Nat} {ns : Namespace} {rem : Bytes} {c : Ctx} {v : Val} {n : Nat}
      (hc : c.Clean) (hns : SameNs c.values ns) (hp : parse E m rem 0 depth ns = .ok (v, n)) :
      Resumes E m depth ns rem c v n
  | atom {m : DMap} {depth : Nat} {ns : Namespace} {rem : Bytes} {c : Ctx} {v : Val} {n : Nat}
      (ha : Atomic m = true) (hc : AtomReady E m c) (hns : SameNs c.values ns)
      (hp : parse E m rem 0 depth ns = .ok (v, n)) : Resumes E m depth ns rem c v n
  | struct {h : Hdr} {bsz : Option Int} {io : Bool} {infos : List MemInfo} {maps : List DMap} {depth : Nat}
      {ns : Namespace} {rem : Bytes} {c : Ctx} {i : Nat} {attrs : List (String × Val)} {sub : Ctx}
      {info : MemInfo} {is : List MemInfo} {m : DMap} {ms : List DMap} {v' : Val} {n' : Nat}
      {attrsF : List (String × Val)} {n : Nat}
      (hd : ¬ depth > 10) (hns : SameNs c.values ns)
      (hi : c.attributeIndex = some i) (ha : c.mappedStruct = some attrs) (hs : c.sub = some sub)
      (hinfos : infos.drop i = info :: is) (hmaps : maps.drop i = m :: ms)
      (hcond : evalCondition E info (structNs h.name attrs sub.values) = .ok true)
      (hm : Resumes E m (depth + 1) (structNs h.name attrs sub.values) rem
        { sub with values := structNs h.name attrs sub.values } v' n')
      (hval : valueOk info v' = true)
      (hrest : parseMembers E h.name rem depth sub.values is ms n' n' (setAttr attrs info.name v') =
        .ok (attrsF, n)) :
      Resumes E (.struct h bsz false io infos maps) depth ns rem c (.struct h.name attrsF) n
  | seq {h : Hdr} {info : SeqInfo} {ei : ElemInfo} {bsz : Option Int} {e : DMap} {depth : Nat}
      {ns : Namespace} {rem : Bytes} {c : Ctx} {i : Nat} {vs : List Val} {du : Nat} {sub : Ctx}
      {ds num : Option Int} {term : Option Lit} {v' : Val} {n' : Nat} {rest : List Val} {n : Nat}
      (hk : info.kind = .sequence) (hlin : seqLinear info ei = false) (hd : ¬ depth > 10)
      (hns : SameNs c.values ns) (hr : (seqRules E info ei ns).1 = .ok (ds, term, num))
      (hi : c.elementIndex = some i) (hvs : c.mappedTuple = some vs)
      (hdu : c.elementsDataOffset = some du) (hs : c.sub = some sub)
      (hnum : atNumber num i = false) (hds : atDataSize ds du = false)
      (he : Resumes E e (depth + 1) [] rem sub v' n')
      (hrest : SeqRest E e rem depth num ds term n' (du + n') (i + 1) v' rest (du + n)) :
      Resumes E (.seq h info ei bsz e) depth ns rem c (.tuple (vs ++ v' :: rest)) n
  | base {h : Hdr} {ident : String} {base : DMap} {dflt : Option DMap} {keys : List Lit} {maps : List DMap}
      {depth : Nat} {ns : Namespace} {rem : Bytes} {c sub : Ctx} {v : Val} {n : Nat}
      (hns : SameNs c.values ns) (hid : c.memberIdentifier = none) (hs : c.sub = some sub)
      (hb : AtomReady E base sub) (hbv : SameNs sub.values [])
      (hp : parse E (.group h ident base dflt keys maps) rem 0 depth ns = .ok (v, n)) :
      Resumes E (.group h ident base dflt keys maps) depth ns rem c v n
  | group {h : Hdr} {ident : String} {base : DMap} {dflt : Option DMap} {keys : List Lit} {maps : List DMap}
      {depth : Nat} {ns : Namespace} {rem : Bytes} {c sub : Ctx} {id v : Val} {n : Nat} {m : DMap}
      (hns : SameNs c.values ns) (hid : c.memberIdentifier = some id) (hs : c.sub = some sub)
      (ht : groupTarget keys maps dflt id = some m) (hmm : groupMapMissing (some m) = false)
      (hm : Resumes E m depth [] rem sub v n) :
      Resumes E (.group h ident base dflt keys maps) depth ns rem c v n

theorem Resumes.same {E : Env} {m : DMap} {depth : Nat} {ns : Namespace} {rem : Bytes} {c : Ctx} {v : Val}
    {n : Nat} (h : Resumes E m depth ns rem c v n) : SameNs c.values ns := by
  cases h <;> assumption

/-- The values of a context in progress count only up to `__builtins__`. -/
theorem Resumes.values {E : Env} {m : DMap} {depth : Nat} {ns : Namespace} {rem : Bytes} {c : Ctx} {v : Val}
    {n : Nat} (h : Resumes E m depth ns rem c v n) {x : Namespace} (hx : SameNs x ns) :
    Resumes E m depth ns rem { c with values := x } v n := by
  cases h with
  | start hc hns hp => exact .start (by rw [Ctx.clean_iff] at hc ⊢; exact hc) hx hp
  | atom ha hc hns hp => exact .atom ha (hc.values (hx.trans hns.symm)) hx hp
  | struct hd hns hi ha hs hinfos hmaps hcond hm hval hrest =>
    exact .struct hd hx hi ha hs hinfos hmaps hcond hm hval hrest
  | seq hk hlin hd hns hr hi hvs hdu hs hnum hds he hrest =>
    exact .seq hk hlin hd hx hr hi hvs hdu hs hnum hds he hrest
  | base hns hid hs hb hbv hp => exact .base hx hid hs hb hbv hp
  | group hns hid hs ht hmm hm => exact .group hx hid hs ht hmm hm

/-! ### Atomic maps -/

theorem calcDataSize_ready (E : Env) (info : SeqInfo) (ei : ElemInfo) (c : Ctx)
    (hn : c.numberOfElements = none)
    (hs : c.elementsDataSize = none ∨ streamSize E info ei c.values = .ok c.elementsDataSize) :
    (calcDataSize E info ei c).1 = streamSize E info ei c.values ∧
    (calcDataSize E info ei c).2.numberOfElements = none ∧
    (calcDataSize E info ei c).2.elementsDataSize = c.elementsDataSize ∧
    SameNs (calcDataSize E info ei c).2.values c.values := by
  have hl := SameNs.of_left ((calcDataSize_left E info ei c).imp id (·.2))
  refine ⟨?_, ?_, ?_, hl⟩
  · unfold calcDataSize
    split
    · rename_i ht
      rcases hs with hs | hs
      · rw [hs] at ht; cases ht
      · exact hs.symm
    · unfold streamSize at hs ⊢
      simp only [hn]
      grind
  · unfold calcDataSize
    repeat' split
    all_goals exact hn
  · unfold calcDataSize
    repeat' split
    all_goals rfl

/-- A stream map with a context it left itself. -/
theorem streamMap_ready (E : Env) (info : SeqInfo) (ei : ElemInfo) (bs : Bytes) (off : Nat) (c : Ctx)
    (hn : c.numberOfElements = none)
    (hs : c.elementsDataSize = none ∨ streamSize E info ei c.values = .ok c.elementsDataSize) :
    match streamParse E info ei bs off c.values with
    | .error e => (streamMap E info ei bs off c).1 = .error e ∧
        (streamMap E info ei bs off c).2.numberOfElements = none ∧
        (e = .tooSmall → (streamMap E info ei bs off c).2.elementsDataSize = none ∨
          streamSize E info ei (streamMap E info ei bs off c).2.values =
            .ok (streamMap E info ei bs off c).2.elementsDataSize)
    | .ok (v, n) => (streamMap E info ei bs off c).1 = .ok v ∧
        (streamMap E info ei bs off c).2.byteSize = some n ∧ (streamMap E info ei bs off c).2.Clean := by
  obtain ⟨h1, h2, h3, h4⟩ := calcDataSize_ready E info ei c hn hs
  unfold streamParse streamMap
  rcases hcd : calcDataSize E info ei c with ⟨r, c'⟩
  rw [hcd] at h1 h2 h3 h4
  simp only at h1 h2 h3 h4
  rw [← h1] at hs ⊢
  rcases r with e | (_ | n)
  · refine ⟨rfl, h2, ?_⟩
    intro he
    simp only at h3 ⊢
    rw [h3, streamSize_same E info ei h4, ← h1]
    exact hs
  · have hnone : c'.elementsDataSize = none := by
      rw [h3]
      rcases hs with hs | hs
      · exact hs
      · injection hs with hs; exact hs.symm
    rcases info.terminator with _ | t
    · exact ⟨rfl, h2, fun h => by cases h⟩
    · rcases ei.byteSize with _ | es
      · exact ⟨rfl, h2, fun h => by cases h⟩
      · simp only
        rcases scanTerm (bs.drop off) es.toNat t (bs.length - off + 2) 0 es.toNat with n | n | _ | _
        · exact ⟨rfl, rfl, rfl⟩
        · exact ⟨rfl, h2, fun _ => .inl hnone⟩
        · exact ⟨rfl, rfl, fun h => by cases h⟩
        · exact ⟨rfl, h2, fun h => by cases h⟩
  · simp only
    cases tooSmall bs off n
    · exact ⟨rfl, rfl, rfl⟩
    · refine ⟨rfl, h2, fun _ => .inr ?_⟩
      show streamSize E info ei c'.values = .ok (some n)
      rw [streamSize_same E info ei h4, ← h1]

/-- An `Atomic` map with a context it left itself. -/
theorem atom_step (E : Env) (m : DMap) (ha : Atomic m = true) (bs : Bytes) (off depth : Nat) (c : Ctx)
    (hc : AtomReady E m c) :
    match parse E m bs off depth c.values with
    | .error e => (mapStream E m bs off depth c).1 = .error e ∧
        (e = .tooSmall → AtomReady E m (mapStream E m bs off depth c).2)
    | .ok (v, n) => (mapStream E m bs off depth c).1 = .ok v ∧
        (mapStream E m bs off depth c).2.byteSize = some n ∧ (mapStream E m bs off depth c).2.Clean := by
  cases m with
  | prim h k s u =>
    have hr := refines E (.prim h k s u) bs off depth c hc
    generalize hp : parse E (.prim h k s u) bs off depth c.values = p at hr
    rcases p with e | ⟨v, n⟩
    · refine ⟨hr, ?_⟩
      rintro rfl
      simp only [Refines, mapStream, primMap] at hr ⊢
      generalize fixedByteSize s u = f at hr ⊢
      cases f with
      | none => cases hr
      | some n =>
        simp only at hr ⊢
        split at hr
        · rw [if_pos (by assumption)]; exact hc
        · split at hr <;> cases hr
    · exact ⟨hr.1, hr.2.1, hr.2.2.1⟩
  | uuid h s u =>
    have hr := refines E (.uuid h s u) bs off depth c hc
    generalize hp : parse E (.uuid h s u) bs off depth c.values = p at hr
    rcases p with e | ⟨v, n⟩
    · refine ⟨hr, ?_⟩
      rintro rfl
      simp only [Refines, mapStream, uuidMap] at hr ⊢
      generalize fixedByteSize s u = f at hr ⊢
      cases f with
      | none => cases hr
      | some n =>
        simp only at hr ⊢
        split at hr
        · rw [if_pos (by assumption)]; exact hc
        · split at hr
          · cases hr
          · split at hr <;> cases hr
          · split at hr <;> cases hr
    · exact ⟨hr.1, hr.2.1, hr.2.2.1⟩
  | seq h info ei b e =>
    simp only [Atomic] at ha
    simp only [AtomReady] at hc ⊢
    simp only [mapStream, parse]
    rcases hk : info.kind with _ | _ | enc <;> simp only [hk] at ha hc ⊢
    · rw [if_pos ha, if_pos ha]
      have hr := linearSeqMap_refines E b (DMap.seq h info ei b e).op e bs off c
      generalize linearSeqParse E b (DMap.seq h info ei b e).op e bs off = p at hr ⊢
      rcases p with x | ⟨v, n⟩
      · exact ⟨hr, fun _ => trivial⟩
      · exact ⟨hr.1, hr.2.1, hr.2.2.1⟩
    · have hr := streamMap_ready E info ei bs off c hc.1 hc.2
      generalize streamMap E info ei bs off c = r at hr ⊢
      obtain ⟨r, c'⟩ := r
      generalize streamParse E info ei bs off c.values = p at hr ⊢
      rcases p with x | ⟨v, n⟩
      · obtain ⟨h1, h2, h3⟩ := hr
        simp only at h1 h2 h3
        subst h1
        exact ⟨rfl, fun h => ⟨h2, h3 h⟩⟩
      · obtain ⟨h1, h2, h3⟩ := hr
        simp only at h1 h2 h3
        subst h1
        exact ⟨rfl, h2, h3⟩
    · have hr := streamMap_ready E info ei bs off c hc.1 hc.2
      unfold stringMap stringParse
      generalize streamMap E info ei bs off c = r at hr ⊢
      obtain ⟨r, c'⟩ := r
      generalize streamParse E info ei bs off c.values = p at hr ⊢
      rcases p with x | ⟨v, n⟩
      · obtain ⟨h1, h2, h3⟩ := hr
        simp only at h1 h2 h3
        subst h1
        exact ⟨rfl, fun h => ⟨h2, h3 h⟩⟩
      · obtain ⟨h1, h2, h3⟩ := hr
        simp only at h1 h2 h3
        subst h1
        simp only
        generalize hcut : cutString info v = cs
        rcases cs with x | b'
        · refine ⟨rfl, ?_⟩
          rintro rfl
          unfold cutString at hcut
          split at hcut <;> cases hcut
        · simp only
          rcases E.decode enc b' with _ | cs
          · exact ⟨rfl, fun h => by cases h⟩
          · exact ⟨rfl, h2, h3⟩
  | struct h b l io infos maps =>
    simp only [Atomic] at ha
    simp only [AtomReady, mapStream, parse, ha, if_true]
    have hr := linearStructMap_refines E h b (DMap.struct h b true io infos maps).op io infos maps bs off c
      (.struct h b true io infos maps)
    generalize linearStructParse E h b (DMap.struct h b true io infos maps).op io infos maps bs off = p at hr ⊢
    rcases p with x | ⟨v, n⟩
    · exact ⟨hr, fun _ => trivial⟩
    · exact ⟨hr.1, hr.2.1, hr.2.2.1⟩
  | _ => cases ha

/-! ### Prefixes of the data -/

/-- What is needed of every map. -/
abbrev Good (m : DMap) : Prop := m.Every fun m => Resumable m ∧ Extendable m

theorem Good.align {m : DMap} (h : Good m) (k : Nat) : m.Every (alignDvd k) := by
  refine DMap.Every.imp ?_ m h
  rintro m ⟨hr, -⟩
  cases m <;> first | trivial | exact hr.elim

theorem Good.ext {m : DMap} (h : Good m) : m.Every Extendable := DMap.Every.imp (fun _ h => h.2) m h

theorem Good.parse_drop {m : DMap} (h : Good m) (E : Env) (bs : Bytes) (k : Nat) (hk : k ≤ bs.length)
    (off depth : Nat) (ns : Namespace) :
    parse E m (bs.drop k) off depth ns = parse E m bs (k + off) depth ns :=
  parse_shift E m bs k hk (h.align k) off depth ns

/-- Mapping a prefix of the data gives the same or runs out of bytes. -/
theorem Good.prefix {m : DMap} (h : Good m) {E : Env} {S ext rem : Bytes} {soff depth : Nat} {ns : Namespace}
    {v : Val} {n : Nat} (hle : soff ≤ S.length) (hS : S.drop soff ++ ext = rem)
    (hp : parse E m rem 0 depth ns = .ok (v, n)) :
    (parse E m S soff depth ns = .ok (v, n) ∧ n ≤ S.length - soff) ∨
    (parse E m S soff depth ns = .error .tooSmall ∧ ext ≠ []) := by
  have hd : parse E m (S.drop soff) 0 depth ns = parse E m S soff depth ns := by
    have := h.parse_drop E S soff hle 0 depth ns
    rwa [Nat.add_zero] at this
  by_cases hts : parse E m S soff depth ns = .error .tooSmall
  · refine .inr ⟨hts, ?_⟩
    rintro rfl
    rw [List.append_nil] at hS
    rw [← hS, hd, hts] at hp
    cases hp
  · left
    have := parse_append E m h.ext (S.drop soff) ext 0 depth ns (by rw [hd]; exact hts)
    rw [hS, hp, hd] at this
    refine ⟨this.symm, ?_⟩
    have := parse_bound E m (DMap.Every.imp (fun _ h => h.2.1) m h) S soff depth ns v n this.symm
    omega

/-- The outcome of a call on a part of `len` bytes of the remaining data `rem`, of
which `ext` is not there yet. -/
def StepRes (E : Env) (m : DMap) (depth : Nat) (ns : Namespace) (rem : Bytes) (v : Val) (n : Nat) (ext : Bytes)
    (len : Nat) (c : Ctx) (r : Res) : Prop :=
  (r.1 = .ok v ∧ r.2.Clean ∧ n ≤ len ∧ ∃ b, r.2.byteSize = some b ∧ (m.Every NoLoop → b = n)) ∨
  (r.1 = .error .tooSmall ∧ ext ≠ [] ∧ used m c r.2 ≤ len ∧ used m c r.2 ≤ n ∧
    Resumes E m depth ns (rem.drop (used m c r.2)) r.2 v (n - used m c r.2))

/-- Going on with a context in progress. -/
def Steps (E : Env) (m : DMap) : Prop :=
  ∀ (S : Bytes) (soff depth : Nat) (ns : Namespace) (rem : Bytes) (c : Ctx) (v : Val) (n : Nat) (ext : Bytes),
    Resumes E m depth ns rem c v n → (c.Clean ∨ soff < S.length) → soff ≤ S.length →
    S.drop soff ++ ext = rem →
    StepRes E m depth ns rem v n ext (S.length - soff) c (mapStream E m S soff depth c)

/-- `Atomic` maps. -/
theorem steps_atom {E : Env} {m : DMap} (hg : Good m) (ha : Atomic m = true) {S : Bytes} {soff depth : Nat}
    {ns : Namespace} {rem : Bytes} {c : Ctx} {v : Val} {n : Nat} {ext : Bytes} (hc : AtomReady E m c)
    (hns : SameNs c.values ns) (hp : parse E m rem 0 depth ns = .ok (v, n)) (hle : soff ≤ S.length)
    (hS : S.drop soff ++ ext = rem) :
    StepRes E m depth ns rem v n ext (S.length - soff) c (mapStream E m S soff depth c) := by
  have hst := atom_step E m ha S soff depth c hc
  have hsame := (mapStream_same E m S soff depth c).trans hns
  rw [parse_same E m S soff depth hns] at hst
  rcases hg.prefix hle hS hp with ⟨h1, h2⟩ | ⟨h1, h2⟩
  · rw [h1] at hst
    exact .inl ⟨hst.1, hst.2.2, h2, n, hst.2.1, fun _ => rfl⟩
  · rw [h1] at hst
    refine .inr ⟨hst.1, h2, ?_⟩
    rw [used_atomic ha]
    exact ⟨by omega, by omega, .atom ha (hst.2 rfl) hsame hp⟩

/-! ### Structures -/

theorem parseMembers_used (E : Env) (cls : String) (bs : Bytes) (depth : Nat) (outer : Namespace)
    (k : Nat) (maps : List DMap) (infos : List MemInfo) (off used : Nat) (attrs : List (String × Val)) :
    parseMembers E cls bs depth outer infos maps off (used + k) attrs =
      (match parseMembers E cls bs depth outer infos maps off used attrs with
        | .error e => .error e
        | .ok (a, n) => .ok (a, n + k)) := by
  induction maps generalizing infos off used attrs with
  | nil => simp [parseMembers]
  | cons m maps ih =>
    cases infos with
    | nil => simp [parseMembers]
    | cons info infos =>
      simp only [parseMembers]
      split
      · rfl
      · exact ih ..
      · split
        · rfl
        · split
          · rfl
          · rename_i n _ _
            rw [show used + k + n = used + n + k by omega]
            exact ih ..

/-- The members of the data without its first bytes. -/
theorem parseMembers_drop {E : Env} {cls : String} {rem : Bytes} {depth : Nat} {outer : Namespace}
    {maps : List DMap} (hg : ∀ m ∈ maps, Good m) {infos : List MemInfo} {off U : Nat} (hU : U ≤ off)
    (hr : U ≤ rem.length) {attrs attrsF : List (String × Val)} {n : Nat}
    (h : parseMembers E cls rem depth outer infos maps off off attrs = .ok (attrsF, n)) :
    off ≤ n ∧ parseMembers E cls (rem.drop U) depth outer infos maps (off - U) (off - U) attrs =
      .ok (attrsF, n - U) := by
  have hs := parseMembers_shift E cls rem U depth outer maps
    (fun m hm off depth ns => (hg m hm).parse_drop E rem U hr off depth ns) infos (off - U) (off - U) attrs
  rw [hs, show U + (off - U) = off by omega]
  have hu := parseMembers_used E cls rem depth outer U maps infos off (off - U) attrs
  rw [show off - U + U = off by omega, h] at hu
  generalize hpm : parseMembers E cls rem depth outer infos maps off (off - U) attrs = p at hu ⊢
  have hb : ∀ a k, p = .ok (a, k) → off - U ≤ k := by
    rintro a k rfl
    obtain ⟨j, hj, -⟩ := parseMembers_bound E cls rem depth outer maps
      (fun m hm off depth ns v n hp => parse_bound E m (DMap.Every.imp (fun _ h => h.2.1) m (hg m hm)) rem off
        depth ns v n hp) infos _ _ _ _ _ hpm
    omega
  rcases p with e | ⟨a, k⟩
  · cases hu
  · simp only [Except.ok.injEq, Prod.mk.injEq] at hu ⊢
    have := hb a k rfl
    obtain ⟨rfl, rfl⟩ := hu
    exact ⟨by omega, rfl, by omega⟩

/-- The outcome of the loop over the members. -/
def MembersRes (E : Env) (cls : String) (depth : Nat) (infos : List MemInfo) (maps : List DMap) (s : StructSt)
    (rem ext : Bytes) (len : Nat) (attrsF : List (String × Val)) (n : Nat) (out : StructOut) : Prop :=
  (∃ s', out = .done s' ∧ s'.attrs = attrsF ∧ n ≤ len ∧
    ((∀ m ∈ maps, m.Every NoLoop) → s'.size = s.size + n)) ∨
  (∃ s', out = .tooSmall s' ∧ ext ≠ [] ∧ ∃ j k K info is m ms v' n',
    infos.drop j = info :: is ∧ maps.drop j = m :: ms ∧ s'.index = s.index + j ∧ s'.size = s.size + k ∧
    K = k + used m (if j = 0 then s.sub else {}) s'.sub ∧ K ≤ len ∧ K ≤ n ∧
    evalCondition E info (structNs cls s'.attrs s'.sub.values) = .ok true ∧
    Resumes E m (depth + 1) (structNs cls s'.attrs s'.sub.values) (rem.drop K)
      { s'.sub with values := structNs cls s'.attrs s'.sub.values } v' n' ∧
    valueOk info v' = true ∧
    parseMembers E cls (rem.drop K) depth s'.sub.values is ms n' n' (setAttr s'.attrs info.name v') =
      .ok (attrsF, n - K))

/-- The loop over members none of which has been begun. -/
def StartMembers (E : Env) (cls : String) (S : Bytes) (depth : Nat) (maps : List DMap) : Prop :=
  ∀ infos s rem ext attrsF n, Ctx.Clean s.sub → s.off ≤ S.length → S.drop s.off ++ ext = rem →
    parseMembers E cls rem depth s.sub.values infos maps 0 0 s.attrs = .ok (attrsF, n) →
    MembersRes E cls depth infos maps s rem ext (S.length - s.off) attrsF n
      (structLoop E cls S depth infos maps 0 s)

theorem drop_prefix {S ext rem : Bytes} {off n : Nat} (hS : S.drop off ++ ext = rem)
    (hn : n ≤ S.length - off) : S.drop (off + n) ++ ext = rem.drop n := by
  rw [← hS, List.drop_append_of_le_length (by rw [List.length_drop]; exact hn), List.drop_drop]

theorem structLoop_mid {E : Env} {cls : String} {S : Bytes} {depth : Nat} {m : DMap} {ms : List DMap}
    (hm : Steps E m) (hms : StartMembers E cls S depth ms) (hg : ∀ x ∈ m :: ms, Good x)
    (hloc : ∀ x ∈ (m :: ms).dropLast, x.Every NoLoop) {info : MemInfo} {is : List MemInfo} {s : StructSt}
    {rem ext : Bytes} {attrsF : List (String × Val)} {n : Nat} {v' : Val} {n' : Nat}
    (hc : Ctx.Clean s.sub ∨ s.off < S.length) (hle : s.off ≤ S.length) (hS : S.drop s.off ++ ext = rem)
    (hcond : evalCondition E info (structNs cls s.attrs s.sub.values) = .ok true)
    (hres : Resumes E m (depth + 1) (structNs cls s.attrs s.sub.values) rem
      { s.sub with values := structNs cls s.attrs s.sub.values } v' n')
    (hval : valueOk info v' = true)
    (hrest : parseMembers E cls rem depth s.sub.values is ms n' n' (setAttr s.attrs info.name v') =
      .ok (attrsF, n)) :
    MembersRes E cls depth (info :: is) (m :: ms) s rem ext (S.length - s.off) attrsF n
      (structLoop E cls S depth (info :: is) (m :: ms) 0 s) := by
  have hlen : rem.length = S.length - s.off + ext.length := by
    rw [← hS, List.length_append, List.length_drop]
  have hgms : ∀ x ∈ ms, Good x := fun x hx => hg x (List.mem_cons_of_mem _ hx)
  have hst := hm S s.off (depth + 1) _ rem { s.sub with values := structNs cls s.attrs s.sub.values } v' n' ext
    hres (hc.imp (fun h => by rw [Ctx.clean_iff] at h ⊢; exact h) id) hle hS
  have hsame := mapStream_same E m S s.off (depth + 1)
    { s.sub with values := structNs cls s.attrs s.sub.values }
  rw [structLoop]
  simp only [hcond]
  generalize hr : mapStream E m S s.off (depth + 1)
    { s.sub with values := structNs cls s.attrs s.sub.values } = r at hst hsame ⊢
  obtain ⟨r, sub⟩ := r
  rcases hst with ⟨h1, h2, h3, b, h4, h5⟩ | ⟨h1, h2, h3, h4, h5⟩
  · simp only at h1 h2 h3 h4 h5
    subst h1
    simp only [hval, Bool.not_true, Bool.false_eq_true, if_false, h4]
    obtain ⟨hle', hdrop⟩ := parseMembers_drop hgms (Nat.le_refl n') (by omega) hrest
    cases ms with
    | nil =>
      left
      simp only [parseMembers, Except.ok.injEq, Prod.mk.injEq] at hrest
      obtain ⟨rfl, rfl⟩ := hrest
      refine ⟨_, by rw [structLoop], rfl, h3, ?_⟩
      intro hn
      simp only [h5 (hn m List.mem_cons_self)]
    | cons m2 ms2 =>
      have hb : b = n' := h5 (hloc m (by simp))
      subst hb
      rw [Nat.sub_self] at hdrop
      have := hms is { s with off := s.off + b, size := s.size + b, index := s.index + 1,
                              attrs := setAttr s.attrs info.name v', sub := { sub with values := s.sub.values } }
        (rem.drop b) ext attrsF (n - b) (by simp only; rw [Ctx.clean_iff] at h2 ⊢; exact h2)
        (by simp only; omega) (drop_prefix hS h3) hdrop
      rcases this with ⟨s', e1, e2, e3, e4⟩ | ⟨s', e1, e2, j, k, K, info', is', m', ms', v2, n2, f1, f2, f3, f4, f5, f6, f7, f8, f9, f10, f11⟩
      · simp only [h4] at e1 e3 e4
        refine .inl ⟨s', e1, e2, by omega, ?_⟩
        intro hn
        rw [e4 (fun x hx => hn x (List.mem_cons_of_mem _ hx))]
        omega
      · simp only [h4] at e1 f3 f4 f6
        refine .inr ⟨s', e1, e2, j + 1, k + b, K + b, info', is', m', ms', v2, n2, by simpa using f1,
          by simpa using f2, by omega, by omega, ?_, by omega, by omega, f8, ?_, f10, ?_⟩
        · rw [f5]
          simp only [Nat.add_one_ne_zero, if_false]
          have : used m' (if j = 0 then { sub with values := s.sub.values } else {}) s'.sub = used m' {} s'.sub := by
            split
            · exact used_clean_left _ _ _ (by rw [Ctx.clean_iff] at h2 ⊢; exact h2)
            · rfl
          rw [this]
          omega
        · rw [List.drop_drop, Nat.add_comm b K] at f9
          exact f9
        · rw [List.drop_drop, Nat.add_comm b K] at f11
          rw [f11]
          congr 2
          omega
  · simp only at h1 h2 h3 h4 h5 hsame
    subst h1
    simp only
    right
    simp only [used_values_left] at h3 h4 h5
    obtain ⟨hle', hdrop⟩ := parseMembers_drop hgms h4 (by omega) hrest
    refine ⟨_, rfl, h2, 0, 0, used m s.sub sub, info, is, m, ms, v', n' - used m s.sub sub, rfl, rfl, rfl, rfl,
      ?_, h3, by omega, hcond, ?_, hval, hdrop⟩
    · simp only [if_true, Nat.zero_add]
      rw [used_values_right]
    · exact h5.values (SameNs.refl _)

theorem structLoop_start {E : Env} {cls : String} {S : Bytes} {depth : Nat} (maps : List DMap)
    (hm : ∀ m ∈ maps, Steps E m) (hg : ∀ x ∈ maps, Good x) (hloc : ∀ x ∈ maps.dropLast, x.Every NoLoop) :
    StartMembers E cls S depth maps := by
  induction maps with
  | nil =>
    intro infos s rem ext attrsF n hc hle hS hp
    simp only [parseMembers, Except.ok.injEq, Prod.mk.injEq] at hp
    obtain ⟨rfl, rfl⟩ := hp
    exact .inl ⟨s, by rw [structLoop], rfl, by omega, fun _ => rfl⟩
  | cons m ms ih =>
    have ih := ih (fun x hx => hm x (List.mem_cons_of_mem _ hx)) (fun x hx => hg x (List.mem_cons_of_mem _ hx))
      (fun x hx => by
        cases ms with
        | nil => simp at hx
        | cons m2 ms2 => exact hloc x (by rw [List.dropLast_cons_of_ne_nil (by simp)]; exact List.mem_cons_of_mem _ hx))
    intro infos s rem ext attrsF n hc hle hS hp
    cases infos with
    | nil =>
      simp only [parseMembers, Except.ok.injEq, Prod.mk.injEq] at hp
      obtain ⟨rfl, rfl⟩ := hp
      exact .inl ⟨s, by rw [structLoop], rfl, by omega, fun _ => rfl⟩
    | cons info infos =>
      have hp' := hp
      rw [parseMembers] at hp
      split at hp
      · cases hp
      · rename_i hcond
        have := ih infos { s with index := s.index + 1 } rem ext attrsF n hc hle hS hp
        rw [structLoop]
        simp only [hcond]
        rcases this with ⟨s', e1, e2, e3, e4⟩ | ⟨s', e1, e2, j, k, K, info', is', m', ms', v2, n2, f1, f2, f3, f4, f5, f6, f7, f8, f9, f10, f11⟩
        · exact .inl ⟨s', e1, e2, e3, fun hn => e4 fun x hx => hn x (List.mem_cons_of_mem _ hx)⟩
        · simp only at f3 f4 f6
          refine .inr ⟨s', e1, e2, j + 1, k, K, info', is', m', ms', v2, n2, by simpa using f1,
            by simpa using f2, by omega, f4, ?_, f6, f7, f8, f9, f10, f11⟩
          rw [f5]
          simp only [Nat.add_one_ne_zero, if_false]
          congr 1
          split
          · exact used_clean_left _ _ _ hc
          · rfl
      · rename_i hcond
        split at hp
        · cases hp
        · rename_i v' n' hp1
          split at hp
          · cases hp
          · rename_i hval
            rw [Nat.zero_add] at hp
            refine structLoop_mid (hm m List.mem_cons_self) ih hg hloc (.inl hc) hle hS hcond
              (.start (by rw [Ctx.clean_iff] at hc ⊢; exact hc) (SameNs.refl _) hp1) (by simpa using hval) hp

theorem structLoop_skip (E : Env) (cls : String) (S : Bytes) (depth : Nat) (i : Nat) (infos : List MemInfo)
    (maps : List DMap) (s : StructSt) {m : DMap} {ms : List DMap} {info : MemInfo} {is : List MemInfo}
    (hm : maps.drop i = m :: ms) (hi : infos.drop i = info :: is) :
    structLoop E cls S depth infos maps i s =
      structLoop E cls S depth (info :: is) (m :: ms) 0 { s with index := s.index + i } := by
  induction i generalizing infos maps s with
  | zero =>
    rw [List.drop_zero] at hm hi
    rw [hm, hi]
    rfl
  | succ i ih =>
    cases maps with
    | nil => simp at hm
    | cons m' maps =>
      cases infos with
      | nil => simp at hi
      | cons info' infos =>
        rw [structLoop]
        rw [List.drop_succ_cons] at hm hi
        rw [ih infos maps _ hm hi]
        simp only [show s.index + 1 + i = s.index + (i + 1) by omega]

theorem dropLast_drop {α : Type} (l : List α) (i : Nat) : ∀ x ∈ (l.drop i).dropLast, x ∈ l.dropLast := by
  induction i generalizing l with
  | zero => intro x hx; simpa using hx
  | succ i ih =>
    intro x hx
    cases l with
    | nil => simp at hx
    | cons a l =>
      rw [List.drop_succ_cons] at hx
      have := ih l x hx
      cases l with
      | nil => simp at this
      | cons b l => rw [List.dropLast_cons_of_ne_nil (by simp)]; exact List.mem_cons_of_mem _ this

/-- From the loop over the members to the structure. -/
theorem steps_members {E : Env} {hd : Hdr} {bsz : Option Int} {io : Bool} {infos : List MemInfo}
    {maps : List DMap} {depth : Nat} {ns : Namespace} {rem : Bytes} {c : Ctx} {n : Nat}
    {ext S : Bytes} {soff : Nat} {attrsF : List (String × Val)} (hdp : ¬ depth > 10) (hns : SameNs c.values ns)
    (hio : (c.mappedStruct.isNone && !io) = false) (hl : ¬ c.attributeIndex.getD 0 ≥ infos.length)
    (hsub : ∀ m, used m (c.sub.getD {}) = used m (c.sub.getD { values := c.values }))
    (h : MembersRes E hd.name depth (infos.drop (c.attributeIndex.getD 0)) (maps.drop (c.attributeIndex.getD 0))
      { off := soff, size := 0, index := c.attributeIndex.getD 0,
        attrs := c.mappedStruct.getD (newInstance (infos.map (·.name))),
        sub := c.sub.getD { values := c.values } } rem ext (S.length - soff) attrsF n
      (structLoop E hd.name S depth infos maps (c.attributeIndex.getD 0)
        { off := soff, size := 0, index := 0, attrs := c.mappedStruct.getD (newInstance (infos.map (·.name))),
          sub := c.sub.getD { values := c.values } })) :
    StepRes E (.struct hd bsz false io infos maps) depth ns rem (.struct hd.name attrsF) n ext (S.length - soff) c
      (mapStream E (.struct hd bsz false io infos maps) S soff depth c) := by
  rw [mapStream]
  simp only [Bool.false_eq_true, if_false, hdp, hio]
  generalize structLoop E hd.name S depth infos maps (c.attributeIndex.getD 0)
    { off := soff, size := 0, index := 0, attrs := c.mappedStruct.getD (newInstance (infos.map (·.name))),
      sub := c.sub.getD { values := c.values } } = out at h ⊢
  rcases h with ⟨s', rfl, e2, e3, e4⟩ |
    ⟨s', rfl, e2, j, k, K, info', is', m', ms', v2, n2, f1, f2, f3, f4, f5, f6, f7, f8, f9, f10, f11⟩
  · simp only [hl, if_false, e2]
    refine .inl ⟨rfl, Ctx.clean_clear _, e3, _, rfl, ?_⟩
    intro hn
    simp only [DMap.Every, everyMap_iff] at hn
    have := e4 fun m hm => hn.2 m (List.mem_of_mem_drop hm)
    simpa using this
  · simp only at f3 f4 f5
    rw [Nat.zero_add] at f4
    simp only
    have hU : used (.struct hd bsz false io infos maps) c (structSave { c with byteSize := none } s') = K := by
      simp only [used, structSave, Bool.false_eq_true, if_false, Option.getD_some, f3, f4, f5]
      rw [usedNth_eq]
      rw [List.drop_drop] at f2
      have hj : maps[c.attributeIndex.getD 0 + j]? = some m' := by
        rw [← List.head?_drop, f2]; rfl
      rw [hj]
      simp only [Int.toNat_natCast]
      congr 1
      by_cases hj : j = 0
      · subst hj
        simp only [Nat.add_zero, if_true, hsub]
      · rw [if_neg hj, if_neg (by omega)]
    refine .inr ⟨rfl, e2, ?_⟩
    simp only
    rw [hU]
    rw [List.drop_drop, ← f3] at f1 f2
    exact ⟨f6, f7, .struct hdp hns rfl rfl rfl f1 f2 f8 f9 f10 f11⟩

theorem steps_struct {E : Env} {h : Hdr} {bsz : Option Int} {io : Bool} {infos : List MemInfo}
    {maps : List DMap} (ih : ∀ m ∈ maps, Steps E m) (hg : Good (.struct h bsz false io infos maps)) :
    Steps E (.struct h bsz false io infos maps) := by
  intro S soff depth ns rem c v n ext hres hc hle hS
  have hloc : ∀ m ∈ maps.dropLast, m.Every NoLoop := hg.self.1.resolve_left (by simp)
  have hgm : ∀ m ∈ maps, Good m := by
    have := hg
    simp only [DMap.Every, everyMap_iff] at this
    exact this.2
  cases hres with
  | start hcl hns hp =>
    rw [Ctx.clean_iff] at hcl
    obtain ⟨h1, h2, h3, h4, h5, h6, h7, h8, h9, h10⟩ := hcl
    rw [← parse_same E _ rem 0 depth hns, parse] at hp
    simp only [Bool.false_eq_true, if_false] at hp
    split at hp
    · cases hp
    rename_i hd
    split at hp
    · cases hp
    rename_i hio
    split at hp
    · cases hp
    rename_i hl
    split at hp
    · cases hp
    rename_i attrsF n hp
    cases hp
    refine steps_members hd hns (by simpa [h7] using hio) (by rw [h1]; simp only [Option.getD_none]; omega)
      (fun m => by rw [h2]; simp only [Option.getD_none]; funext c'; exact (used_clean_left _ _ _ (Ctx.clean_fresh _)).symm) ?_
    rw [h1, h2, h7]
    simp only [Option.getD_none, List.drop_zero]
    refine structLoop_start maps ih hgm hloc infos _ rem ext attrsF n (Ctx.clean_fresh _) hle hS ?_
    exact hp
  | atom ha => cases ha
  | struct hd hns hi ha hs hinfos hmaps hcond hm hval hrest =>
    rename_i i attrs sub info is m ms v' n' attrsF
    have hc : soff < S.length := hc.resolve_left fun hcl => by
      rw [Ctx.clean_iff, hi] at hcl
      cases hcl.1
    refine steps_members hd hns (by rw [ha]; rfl) ?_ (fun m => by rw [hs]; rfl) ?_
    · rw [hi]
      simp only [Option.getD_some]
      intro hge
      rw [List.drop_eq_nil_of_le hge] at hinfos
      cases hinfos
    · rw [hi, ha, hs]
      simp only [Option.getD_some]
      rw [structLoop_skip E h.name S depth i infos maps _ hmaps hinfos, hinfos, hmaps, Nat.zero_add]
      have hmem : ∀ x ∈ m :: ms, x ∈ maps := fun x hx => List.mem_of_mem_drop (hmaps ▸ hx)
      have hdl : ∀ x ∈ (m :: ms).dropLast, x.Every NoLoop := fun x hx =>
        hloc x (dropLast_drop maps i x (hmaps ▸ hx))
      refine structLoop_mid (ih m (hmem m List.mem_cons_self))
        (structLoop_start ms (fun x hx => ih x (hmem x (List.mem_cons_of_mem _ hx)))
          (fun x hx => hgm x (hmem x (List.mem_cons_of_mem _ hx)))
          (fun x hx => ?_)) (fun x hx => hgm x (hmem x hx)) hdl (.inr hc) hle hS hcond hm hval hrest
      cases ms with
      | nil => simp at hx
      | cons m2 ms2 => exact hdl x (by rw [List.dropLast_cons_of_ne_nil (by simp)]; exact List.mem_cons_of_mem _ hx)

/-! ### Sequences -/

/-- The counter of bytes only matters when there is a data size. -/
theorem seqEnd_shift (num : Option Int) (term : Option Lit) (index used k : Nat) (last : Val) :
    seqEnd num none term index (used + k) last =
      (match seqEnd num none term index used last with
        | .error e => .error e
        | .ok (vs, u) => .ok (vs, u + k)) := by
  unfold seqEnd
  by_cases h1 : (num.isSome && !atNumber num index) = true
  · rw [if_pos h1, if_pos h1]
  · rw [if_neg h1, if_neg h1]
    cases term with
    | none => rfl
    | some t =>
      by_cases h2 : pyEq last t = true
      · rw [if_neg (by simp [h2]), if_neg (by simp [h2])]
      · rw [if_pos (by simp [h2, atDataSize]), if_pos (by simp [h2, atDataSize])]

theorem seqParse_counter (step : Nat → PRes) (len : Nat) (num : Option Int) (term : Option Lit)
    (fuel off used index k : Nat) (last : Val) :
    seqParse step len num none term fuel off (used + k) index last =
      (match seqParse step len num none term fuel off used index last with
        | .error e => .error e
        | .ok (vs, u) => .ok (vs, u + k)) := by
  induction fuel generalizing off used index last with
  | zero => rfl
  | succ fuel ih =>
    rw [seqParse, seqParse]
    by_cases hx : (decide (len ≤ off) || atNumber num index || false) = true
    · rw [if_pos (show (decide (len ≤ off) || atNumber num index || atDataSize none (used + k)) = true from hx),
        if_pos (show (decide (len ≤ off) || atNumber num index || atDataSize none used) = true from hx)]
      exact seqEnd_shift ..
    · rw [if_neg (show ¬ (decide (len ≤ off) || atNumber num index || atDataSize none (used + k)) = true from hx),
        if_neg (show ¬ (decide (len ≤ off) || atNumber num index || atDataSize none used) = true from hx)]
      cases step off with
      | error e => rfl
      | ok r =>
        obtain ⟨v, n⟩ := r
        simp only
        rw [show used + k + n = used + n + k by omega]
        cases atTerm term v
        · simp only [Bool.false_eq_true, if_false]
          rw [ih]
          generalize seqParse step len num none term fuel (off + n) (used + n) (index + 1) v = p
          rcases p with e | ⟨vs, u⟩ <;> rfl
        · simp only [if_true]
          rw [seqEnd_shift]
          generalize seqEnd num none term (index + 1) (used + n) v = p
          rcases p with e | ⟨vs, u⟩ <;> rfl

/-- The elements after an element of which `U` bytes are used. -/
theorem SeqRest.drop {E : Env} {e : DMap} (hg : Good e) {rem : Bytes} {depth : Nat} {num ds : Option Int}
    {term : Option Lit} {n' du index : Nat} {v : Val} {rest : List Val} {u U : Nat} (hU : U ≤ n')
    (hl : U ≤ rem.length) (hds : ds.isSome = true → U = 0)
    (h : SeqRest E e rem depth num ds term n' (du + n') index v rest u) :
    du + n' ≤ u ∧
      SeqRest E e (rem.drop U) depth num ds term (n' - U) (du + (n' - U)) index v rest (u - U) := by
  by_cases h0 : U = 0
  · subst h0
    refine ⟨?_, h⟩
    rcases h with ⟨-, h⟩ | ⟨-, fuel, h⟩
    · have := (seqEnd_used h).2; omega
    · exact seqParse_used h
  · cases ds with
    | some x => exact absurd (hds rfl) h0
    | none =>
      have hn : du + n' = du + (n' - U) + U := by omega
      rcases h with ⟨ht, h⟩ | ⟨ht, fuel, h⟩
      · have hu := (seqEnd_used h).2
        refine ⟨by omega, .inl ⟨ht, ?_⟩⟩
        rw [hn, seqEnd_shift] at h
        generalize seqEnd num none term index (du + (n' - U)) v = p at h ⊢
        rcases p with e | ⟨vs, u'⟩
        · cases h
        · simp only [Except.ok.injEq, Prod.mk.injEq] at h ⊢
          exact ⟨h.1, by omega⟩
      · have hu := seqParse_used h
        refine ⟨by omega, .inr ⟨ht, fuel, ?_⟩⟩
        rw [List.length_drop]
        rw [seqParse_shift (fun off => parse E e rem off (depth + 1) []) _ rem.length U num none term hl
          (fun off => hg.parse_drop E rem U hl off (depth + 1) [])]
        rw [show U + (n' - U) = n' by omega]
        rw [hn, seqParse_counter] at h
        generalize seqParse (fun off => parse E e rem off (depth + 1) []) rem.length num none term fuel n'
          (du + (n' - U)) index v = p at h ⊢
        rcases p with e | ⟨vs, u'⟩
        · cases h
        · simp only [Except.ok.injEq, Prod.mk.injEq] at h ⊢
          exact ⟨h.1, by omega⟩

/-- The outcome of the loop over the elements. -/
def ElemsRes (E : Env) (e : DMap) (depth : Nat) (num ds : Option Int) (term : Option Lit) (s : SeqSt)
    (rem ext : Bytes) (len : Nat) (vs : List Val) (u : Nat) (out : SeqOut) : Prop :=
  (∃ s', out = .done s' ∧ seqEnd num ds term s'.index s'.dataOffset s'.last = .ok ([], s'.dataOffset) ∧
    s'.values = s.values ++ vs ∧ u - s.dataOffset ≤ len) ∨
  (∃ s', (out = .raised .tooSmall s' ∨
      out = .done s' ∧ seqEnd num ds term s'.index s'.dataOffset s'.last = .error .tooSmall) ∧ ext ≠ [] ∧
    ∃ j k K pre v' n' rest, s'.dataOffset = s.dataOffset + k ∧ s'.index = s.index + j ∧
      s'.values = s.values ++ pre ∧ vs = pre ++ v' :: rest ∧
      K = k + used e (if j = 0 then s.sub else {}) s'.sub ∧ K ≤ len ∧ s.dataOffset + K ≤ u ∧
      atNumber num s'.index = false ∧ atDataSize ds s'.dataOffset = false ∧
      Resumes E e (depth + 1) [] (rem.drop K) s'.sub v' n' ∧
      SeqRest E e (rem.drop K) depth num ds term n' (s'.dataOffset + n') (s'.index + 1) v' rest
        (u - (K - k)))

/-- The loop over elements none of which has been begun. -/
def StartElems (E : Env) (e : DMap) (S : Bytes) (depth : Nat) (num ds : Option Int) (term : Option Lit)
    (fuel : Nat) : Prop :=
  ∀ (s : SeqSt) rem ext fuel' vs u, Ctx.Clean s.sub → SameNs s.sub.values [] → s.off ≤ S.length →
    S.drop s.off ++ ext = rem → seqBound S.length s.off num s.index < fuel → atTerm term s.last = false →
    seqParse (fun off => parse E e rem off (depth + 1) []) rem.length num ds term fuel' 0 s.dataOffset s.index
      s.last = .ok (vs, u) →
    ElemsRes E e depth num ds term s rem ext (S.length - s.off) vs u
      (seqLoop (fun off c => mapStream E e S off (depth + 1) c) S.length num ds term fuel s)

theorem seqLoop_mid {E : Env} {e : DMap} {S : Bytes} {depth : Nat} {num ds : Option Int} {term : Option Lit}
    {fuel : Nat} (he : Steps E e) (hg : Good e) (hnl : e.Every NoLoop) (hat : ds.isSome = true → Atomic e = true)
    (htail : StartElems E e S depth num ds term fuel) {s : SeqSt} {rem ext : Bytes} {v' : Val} {n' : Nat}
    {rest : List Val} {u : Nat} (hlt : s.off < S.length) (hS : S.drop s.off ++ ext = rem)
    (hnum : atNumber num s.index = false) (hds : atDataSize ds s.dataOffset = false)
    (hres : Resumes E e (depth + 1) [] rem s.sub v' n') (hsv : SameNs s.sub.values [])
    (hrest : SeqRest E e rem depth num ds term n' (s.dataOffset + n') (s.index + 1) v' rest u)
    (hfuel : atTerm term v' = false → seqBound S.length (s.off + n') num (s.index + 1) < fuel) :
    ElemsRes E e depth num ds term s rem ext (S.length - s.off) (v' :: rest) u
      (seqLoop (fun off c => mapStream E e S off (depth + 1) c) S.length num ds term (fuel + 1) s) := by
  have hlen : rem.length = S.length - s.off + ext.length := by
    rw [← hS, List.length_append, List.length_drop]
  have hst := he S s.off (depth + 1) [] rem s.sub v' n' ext hres (.inr hlt) (Nat.le_of_lt hlt) hS
  have hsame := (mapStream_same E e S s.off (depth + 1) s.sub).trans hsv
  rw [seqLoop]
  simp only [Nat.not_le.mpr hlt, if_false, hnum, hds, Bool.false_eq_true]
  generalize mapStream E e S s.off (depth + 1) s.sub = r at hst hsame ⊢
  obtain ⟨r, sub⟩ := r
  rcases hst with ⟨h1, h2, h3, b, h4, h5⟩ | ⟨h1, h2, h3, h4, h5⟩
  · simp only at h1 h2 h3 h4 h5 hsame
    obtain rfl := h5 hnl
    subst h1
    simp only [h4]
    rcases hrest with ⟨ht, hrest⟩ | ⟨ht, fuel', hrest⟩
    · obtain ⟨rfl, rfl⟩ := seqEnd_used hrest
      rw [if_pos ht]
      exact .inl ⟨_, rfl, hrest, rfl, by omega⟩
    · have hu := seqParse_used hrest
      rw [if_neg (by rw [ht]; exact Bool.false_ne_true)]
      have := htail { off := s.off + b, dataOffset := s.dataOffset + b, index := s.index + 1, last := v',
                      values := s.values ++ [v'], sub := sub } (rem.drop b) ext fuel' rest u h2 hsame
        (by simp only; omega) (drop_prefix hS h3) (hfuel ht) ht (by
          rw [List.length_drop]
          rw [seqParse_shift (fun off => parse E e rem off (depth + 1) []) _ rem.length b num ds term (by omega)
            (fun off => hg.parse_drop E rem b (by omega) off (depth + 1) [])]
          exact hrest)
      rcases this with ⟨s', e1, e2, e3, e4⟩ |
        ⟨s', e1, e2, j, k, K, pre, v2, n2, rest2, f1, f2, f3, f4, f5, f6, f7, f8, f9, f10, f11⟩
      · simp only at e3 e4
        exact .inl ⟨s', e1, e2, by rw [e3]; simp, by omega⟩
      · simp only at f1 f2 f3 f6 f7
        refine .inr ⟨s', e1, e2, j + 1, k + b, K + b, v' :: pre, v2, n2, rest2, by omega, by omega,
          by rw [f3]; simp, by rw [f4]; rfl, ?_, by omega, by omega, f8, f9, ?_, ?_⟩
        · rw [f5]
          simp only [Nat.add_one_ne_zero, if_false]
          have : used e (if j = 0 then sub else {}) s'.sub = used e {} s'.sub := by
            split
            · exact used_clean_left _ _ _ h2
            · rfl
          rw [this]
          omega
        · rw [List.drop_drop, Nat.add_comm b K] at f10
          exact f10
        · rw [List.drop_drop, Nat.add_comm b K] at f11
          rw [show K + b - (k + b) = K - k by omega]
          exact f11
  · simp only at h1 h2 h3 h4 h5
    subst h1
    simp only
    obtain ⟨hle', hdrop⟩ := hrest.drop hg h4 (by omega) (fun h => used_atomic (hat h) _ _)
    refine .inr ⟨_, .inl rfl, h2, 0, 0, used e s.sub sub, [], v', n' - used e s.sub sub, rest, rfl, rfl, by simp, rfl,
      by simp, h3, by omega, hnum, hds, h5, ?_⟩
    rw [Nat.sub_zero]
    exact hdrop

theorem seqLoop_start {E : Env} {e : DMap} {S : Bytes} {depth : Nat} {num ds : Option Int} {term : Option Lit}
    (fuel : Nat) (he : Steps E e) (hg : Good e) (hnl : e.Every NoLoop) (hat : ds.isSome = true → Atomic e = true)
    (hrule : num.isSome = true ∨ term.isSome = true) :
    StartElems E e S depth num ds term fuel := by
  induction fuel with
  | zero => intro s rem ext fuel' vs u _ _ _ _ h; omega
  | succ fuel ih =>
    intro s rem ext fuel' vs u hc hsv hle hS hb hlast hp
    have hlen : rem.length = S.length - s.off + ext.length := by
      rw [← hS, List.length_append, List.length_drop]
    cases fuel' with
    | zero => cases hp
    | succ fuel' =>
      have hp0 := hp
      rw [seqParse] at hp
      by_cases hx : (atNumber num s.index || atDataSize ds s.dataOffset) = true
      · -- the number of elements or the data size is reached
        have hx' : (decide (rem.length ≤ 0) || atNumber num s.index || atDataSize ds s.dataOffset) = true := by
          rw [Bool.or_assoc, hx, Bool.or_true]
        rw [if_pos hx'] at hp
        obtain ⟨rfl, rfl⟩ := seqEnd_used hp
        left
        refine ⟨s, ?_, hp, by simp, by omega⟩
        rw [seqLoop]
        simp only [Bool.or_eq_true] at hx
        split
        · rfl
        · rcases hx with hx | hx
          · rw [if_pos hx]
          · split
            · rfl
            · rfl
      · simp only [Bool.or_eq_true, not_or, Bool.not_eq_true] at hx
        obtain ⟨hnum, hds⟩ := hx
        by_cases hl : S.length ≤ s.off
        · -- no bytes are left
          have hloop : seqLoop (fun off c => mapStream E e S off (depth + 1) c) S.length num ds term (fuel + 1) s =
              .done s := by
            rw [seqLoop, if_pos hl]
          rw [hloop]
          by_cases hr : rem.length ≤ 0
          · rw [if_pos (by simp [hr])] at hp
            obtain ⟨rfl, rfl⟩ := seqEnd_used hp
            exact .inl ⟨s, rfl, hp, by simp, by omega⟩
          · rw [if_neg (by simp only [hnum, hds, Bool.or_false, decide_eq_true_eq]; exact hr)] at hp
            have hend : seqEnd num ds term s.index s.dataOffset s.last = .error .tooSmall := by
              unfold seqEnd
              rcases hrule with h | h
              · rw [if_pos (by rw [h, hnum]; rfl)]
              · cases term with
                | none => cases h
                | some t =>
                  split
                  · rfl
                  · rw [if_pos]
                    simp only [atTerm] at hlast
                    simp only [hlast, hds]
                    rfl
            split at hp
            · cases hp
            rename_i v n hst
            split at hp
            · cases hp
            rename_i vs' u' hrest
            cases hp
            have hext : ext ≠ [] := by
              rintro rfl
              simp at hlen; omega
            have h0 : used e s.sub s.sub = 0 := used_clean_right e _ _ hc
            have hsr : SeqRest E e rem depth num ds term n (s.dataOffset + n) (s.index + 1) v vs' u := by
              split at hrest
              · rename_i ht; exact .inl ⟨ht, hrest⟩
              · rename_i ht
                refine .inr ⟨by simpa using ht, fuel', ?_⟩
                rw [Nat.zero_add] at hrest
                exact hrest
            refine .inr ⟨s, .inr ⟨rfl, hend⟩, hext, 0, 0, 0, [], v, n, vs', rfl, rfl, by simp, rfl, ?_, by omega, ?_,
              hnum, hds, .start hc hsv hst, hsr⟩
            · simp only [if_true, h0]
            · rcases hsr with ⟨-, h⟩ | ⟨-, f, h⟩
              · have := (seqEnd_used h).2; omega
              · have := seqParse_used h; omega
        · -- one more element
          rw [if_neg (by simp only [hnum, hds, Bool.or_false, decide_eq_true_eq]; omega)] at hp
          split at hp
          · cases hp
          rename_i v n hst
          split at hp
          · cases hp
          rename_i vs' u' hrest
          cases hp
          refine seqLoop_mid he hg hnl hat ih (by omega) hS hnum hds (.start hc hsv hst) hsv ?_ ?_
          · split at hrest
            · rename_i ht; exact .inl ⟨ht, hrest⟩
            · rename_i ht
              refine .inr ⟨by simpa using ht, fuel', ?_⟩
              rw [Nat.zero_add] at hrest
              exact hrest
          · intro ht
            by_cases hb' : seqBound S.length (s.off + n) num (s.index + 1) < seqBound S.length s.off num s.index
            · omega
            · exfalso
              have hn0 : n = 0 := by
                unfold seqBound at hb'
                omega
              subst hn0
              have hnum' : ∀ i, s.index ≤ i → atNumber num i = false := by
                intro i hi
                unfold atNumber
                split
                · rename_i k
                  simp only [seqBound, Option.getD_some] at hb'
                  simp only [atNumber, beq_eq_false_iff_ne] at hnum
                  simp only [beq_eq_false_iff_ne]
                  omega
                · rfl
              rw [seqParse_stuck _ _ num ds term 0 s.dataOffset v hst (by omega) hds ht (fuel' + 1) s.index s.last
                hnum'] at hp0
              cases hp0

theorem seqRules_dataSize {E : Env} {info : SeqInfo} {ei : ElemInfo} {ns : Namespace} {ds num : Option Int}
    {term : Option Lit} (h : (seqRules E info ei ns).1 = .ok (ds, term, num)) (hds : ds.isSome = true) :
    info.hasDataSize = true := by
  cases hd : info.hasDataSize with
  | true => rfl
  | false =>
    exfalso
    simp only [seqRules, hd, Bool.false_eq_true, if_false] at h
    revert h
    split
    · rename_i heq
      intro h; cases h
    · rename_i heq
      intro h
      split at h
      · cases h; cases hds
      · split at h
        · split at h
          · cases h
          · cases h; cases hds
        · cases h; cases hds

/-- From the loop over the elements to the sequence. -/
theorem steps_elems {E : Env} {h : Hdr} {info : SeqInfo} {ei : ElemInfo} {bsz : Option Int} {e : DMap}
    {depth : Nat} {ns : Namespace} {rem : Bytes} {c : Ctx} {n : Nat} {ds num : Option Int} {term : Option Lit}
    {vs : List Val} {ext S : Bytes} {soff : Nat}
    (hk : info.kind = .sequence) (hlin : seqLinear info ei = false) (hd : ¬ depth > 10)
    (hns : SameNs c.values ns) (hr : (seqRules E info ei ns).1 = .ok (ds, term, num))
    (hx : ElemsRes E e depth num ds term
      { off := soff, dataOffset := c.elementsDataOffset.getD 0, index := c.elementIndex.getD 0,
        last := .pyNone, values := c.mappedTuple.getD [], sub := c.sub.getD {} } rem ext (S.length - soff) vs
      (c.elementsDataOffset.getD 0 + n)
      (seqLoop (fun off c => mapStream E e S off (depth + 1) c) S.length num ds term
        (seqFuel S.length soff num (c.elementIndex.getD 0))
        { off := soff, dataOffset := c.elementsDataOffset.getD 0, index := c.elementIndex.getD 0,
          last := .pyNone, values := c.mappedTuple.getD [], sub := c.sub.getD {} })) :
    StepRes E (.seq h info ei bsz e) depth ns rem (.tuple (c.mappedTuple.getD [] ++ vs)) n ext (S.length - soff) c
      (mapStream E (.seq h info ei bsz e) S soff depth c) := by
  have hsame := mapStream_same E (.seq h info ei bsz e) S soff depth c
  have hnot : Atomic (.seq h info ei bsz e) = false := by simp only [Atomic, hk]; exact hlin
  have hr' := (seqRules_same E info ei hns).trans hr
  revert hsame
  rw [mapStream]
  simp only [hk, hlin, Bool.false_eq_true, if_false, compositeSeqMap, if_neg hd]
  generalize seqRules E info ei c.values = q at hr' ⊢
  obtain ⟨q, ns'⟩ := q
  simp only at hr'
  subst hr'
  simp only
  have hfin : ∀ s' : SeqSt,
      (seqEnd num ds term s'.index s'.dataOffset s'.last = .ok ([], s'.dataOffset) →
        (num.isSome && !atNumber num s'.index) = false ∧ termMissing term ds s' = false) ∧
      (seqEnd num ds term s'.index s'.dataOffset s'.last = .error .tooSmall →
        ((num.isSome && !atNumber num s'.index) || termMissing term ds s') = true) := by
    intro s'
    unfold seqEnd termMissing
    cases (num.isSome && !atNumber num s'.index)
    · cases term with
      | none => simp
      | some t => cases (!pyEq s'.last t && !atDataSize ds s'.dataOffset) <;> simp
    · simp
  generalize seqLoop (fun off c => mapStream E e S off (depth + 1) c) S.length num ds term
    (seqFuel S.length soff num (c.elementIndex.getD 0))
    { off := soff, dataOffset := c.elementsDataOffset.getD 0, index := c.elementIndex.getD 0,
      last := .pyNone, values := c.mappedTuple.getD [], sub := c.sub.getD {} } = out at hx ⊢
  rcases hx with ⟨s', rfl, e2, e3, e4⟩ |
    ⟨s', e1, e2, j, k, K, pre, v2, n2, rest2, f1, f2, f3, f4, f5, f6, f7, f8, f9, f10, f11⟩
  · obtain ⟨g1, g2⟩ := (hfin s').1 e2
    simp only [g1, g2, Bool.false_eq_true, if_false, e3]
    intro _
    refine .inl ⟨rfl, Ctx.clean_clear _, by simp only at e4; omega, _, rfl, ?_⟩
    intro hn
    have := hn.self
    simp only [NoLoop, hnot] at this
    cases this
  · simp only at f1 f2 f3 f5 f7
    have hgoal : ∀ r : Res, r = (.error .tooSmall, seqSave { c with byteSize := none, values := ns' } s' num ds) →
        SameNs r.2.values c.values →
        StepRes E (.seq h info ei bsz e) depth ns rem (.tuple (c.mappedTuple.getD [] ++ vs)) n ext
          (S.length - soff) c r := by
      rintro r rfl hsame
      have hU : used (.seq h info ei bsz e) c
          (seqSave { c with byteSize := none, values := ns' } s' num ds) = K := by
        simp only [used, hnot, Bool.false_eq_true, if_false, seqSave, Option.getD_some, f1, f2, f5]
        rw [Nat.add_sub_cancel_left]
        congr 1
        by_cases hj : j = 0
        · subst hj; simp
        · rw [if_neg hj, if_neg (by omega)]
      refine .inr ⟨rfl, e2, ?_⟩
      simp only
      rw [hU]
      refine ⟨f6, by omega, ?_⟩
      rw [f4, ← List.append_assoc, ← f3]
      refine .seq hk hlin hd (hsame.trans hns) hr rfl rfl rfl rfl f8 f9 f10 ?_
      rw [f1]
      rw [f1] at f11
      rw [show c.elementsDataOffset.getD 0 + k + (n - K) = c.elementsDataOffset.getD 0 + n - (K - k) by omega]
      exact f11
    rcases e1 with rfl | ⟨rfl, e1⟩
    · exact hgoal _ rfl
    · have := (hfin s').2 e1
      simp only
      intro hsame
      refine hgoal _ ?_ hsame
      rw [Bool.or_eq_true] at this
      rcases this with h1 | h1
      · rw [if_pos h1]
      · split
        · rfl
        · rfl

theorem steps_seq {E : Env} {h : Hdr} {info : SeqInfo} {ei : ElemInfo} {bsz : Option Int} {e : DMap}
    (ih : Steps E e) (hg : Good (.seq h info ei bsz e)) (hna : Atomic (.seq h info ei bsz e) = false) :
    Steps E (.seq h info ei bsz e) := by
  have hk : info.kind = .sequence := by
    cases hk : info.kind <;> simp [Atomic, hk] at hna ⊢
  have hlin : seqLinear info ei = false := by simpa [Atomic, hk] using hna
  have hg2 : Good e := by
    have := hg
    simp only [DMap.Every] at this
    exact this.2
  obtain ⟨hnl, hat⟩ : e.Every NoLoop ∧ (info.hasDataSize = true → Atomic e = true) :=
    hg.self.1.resolve_left (by rw [hna]; exact Bool.false_ne_true)
  intro S soff depth ns rem c v n ext hres hc hle hS
  cases hres with
  | start hcl hns hp =>
    rw [Ctx.clean_iff] at hcl
    obtain ⟨h1, h2, h3, h4, h5, h6, h7, h8, h9, h10⟩ := hcl
    rw [parse] at hp
    simp only [hk, hlin, Bool.false_eq_true, if_false, compositeSeqParse] at hp
    split at hp
    · cases hp
    rename_i hd
    split at hp
    · cases hp
    rename_i ds term num hr
    split at hp
    · cases hp
    rename_i vs n hp
    cases hp
    obtain ⟨hrule, hlast⟩ := seqRules_ok hr hg.self.2.2.1
    have := seqLoop_start (S := S) (depth := depth) (seqFuel S.length soff num (c.elementIndex.getD 0)) ih hg2 hnl
      (fun h => hat (seqRules_dataSize hr h)) hrule
      { off := soff, dataOffset := c.elementsDataOffset.getD 0, index := c.elementIndex.getD 0,
        last := .pyNone, values := c.mappedTuple.getD [], sub := c.sub.getD {} } rem ext
      (seqFuel rem.length 0 num 0) vs n
      (by rw [h2]; rfl) (by rw [h2]; exact SameNs.refl _) hle hS
      (by simp only [seqBound, seqFuel]; omega) hlast (by rw [h3, h4]; exact hp)
    have := steps_elems (h := h) (bsz := bsz) (n := n) hk hlin hd hns hr (by rw [h4] at this ⊢; simpa using this)
    rw [h6] at this
    exact this
  | atom ha => rw [hna] at ha; cases ha
  | seq hk' hlin' hd hns hr hi hvs hdu hs hnum hds he hrest =>
    rename_i i vs du sub ds num term v' n' rest
    have hc : soff < S.length := hc.resolve_left fun hcl => by
      rw [Ctx.clean_iff, hi] at hcl
      cases hcl.2.2.1
    obtain ⟨hrule, hlast⟩ := seqRules_ok hr hg.self.2.2.1
    have := seqLoop_mid (S := S) (depth := depth) (fuel := seqFuel S.length soff num i - 1) ih hg2 hnl
      (fun h => hat (seqRules_dataSize hr h))
      (seqLoop_start _ ih hg2 hnl (fun h => hat (seqRules_dataSize hr h)) hrule)
      (s := { off := soff, dataOffset := du, index := i, last := .pyNone, values := vs, sub := sub }) (ext := ext)
      hc hS hnum hds he he.same hrest (by
        intro _
        simp only [seqBound, seqFuel]
        omega)
    rw [show seqFuel S.length soff num i - 1 + 1 = seqFuel S.length soff num i by unfold seqFuel; omega] at this
    have := steps_elems (c := c) (h := h) (bsz := bsz) (n := n) hk hlin hd hns hr (by
      rw [hi, hvs, hdu, hs]
      exact this)
    rw [hvs] at this
    exact this

/-! ### Groups -/

/-- The end of StructureGroupMap.MapByteStream in the model. -/
def groupDone (ctx : Ctx) (r : Res) : Res :=
  match r with
  | (.error .tooSmall, sub) => (.error .tooSmall, { ctx with byteSize := none, sub := some sub })
  | (.error e, sub) =>
    (.error (wrapErr e), { ctx with byteSize := none, sub := ctx.sub.map fun _ => sub })
  | (.ok v, sub) => (.ok v, { ctx with byteSize := sub.byteSize }.clear)

/-- The part of StructureGroupMap.MapByteStream after the identifier is known, in the model. -/
def groupRest (E : Env) (dflt : Option DMap) (keys : List Lit) (maps : List DMap) (bs : Bytes) (off depth : Nat)
    (id : Val) (ctx : Ctx) : Res :=
  match groupIndex keys id with
  | some i =>
    if groupMapMissing maps[i]? then (.error .mapping, ctx)
    else groupDone ctx (mapNth E maps i bs off depth (ctx.sub.getD {}))
  | none =>
    if groupMapMissing dflt then (.error .mapping, ctx)
    else groupDone ctx (mapOpt E dflt bs off depth (ctx.sub.getD {}))

theorem mapStream_group_id (E : Env) (h : Hdr) (ident : String) (base : DMap) (dflt : Option DMap)
    (keys : List Lit) (maps : List DMap) (bs : Bytes) (off depth : Nat) (c : Ctx) (id : Val)
    (hid : c.memberIdentifier = some id) :
    mapStream E (.group h ident base dflt keys maps) bs off depth c =
      groupRest E dflt keys maps bs off depth id c := by
  cases c
  simp only at hid
  subst hid
  rw [mapStream]
  rfl

theorem groupRest_eq {E : Env} {dflt : Option DMap} {keys : List Lit} {maps : List DMap} {id : Val} {m : DMap}
    (ht : groupTarget keys maps dflt id = some m) (hmm : groupMapMissing (some m) = false)
    (bs : Bytes) (off depth : Nat) (ctx : Ctx) :
    groupRest E dflt keys maps bs off depth id ctx =
      groupDone ctx (mapStream E m bs off depth (ctx.sub.getD {})) := by
  unfold groupTarget at ht
  unfold groupRest
  cases hi : groupIndex keys id with
  | some i =>
    rw [hi] at ht
    simp only at ht ⊢
    rw [mapNth_eq, ht, if_neg (by rw [hmm]; exact Bool.false_ne_true)]
  | none =>
    rw [hi] at ht
    simp only at ht ⊢
    rw [ht, if_neg (by rw [hmm]; exact Bool.false_ne_true), mapOpt]

theorem used_group {h : Hdr} {ident : String} {base : DMap} {dflt : Option DMap} {keys : List Lit}
    {maps : List DMap} {id : Val} {m : DMap} (ht : groupTarget keys maps dflt id = some m) (c c' : Ctx)
    (hid : c'.memberIdentifier = some id) :
    used (.group h ident base dflt keys maps) c c' =
      used m (if c.memberIdentifier.isSome then c.sub.getD {} else {}) (c'.sub.getD {}) := by
  unfold groupTarget at ht
  simp only [used, hid]
  cases hi : groupIndex keys id with
  | some i =>
    rw [hi] at ht
    simp only at ht ⊢
    rw [usedNth_eq, ht]
  | none =>
    rw [hi] at ht
    simp only at ht ⊢
    rw [ht, usedOpt]

/-- What a successful parse of a group consists of. -/
theorem parse_group_ok {E : Env} {h : Hdr} {ident : String} {base : DMap} {dflt : Option DMap} {keys : List Lit}
    {maps : List DMap} {bs : Bytes} {off depth : Nat} {ns : Namespace} {v : Val} {n : Nat}
    (hp : parse E (.group h ident base dflt keys maps) bs off depth ns = .ok (v, n)) :
    ∃ bv k m, parse E base bs off depth [] = .ok (bv, k) ∧ getAttr bv ident ≠ .pyNone ∧
      groupTarget keys maps dflt (getAttr bv ident) = some m ∧ groupMapMissing (some m) = false ∧
      parse E m bs off depth [] = .ok (v, n) := by
  rw [parse] at hp
  split at hp
  · cases hp
  rename_i bv k hb
  split at hp
  · cases hp
  rename_i hid
  refine ⟨bv, k, ?_⟩
  unfold groupTarget
  split at hp
  · rename_i i hi
    split at hp
    · cases hp
    rename_i hmm
    split at hp
    · cases hp
    rename_i r hr
    cases hp
    rw [parseNth_eq] at hr
    simp only [hi]
    cases hm : maps[i]? with
    | none => rw [hm] at hmm; exact absurd rfl hmm
    | some m =>
      rw [hm] at hr hmm
      exact ⟨m, hb, hid, rfl, by simpa using hmm, hr⟩
  · rename_i hi
    split at hp
    · cases hp
    rename_i hmm
    split at hp
    · cases hp
    rename_i r hr
    cases hp
    simp only [hi]
    cases dflt with
    | none => exact absurd rfl hmm
    | some m =>
      rw [parseOpt] at hr
      exact ⟨m, hb, hid, rfl, by simpa using hmm, hr⟩

/-- The member of a group, begun or not. -/
theorem steps_target {E : Env} {h : Hdr} {ident : String} {base : DMap} {dflt : Option DMap} {keys : List Lit}
    {maps : List DMap} {S : Bytes} {soff depth : Nat} {ns : Namespace} {rem : Bytes} {c c1 : Ctx} {id v : Val}
    {n : Nat} {ext : Bytes} {m : DMap} (hm : Steps E m)
    (hnl : (DMap.group h ident base dflt keys maps).Every NoLoop → m.Every NoLoop)
    (hle : soff ≤ S.length) (hS : S.drop soff ++ ext = rem) (hns : SameNs c1.values ns)
    (hid : c1.memberIdentifier = some id) (ht : groupTarget keys maps dflt id = some m)
    (hmm : groupMapMissing (some m) = false) (hc : (c1.sub.getD {}).Clean ∨ soff < S.length)
    (hres : Resumes E m depth [] rem (c1.sub.getD {}) v n)
    (hU : ∀ x, used m (if c.memberIdentifier.isSome then c.sub.getD {} else {}) x = used m (c1.sub.getD {}) x) :
    StepRes E (.group h ident base dflt keys maps) depth ns rem v n ext (S.length - soff) c
      (groupRest E dflt keys maps S soff depth id c1) := by
  have hst := hm S soff depth [] rem (c1.sub.getD {}) v n ext hres hc hle hS
  rw [groupRest_eq ht hmm]
  generalize mapStream E m S soff depth (c1.sub.getD {}) = r at hst ⊢
  obtain ⟨r, sub⟩ := r
  rcases hst with ⟨h1, h2, h3, b, h4, h5⟩ | ⟨h1, h2, h3, h4, h5⟩
  · simp only at h1 h2 h3 h4 h5
    subst h1
    exact .inl ⟨rfl, Ctx.clean_clear _, h3, b, h4, fun hn => h5 (hnl hn)⟩
  · simp only at h1 h2 h3 h4 h5
    subst h1
    have hu : used (.group h ident base dflt keys maps) c { c1 with byteSize := none, sub := some sub } =
        used m (c1.sub.getD {}) sub :=
      (used_group ht c { c1 with byteSize := none, sub := some sub } hid).trans (hU sub)
    refine .inr ⟨rfl, h2, ?_⟩
    simp only [groupDone]
    rw [hu]
    exact ⟨h3, h4, .group hns hid rfl ht hmm h5⟩

theorem steps_group {E : Env} {h : Hdr} {ident : String} {base : DMap} {dflt : Option DMap} {keys : List Lit}
    {maps : List DMap} (ihd : ∀ m, dflt = some m → Steps E m) (ihm : ∀ m ∈ maps, Steps E m)
    (hg : Good (.group h ident base dflt keys maps)) : Steps E (.group h ident base dflt keys maps) := by
  have hba : Atomic base = true := hg.self.1
  have hgb : Good base := by
    have := hg
    simp only [DMap.Every] at this
    exact this.2.1
  have htm : ∀ id m, groupTarget keys maps dflt id = some m → Steps E m ∧
      ((DMap.group h ident base dflt keys maps).Every NoLoop → m.Every NoLoop) := by
    intro id m ht
    simp only [DMap.Every, everyMap_iff, everyOptMap_iff]
    unfold groupTarget at ht
    split at ht
    · exact ⟨ihm m (List.mem_of_getElem? ht), fun hn => hn.2.2.2 m (List.mem_of_getElem? ht)⟩
    · exact ⟨ihd m ht, fun hn => hn.2.2.1 m ht⟩
  intro S soff depth ns rem c v n ext hres hc hle hS
  -- the base has not been mapped
  have hbase : SameNs c.values ns → c.memberIdentifier = none → AtomReady E base (c.sub.getD {}) →
      SameNs (c.sub.getD {}).values [] →
      parse E (.group h ident base dflt keys maps) rem 0 depth ns = .ok (v, n) →
      StepRes E (.group h ident base dflt keys maps) depth ns rem v n ext (S.length - soff) c
        (mapStream E (.group h ident base dflt keys maps) S soff depth c) := by
    intro hns hid hb hbv hp
    obtain ⟨bv, k, m, hb1, hid1, ht, hmm, hp1⟩ := parse_group_ok hp
    have hst := atom_step E base hba S soff depth (c.sub.getD {}) hb
    rw [parse_same E base S soff depth hbv] at hst
    have hsame := (mapStream_same E base S soff depth (c.sub.getD {})).trans hbv
    rw [mapStream]
    simp only [hid]
    generalize mapStream E base S soff depth (c.sub.getD {}) = r at hst hsame ⊢
    obtain ⟨r, sub⟩ := r
    rcases hgb.prefix hle hS hb1 with ⟨g1, g2⟩ | ⟨g1, g2⟩
    · rw [g1] at hst
      obtain ⟨h1, h2, h3⟩ := hst
      simp only at h1 h3 hsame
      subst h1
      simp only
      have key : StepRes E (.group h ident base dflt keys maps) depth ns rem v n ext (S.length - soff) c
          (groupRest E dflt keys maps S soff depth (getAttr bv ident)
            { c with sub := c.sub.map fun _ => sub, memberIdentifier := some (getAttr bv ident) }) := by
        have hcl : (Option.getD (c.sub.map fun _ => sub) {}).Clean := by
          cases c.sub with
          | none => exact Ctx.clean_fresh []
          | some x => exact h3
        obtain ⟨hm, hnl⟩ := htm _ m ht
        refine steps_target hm hnl hle hS hns rfl ht hmm (.inl hcl) (.start hcl ?_ hp1) ?_
        · simp only
          cases c.sub with
          | none => exact SameNs.refl _
          | some x => exact hsame
        · intro x
          rw [hid]
          exact (used_clean_left m _ x hcl).symm
      generalize getAttr bv ident = id at hid1 key ⊢
      cases id <;> first | exact absurd rfl hid1 | exact key
    · rw [g1] at hst
      obtain ⟨h1, h2⟩ := hst
      simp only at h1 h2 hsame
      subst h1
      have hu : used (.group h ident base dflt keys maps) c
          { c with sub := some sub, memberIdentifier := none } = 0 := by
        simp only [used]
      refine .inr ⟨rfl, g2, ?_⟩
      simp only
      rw [hu]
      exact ⟨by omega, by omega, .base hns rfl rfl (h2 trivial) hsame hp⟩
  cases hres with
  | start hcl hns hp =>
    have hcl' := hcl
    rw [Ctx.clean_iff] at hcl'
    obtain ⟨h1, h2, h3, h4, h5, h6, h7, h8, h9, h10⟩ := hcl'
    refine hbase hns h10 ?_ ?_ hp
    · rw [h2]; exact AtomReady.of_clean _ (Ctx.clean_fresh [])
    · rw [h2]; exact SameNs.refl _
  | atom ha => cases ha
  | base hns hid hs hb hbv hp =>
    refine hbase hns hid ?_ ?_ hp
    · rw [hs]; exact hb
    · rw [hs]; exact hbv
  | group hns hid hs ht hmm hm =>
    have hlt : soff < S.length := hc.resolve_left fun hcl => by
      rw [Ctx.clean_iff, hid] at hcl
      simp at hcl
    obtain ⟨hm', hnl⟩ := htm _ _ ht
    rw [mapStream_group_id _ _ _ _ _ _ _ _ _ _ _ _ hid]
    refine steps_target hm' hnl hle hS hns hid ht hmm (.inr hlt) ?_ ?_
    · rw [hs]; exact hm
    · intro x; rw [hid]; rfl

/-! ### The theorem -/

theorem steps (E : Env) (m : DMap) (hg : Good m) : Steps E m := by
  have hatom : ∀ m, Good m → Atomic m = true → Steps E m := by
    intro m hg ha S soff depth ns rem c v n ext hres hc hle hS
    cases hres with
    | start hcl hns hp => exact steps_atom hg ha (AtomReady.of_clean _ hcl) hns hp hle hS
    | atom _ hr hns hp => exact steps_atom hg ha hr hns hp hle hS
    | struct => cases ha
    | seq hk hlin => simp only [Atomic, hk, hlin] at ha; cases ha
    | base => cases ha
    | group => cases ha
  induction m using DMap.ind with
  | seq h info ei bsz e ih =>
    cases hna : Atomic (.seq h info ei bsz e) with
    | true => exact hatom _ hg hna
    | false =>
      refine steps_seq (ih ?_) hg hna
      have := hg
      simp only [DMap.Every] at this
      exact this.2
  | struct h bsz l io infos maps ih =>
    cases l with
    | true => exact hatom _ hg rfl
    | false =>
      refine steps_struct (fun m hm => ih m hm ?_) hg
      have := hg
      simp only [DMap.Every, everyMap_iff] at this
      exact this.2 m hm
  | group h ident base dflt keys maps ih1 ih2 ih3 =>
    have := hg
    simp only [DMap.Every, everyMap_iff, everyOptMap_iff] at this
    exact steps_group (fun m hm => ih2 m hm (this.2.2.1 m hm)) (fun m hm => ih3 m hm (this.2.2.2 m hm)) hg
  | prim h k s u => exact hatom _ hg rfl
  | uuid h s u => exact hatom _ hg rfl
  | padding h a => exact hg.self.1.elim
  | _ =>
    intro S soff depth ns rem c v n ext hres
    cases hres with
    | start _ _ hp => rw [parse] at hp; cases hp
    | atom ha => cases ha

end Dtf
