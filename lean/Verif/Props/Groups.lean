import Verif.Hint
import Verif.Props.Structures
import Verif.Fold
import Verif.PyLemmas
/-!
# Properties C33 and C34: structure groups, semantic and format types
-/
namespace Dtf

namespace Spec

/-- The values of the member named `ident` of a structure (or union) `g`. -/
def IdentifierValues (ident : String) (g : Defn) (vs : List Lit) : Prop :=
  ∃ h ms mh target cond dt, (g = .struct h ms ∨ g = .union h ms) ∧
    ms.find? (·.name == ident) = some (.member mh target cond dt (some vs))

/-- `r` is what a caller sees of the call `r'` it passes on: the same value, the
same ByteStreamTooSmallError, and MappingError in place of any other exception.
(`diverge` is no exception but a call that does not return; `other` marks
behaviour outside the model.) -/
def PassedOn (r r' : Res) : Prop :=
  (∀ v, r.1 = .ok v ↔ r'.1 = .ok v) ∧
  (∀ v, r.1 = .ok v → r.2.byteSize = r'.2.byteSize) ∧
  (r.1 = .error .tooSmall ↔ r'.1 = .error .tooSmall) ∧
  (∀ e, r'.1 = .error e → e ≠ .tooSmall → e ≠ .diverge → e ≠ .other → r.1 = .error .mapping)

/-- Two identifier values at different places of a group: of different members, or
at different positions of the same member. -/
def DifferentPlaces (ident : String) (ms : List Defn) (v w : Lit) : Prop :=
  ∃ (i j : Nat) (g g' : Defn) (vs ws : List Lit) (p q : Nat), ms[i]? = some g ∧ ms[j]? = some g' ∧ IdentifierValues ident g vs ∧
    IdentifierValues ident g' ws ∧ vs[p]? = some v ∧ ws[q]? = some w ∧ (i ≠ j ∨ p ≠ q)

end Spec
open Spec

/-! ### The dictionary of a group map -/

theorem groupValues_iff {ident : String} {g : Defn} {vs : List Lit} :
    groupValues ident g = .ok vs ↔ IdentifierValues ident g vs := by
  unfold groupValues IdentifierValues
  constructor
  · intro h
    cases g <;> simp only [memberByName, reduceCtorEq] at h
    all_goals
      rename_i hd ms
      split at h <;> try cases h
      rename_i hm
      injection hm with hm
      exact ⟨hd, ms, _, _, _, _, by simp, hm⟩
  · rintro ⟨h, ms, mh, t, c, dt, hg | hg, hf⟩ <;> subst hg <;> simp [memberByName, hf]

/-- Every value of the first list is at a place of its own in the dictionary. -/
theorem addKeys_spec {keys vs ks : List Lit} (h : addKeys keys vs = .ok ks)
    (hk : keys.Pairwise (litEq · · = false)) :
    ks = keys ++ vs ∧ ks.Pairwise (litEq · · = false) := by
  induction vs generalizing keys with
  | nil => simp [addKeys] at h; subst h; simpa using hk
  | cons v vs ih =>
    rw [addKeys] at h
    split at h
    · cases h
    split at h
    · cases h
    rename_i hany
    have := ih h (by
      rw [List.pairwise_append]
      refine ⟨hk, by simp, ?_⟩
      intro a ha b hb
      simp only [List.mem_singleton] at hb
      subst hb
      simp only [List.any_eq_true, not_exists, not_and, Bool.not_eq_true] at hany
      exact hany a ha)
    simpa using this

/-- The values of all members, in order. -/
def allValues (E : Env) (ident : String) : List Defn → List (Lit × DMap) → Prop
  | [], r => r = []
  | g :: gs, r => ∃ vs rest, IdentifierValues ident g vs ∧ allValues E ident gs rest ∧
      (vs ≠ [] → ∃ m, createMap E g = .ok m ∧ r = vs.map (·, m) ++ rest) ∧ (vs = [] → r = rest)

theorem createGroup_spec {E : Env} {ident : String} {ms : List Defn} {keys ks : List Lit}
    {maps : List DMap} (h : createGroup E ident keys ms = .ok (ks, maps))
    (hk : keys.Pairwise (litEq · · = false)) :
    ∃ r : List (Lit × DMap), allValues E ident ms r ∧ ks = keys ++ r.map (·.1) ∧ maps = r.map (·.2) ∧
      ks.Pairwise (litEq · · = false) := by
  induction ms generalizing keys ks maps with
  | nil =>
    simp [createGroup] at h
    obtain ⟨rfl, rfl⟩ := h
    exact ⟨[], rfl, by simp, rfl, hk⟩
  | cons g gs ih =>
    rw [createGroup] at h
    split at h
    · cases h
    · rename_i hv
      obtain ⟨r, h1, h2, h3, h4⟩ := ih h hk
      exact ⟨r, ⟨[], r, groupValues_iff.1 hv, h1, by simp, by simp⟩, h2, h3, h4⟩
    rename_i v vs hv
    split at h
    · cases h
    split at h
    · cases h
    rename_i m hm
    split at h
    · cases h
    rename_i keys' hks
    split at h
    · cases h
    rename_i ks' maps' hr
    simp only [Except.ok.injEq, Prod.mk.injEq] at h
    obtain ⟨rfl, rfl⟩ := h
    obtain ⟨h5, h6⟩ := addKeys_spec hks hk
    obtain ⟨r, h1, h2, h3, h4⟩ := ih hr h6
    refine ⟨(v :: vs).map (·, m) ++ r, ⟨v :: vs, r, groupValues_iff.1 hv, h1,
      fun _ => ⟨m, hm, rfl⟩, by simp⟩, ?_, ?_, h4⟩
    · rw [h2, h5]; simp [Function.comp_def]
    · rw [h3]; simp [List.replicate_succ, Function.comp_def, List.map_const']

theorem allValues_mem {E : Env} {ident : String} {ms : List Defn} {r : List (Lit × DMap)}
    (h : allValues E ident ms r) {g : Defn} (hg : g ∈ ms) {vs : List Lit}
    (hvs : IdentifierValues ident g vs) {v : Lit} (hv : v ∈ vs) :
    ∃ m, createMap E g = .ok m ∧ (v, m) ∈ r := by
  induction ms generalizing r with
  | nil => cases hg
  | cons g' gs ih =>
    obtain ⟨ws, rest, hws, hrest, h1, h2⟩ := h
    rcases List.mem_cons.1 hg with rfl | hg
    · have : vs = ws := by
        have e1 := groupValues_iff.2 hvs
        have e2 := groupValues_iff.2 hws
        rw [e1] at e2
        injection e2
      subst this
      obtain ⟨m, hm, hr⟩ := h1 (by intro h; subst h; cases hv)
      exact ⟨m, hm, by subst hr; simp [hv]⟩
    · obtain ⟨m, hm, hr⟩ := ih hrest hg
      refine ⟨m, hm, ?_⟩
      by_cases hw : ws = []
      · rw [h2 hw]; exact hr
      · obtain ⟨m', -, h⟩ := h1 hw
        rw [h]; simp [hr]

theorem allValues_of_mem {E : Env} {ident : String} {ms : List Defn} {r : List (Lit × DMap)}
    (h : allValues E ident ms r) {v : Lit} {m : DMap} (hv : (v, m) ∈ r) :
    ∃ g ∈ ms, ∃ vs, IdentifierValues ident g vs ∧ v ∈ vs ∧ createMap E g = .ok m := by
  induction ms generalizing r with
  | nil => cases h; cases hv
  | cons g gs ih =>
    obtain ⟨ws, rest, hws, hrest, h1, h2⟩ := h
    have tail : (v, m) ∈ rest → ∃ g' ∈ g :: gs, ∃ vs, IdentifierValues ident g' vs ∧ v ∈ vs ∧
        createMap E g' = .ok m := fun hm => by
      obtain ⟨g', hg', x⟩ := ih hrest hm
      exact ⟨g', List.mem_cons_of_mem _ hg', x⟩
    by_cases hw : ws = []
    · rw [h2 hw] at hv; exact tail hv
    · obtain ⟨m', hm', hr⟩ := h1 hw
      rw [hr, List.mem_append] at hv
      rcases hv with hv | hv
      · simp only [List.mem_map, Prod.mk.injEq] at hv
        obtain ⟨a, ha, rfl, rfl⟩ := hv
        exact ⟨g, List.mem_cons_self, ws, hws, ha, hm'⟩
      · exact tail hv

theorem litEq_ff_symm {a b : Lit} (h : litEq a b = false) : litEq b a = false := by
  cases hb : litEq b a
  · rfl
  · rw [litEq_symm hb] at h; cases h

theorem pairwise_get {l : List Lit} (h : l.Pairwise (litEq · · = false)) {p q : Nat} {v w : Lit}
    (hp : l[p]? = some v) (hq : l[q]? = some w) (hpq : p ≠ q) : litEq v w = false := by
  rw [List.pairwise_iff_getElem] at h
  obtain ⟨hp', rfl⟩ := List.getElem?_eq_some_iff.1 hp
  obtain ⟨hq', rfl⟩ := List.getElem?_eq_some_iff.1 hq
  rcases Nat.lt_or_gt_of_ne hpq with hlt | hlt
  · exact h p q hp' hq' hlt
  · exact litEq_ff_symm (h q p hq' hp' hlt)

theorem Spec.IdentifierValues.unique {ident : String} {g : Defn} {vs ws : List Lit}
    (h1 : IdentifierValues ident g vs) (h2 : IdentifierValues ident g ws) : vs = ws := by
  have e1 := groupValues_iff.2 h1
  rw [groupValues_iff.2 h2] at e1
  injection e1 with e1
  exact e1.symm

theorem allValues_distinct {E : Env} {ident : String} {ms : List Defn} {r : List (Lit × DMap)}
    (h : allValues E ident ms r) (hp : (r.map (·.1)).Pairwise (litEq · · = false)) {v w : Lit}
    (hd : DifferentPlaces ident ms v w) : litEq v w = false := by
  induction ms generalizing r with
  | nil => obtain ⟨i, j, g, g', vs, ws, p, q, h1, -⟩ := hd; simp at h1
  | cons g0 gs ih =>
    obtain ⟨us, rest, hus, hrest, h1, h2⟩ := h
    have hr : r.map (·.1) = us ++ rest.map (·.1) := by
      by_cases hw : us = []
      · rw [h2 hw, hw]; simp
      · obtain ⟨m', -, hr⟩ := h1 hw
        rw [hr]; simp [Function.comp_def]
    rw [hr, List.pairwise_append] at hp
    have later : ∀ {j : Nat} {g' : Defn} {ws : List Lit} {q : Nat} {w : Lit}, gs[j]? = some g' →
        IdentifierValues ident g' ws → ws[q]? = some w → w ∈ rest.map (·.1) := by
      intro j g' ws q w hj hws hq
      obtain ⟨m, -, hm⟩ := allValues_mem hrest (List.mem_of_getElem? hj) hws (List.mem_of_getElem? hq)
      exact List.mem_map.2 ⟨_, hm, rfl⟩
    obtain ⟨i, j, g, g', vs, ws, p, q, hi, hj, hvs, hws, hpv, hqw, hne⟩ := hd
    cases i with
    | zero =>
      simp only [List.getElem?_cons_zero, Option.some.injEq] at hi
      subst hi
      have := hvs.unique hus; subst this
      cases j with
      | zero =>
        simp only [List.getElem?_cons_zero, Option.some.injEq] at hj
        subst hj
        have := hws.unique hus; subst this
        exact pairwise_get hp.1 hpv hqw (by omega)
      | succ j =>
        simp only [List.getElem?_cons_succ] at hj
        exact hp.2.2 v (List.mem_of_getElem? hpv) w (later hj hws hqw)
    | succ i =>
      simp only [List.getElem?_cons_succ] at hi
      cases j with
      | zero =>
        simp only [List.getElem?_cons_zero, Option.some.injEq] at hj
        subst hj
        have := hws.unique hus; subst this
        exact litEq_ff_symm (hp.2.2 w (List.mem_of_getElem? hqw) v (later hi hvs hpv))
      | succ j =>
        simp only [List.getElem?_cons_succ] at hj
        exact ih hrest hp.2.1 ⟨i, j, g, g', vs, ws, p, q, hi, hj, hvs, hws, hpv, hqw, by omega⟩

theorem createMap_group {E : Env} {h : Hdr} {base : Defn} {ident : String} {dflt : Option Defn}
    {ms : List Defn} {m : DMap} (hm : createMap E (.group h base ident dflt ms) = .ok m) :
    ∃ bm dm r, createMap E base = .ok bm ∧ createOpt E dflt = .ok dm ∧
      allValues E ident ms r ∧ (r.map (·.1)).Pairwise (litEq · · = false) ∧
      m = .group h ident bm dm (r.map (·.1)) (r.map (·.2)) := by
  obtain ⟨dm, bm, keys, maps, h1, h2, -, h3, h4⟩ := createAs_group hm
  obtain ⟨r, h5, h6, h7, h8⟩ := createGroup_spec h3 List.Pairwise.nil
  simp only [List.nil_append] at h6
  subst h6 h7
  refine ⟨bm, dm, r, h2, h1, h5, h8, ?_⟩
  rw [h4]
  simp [Defn.name, Defn.hdr, Defn.orderOrNative, Defn.order?]

/-! ### C33: dispatch -/

/-- What a group does once the base structure is mapped, given the map `gm` that
is used. -/
theorem passedOn_of_parse {E : Env} {m gm : DMap} {bs : Bytes} {off depth : Nat} {c : Ctx}
    (hc : c.Clean) (h : parse E m bs off depth c.values =
      match parse E gm bs off depth [] with
      | .error e => .error (wrapErr e)
      | .ok r => .ok r) :
    PassedOn (mapStream E m bs off depth c) (mapStream E gm bs off depth {}) := by
  have hf := Ctx.clean_fresh []
  have ok : ∀ v, (mapStream E m bs off depth c).1 = .ok v ↔ (mapStream E gm bs off depth {}).1 = .ok v := by
    intro v
    constructor
    · intro hv
      obtain ⟨n, hp, -⟩ := mapStream_ok hc hv
      rw [h] at hp
      split at hp
      · cases hp
      rename_i r hr
      injection hp with hp; subst hp
      exact (mapStream_of_parse hf hr).1
    · intro hv
      obtain ⟨n, hp, -⟩ := mapStream_ok hf hv
      rw [hp] at h
      exact (mapStream_of_parse hc h).1
  refine ⟨ok, ?_, ?_, ?_⟩
  · intro v hv
    obtain ⟨n, hp, hb⟩ := mapStream_ok hc hv
    rw [h] at hp
    split at hp
    · cases hp
    rename_i r hr
    injection hp with hp; subst hp
    rw [hb, (mapStream_of_parse hf hr).2]
  · rw [mapStream_error hc, mapStream_error hf, h]
    rcases parse E gm bs off depth [] with e | r
    · cases e <;> simp [wrapErr]
    · simp
  · intro e he h1 h2 h3
    rw [mapStream_error hf] at he
    rw [mapStream_error hc, h, he]
    cases e <;> simp_all [wrapErr]

/-- A structure group maps the base structure at the same place. If that fails,
ByteStreamTooSmallError is passed on and anything else becomes MappingError; if
the object has no identifier, the group raises MappingError. If a member has an
identifier value equal to the identifier read, the result is that of this member,
mapped at the same place. If there is no such member, the result is that of the
default structure, or MappingError if the group has none. -/
theorem C33_dispatch (E : Env) (h : Hdr) (base : Defn) (ident : String) (dflt : Option Defn)
    (ms : List Defn) (m : DMap) (hm : createMap E (.group h base ident dflt ms) = .ok m)
    (bs : Bytes) (off depth : Nat) (c : Ctx) (hc : c.Clean) :
    ∃ bm, createMap E base = .ok bm ∧
      ((mapStream E bm bs off depth {}).1 = .error .tooSmall →
        (mapStream E m bs off depth c).1 = .error .tooSmall) ∧
      (∀ e, (mapStream E bm bs off depth {}).1 = .error e → e ≠ .tooSmall → e ≠ .diverge →
        e ≠ .other → (mapStream E m bs off depth c).1 = .error .mapping) ∧
      ∀ bv, (mapStream E bm bs off depth {}).1 = .ok bv →
        (getAttr bv ident = .pyNone → (mapStream E m bs off depth c).1 = .error .mapping) ∧
        (getAttr bv ident ≠ .pyNone →
          (∀ g ∈ ms, ∀ vs, IdentifierValues ident g vs → ∀ v ∈ vs, Equals (getAttr bv ident) v →
            ∃ gm, createMap E g = .ok gm ∧
              PassedOn (mapStream E m bs off depth c) (mapStream E gm bs off depth {})) ∧
          ((∀ g ∈ ms, ∀ vs, IdentifierValues ident g vs → ∀ v ∈ vs,
              ¬ Equals (getAttr bv ident) v) →
            match dflt with
            | none => (mapStream E m bs off depth c).1 = .error .mapping
            | some d => ∃ dm, createMap E d = .ok dm ∧
                PassedOn (mapStream E m bs off depth c) (mapStream E dm bs off depth {}))) := by
  simp only [← pyEq_iff, Bool.not_eq_true]
  obtain ⟨bm, dm, r, hbm, hdm, hr, hpw, rfl⟩ := createMap_group hm
  have hf := Ctx.clean_fresh []
  refine ⟨bm, hbm, ?_, ?_, ?_⟩
  · rw [mapStream_error hf, mapStream_error hc]
    intro he
    rw [parse, he]
    rfl
  · intro e he h1 h2 h3
    rw [mapStream_error hf] at he
    rw [mapStream_error hc, parse, he]
    cases e <;> simp_all [wrapErr]
  intro bv hbv
  obtain ⟨n, hbp, -⟩ := mapStream_ok hf hbv
  have hbp : parse E bm bs off depth [] = .ok (bv, n) := hbp
  refine ⟨?_, ?_⟩
  · intro hn
    rw [mapStream_error hc, parse, hbp]
    simp [hn]
  intro hn
  -- the code after the base structure has been mapped
  have hp : parse E (.group h ident bm dm (r.map (·.1)) (r.map (·.2))) bs off depth c.values =
      match groupIndex (r.map (·.1)) (getAttr bv ident) with
        | some i =>
          if groupMapMissing (r.map (·.2))[i]? then .error .mapping
          else
            match parseNth E (r.map (·.2)) i bs off depth with
            | .error e => .error (wrapErr e)
            | .ok r => .ok r
        | none =>
          if groupMapMissing dm then .error .mapping
          else
            match parseOpt E dm bs off depth with
            | .error e => .error (wrapErr e)
            | .ok r => .ok r := by
    rw [parse, hbp]
    show (match getAttr bv ident with | .pyNone => _ | id => _) = _
    clear hbp hbv
    generalize getAttr bv ident = x at hn ⊢
    cases x <;> first | contradiction | rfl
  refine ⟨?_, ?_⟩
  · intro g hg vs hvs v hv heq
    obtain ⟨gm, hgm, hmem⟩ := allValues_mem hr hg hvs hv
    refine ⟨gm, hgm, passedOn_of_parse hc ?_⟩
    obtain ⟨j, hj⟩ := List.getElem?_of_mem hmem
    have hidx : groupIndex (r.map (·.1)) (getAttr bv ident) = some j := by
      unfold groupIndex
      rw [List.findIdx?_eq_some_iff_getElem]
      obtain ⟨hjl, hj'⟩ := List.getElem?_eq_some_iff.1 hj
      refine ⟨by simpa using hjl, by simp [hj', heq], ?_⟩
      intro k hk
      simp only [List.getElem_map, Bool.not_eq_true]
      cases hke : pyEq (getAttr bv ident) (r[k]'(by omega)).1
      · rfl
      · have e1 := litEq_of_pyEq hke heq
        have e2 : litEq (r[k]'(by omega)).1 v = false :=
          pairwise_get hpw (p := k) (q := j) (by simp [List.getElem?_eq_getElem (by omega : k < r.length)])
            (by simp [hj]) (by omega)
        rw [e1] at e2; cases e2
    rw [hp, hidx]
    have hmj : (r.map (·.2))[j]? = some gm := by simp [hj]
    simp only [parseNth_eq, hmj]
    cases gm <;> simp [groupMapMissing, parse, wrapErr]
  · intro hnone
    have hidx : groupIndex (r.map (·.1)) (getAttr bv ident) = none := by
      unfold groupIndex
      rw [List.findIdx?_eq_none_iff]
      intro v hv
      obtain ⟨⟨v', m'⟩, hmem, rfl⟩ := List.mem_map.1 hv
      obtain ⟨g, hg, vs, hvs, hv', -⟩ := allValues_of_mem hr hmem
      exact hnone g hg vs hvs _ hv'
    rw [hidx] at hp
    cases dflt with
    | none =>
      simp only [createOpt, Except.ok.injEq] at hdm
      subst hdm
      rw [mapStream_error hc, hp]
      simp [groupMapMissing]
    | some d =>
      rw [createOpt] at hdm
      split at hdm
      · cases hdm
      rename_i dm' hdm'
      injection hdm with hdm
      subst hdm
      refine ⟨dm', hdm', passedOn_of_parse hc ?_⟩
      rw [hp]
      simp only [parseOpt]
      cases dm' <;> simp [groupMapMissing, parse, wrapErr]

/-- In a group that has a map, identifier values at different places differ, so
that at most one of them equals an identifier. -/
theorem C33_unique (E : Env) (h : Hdr) (base : Defn) (ident : String) (dflt : Option Defn)
    (ms : List Defn) (m : DMap) (hm : createMap E (.group h base ident dflt ms) = .ok m)
    (v w : Lit) (hd : DifferentPlaces ident ms v w) :
    ¬ Alike v w ∧ ∀ id : Val, ¬ (Equals id v ∧ Equals id w) := by
  simp only [← pyEq_iff, ← litEq_iff, Bool.not_eq_true]
  obtain ⟨bm, dm, r, hbm, hdm, hr, hpw, rfl⟩ := createMap_group hm
  have := allValues_distinct hr hpw hd
  refine ⟨this, ?_⟩
  rintro id ⟨h1, h2⟩
  rw [litEq_of_pyEq h1 h2] at this
  cases this

/-- A group with the same identifier value at two places is refused. -/
theorem C33_duplicates (E : Env) (h : Hdr) (base : Defn) (ident : String) (dflt : Option Defn)
    (ms : List Defn) (v w : Lit) (hd : DifferentPlaces ident ms v w) (heq : Alike v w) :
    ∃ e, createMap E (.group h base ident dflt ms) = .error e := by
  cases hm : createMap E (.group h base ident dflt ms) with
  | error e => exact ⟨e, rfl⟩
  | ok m =>
    have := (C33_unique E h base ident dflt ms m hm v w hd).1
    exact absurd heq this

/-- A member of a structure with supported values. -/
def exMem (n : String) (d : Defn) (vs : Option (List Lit)) : Defn :=
  .member { name := n } d none (some d.name) vs

def exBase : Defn := .struct { name := "base" } [exMem "kind" exU8 none]
def exOne : Defn := .struct { name := "one" } [exMem "kind" exU8 (some [.int 1, .int 2]), exMem "x" exU8 none]
def exTwo : Defn := .struct { name := "two" } [exMem "kind" exU8 (some [.int 3]), exMem "y" exU16 none]
def exDef : Defn := .struct { name := "def" } [exMem "kind" exU8 none]
def exGroup (d : Option Defn) (ms : List Defn) : Defn := .group { name := "g" } exBase "kind" d ms

/-- Identifier 3 selects the second member, 9 the default or nothing. -/
example : ∃ m m', createMap exEnv (exGroup (some exDef) [exOne, exTwo]) = .ok m ∧
    createMap exEnv (exGroup none [exOne, exTwo]) = .ok m' ∧
    (mapStream exEnv m [3, 1, 2] 0 0 {}).1 = .ok (.struct "two" [("kind", .int 3), ("y", .int 513)]) ∧
    (mapStream exEnv m [2, 1, 2] 0 0 {}).1 = .ok (.struct "one" [("kind", .int 2), ("x", .int 1)]) ∧
    (mapStream exEnv m [9, 1, 2] 0 0 {}).1 = .ok (.struct "def" [("kind", .int 9)]) ∧
    (mapStream exEnv m' [9, 1, 2] 0 0 {}).1 = .error .mapping ∧
    (mapStream exEnv m [3, 1] 0 0 {}).1 = .error .tooSmall :=
  ⟨_, _, rfl, rfl, rfl, rfl, rfl, rfl, rfl⟩

example : createMap exEnv (exGroup none [exOne, exTwo, exOne]) = .error .format := rfl
example : DifferentPlaces "kind" [exOne, exTwo, exOne] (.int 2) (.int 2) :=
  ⟨0, 2, exOne, exOne, [.int 1, .int 2], [.int 1, .int 2], 1, 1, rfl, rfl,
    ⟨_, _, _, _, _, _, .inl rfl, rfl⟩, ⟨_, _, _, _, _, _, .inl rfl, rfl⟩, rfl, rfl, by simp⟩

/-! ### C34: types that are never mapped -/

/-- A constant, enumeration or format always has a map. Mapping with it raises
MappingError and folding with it raises FoldingError, whatever the stream, the
offset, the depth, the context and the value. Its size hint is None. -/
theorem C34_refused (E : Env) (d : Defn)
    (hd : (∃ h v, d = .constant h v) ∨ (∃ h vs, d = .enumeration h vs) ∨ ∃ h o ms, d = .format h o ms) :
    ∃ m, createMap E d = .ok m ∧
      (∀ bs off depth c, (mapStream E m bs off depth c).1 = .error .mapping) ∧
      (∀ v ns, fold E m v ns = .error .folding) ∧
      ∀ off c, sizeHint E m off c = .ok none := by
  rcases hd with ⟨h, v, rfl⟩ | ⟨h, vs, rfl⟩ | ⟨h, o, ms, rfl⟩
  all_goals exact ⟨_, by rw [createMap, createAs], fun bs off depth c => by rw [mapStream],
    fun v ns => by rw [fold], fun off c => by rw [sizeHint]⟩

/-- Folding with the map of a structure group raises FoldingError. -/
theorem C34_group (E : Env) (h : Hdr) (base : Defn) (ident : String) (dflt : Option Defn)
    (ms : List Defn) (m : DMap) (hm : createMap E (.group h base ident dflt ms) = .ok m)
    (v : Val) (ns : Namespace) : fold E m v ns = .error .folding := by
  obtain ⟨bm, dm, r, hbm, hdm, hr, hpw, rfl⟩ := createMap_group hm
  rw [fold]

example : ∃ m, createMap exEnv (.constant { name := "C" } (.int 3)) = .ok m ∧
    (mapStream exEnv m [3, 0, 0, 0] 0 0 {}).1 = .error .mapping := ⟨_, rfl, rfl⟩

example : ∃ m, createMap exEnv (exGroup none [exOne, exTwo]) = .ok m ∧
    fold exEnv m (.struct "two" [("kind", .int 3), ("y", .int 513)]) [] = .error .folding := ⟨_, rfl, rfl⟩

end Dtf
