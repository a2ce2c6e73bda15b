import Verif.Registry
import Verif.Props.Groups
/-!
# Properties C36 and C38–C40: the registry
-/
namespace Dtf

namespace Spec

/-- A call that deregisters the definition with the lower-case name `n`. -/
def removes (E : Env) (n : String) : RegOp → Bool
  | .register _ => false
  | .deregister d => E.lower d.name == n

/-- The definitions of the RegisterDefinition calls of a history that were accepted
and are not followed by a call that deregisters a definition of that name, in
order. `r` is the registry at the start. -/
def registered (E : Env) (r : Registry) : List RegOp → List Defn
  | [] => []
  | .deregister d :: ops => registered E (r.deregister E d).2 ops
  | .register d :: ops =>
    (if (r.register E d).1 matches .ok _ ∧ ops.any (removes E (E.lower d.name)) = false
      then [d] else []) ++ registered E (r.register E d).2 ops

/-- The kind of map that a kind of definition has; unions and structure families
have none. -/
def KindOf : Defn → DMap → Prop
  | .prim _ k s u, .prim _ k' s' u' => k' = k ∧ s' = s ∧ u' = u
  | .uuid _ _ _, .uuid _ _ _ | .padding _ _, .padding _ _ => True
  | .seq _ i _, .seq _ i' _ _ _ => i' = i
  | .struct _ ms, .struct _ _ _ _ infos _ => infos.map (·.name) = ms.map (·.name)
  | .constant _ _, .constant _ => True
  | .enumeration _ vs, .enumeration _ vs' => vs' = vs
  | .format _ _ l, .format _ l' => l' = l
  | .group _ _ i _ _, .group _ i' _ _ _ _ => i' = i
  | _, _ => False

end Spec
open Spec

/-! ### Dictionaries -/

theorem dictHas_iff {α : Type} {l : List (String × α)} {k : String} :
    dictHas l k = true ↔ ∃ v, (k, v) ∈ l := by
  simp [dictHas]

theorem dictGet_put_self {α : Type} (l : List (String × α)) (k : String) (v : α) :
    dictGet (dictPut l k v) k = some v := by
  unfold dictPut
  split
  · rename_i h
    induction l with
    | nil => simp [dictHas] at h
    | cons p l ih =>
      by_cases hp : p.1 == k
      · simp only [dictGet, List.map_cons, hp, if_true]
        rw [List.find?_cons_of_pos (by simp [hp])]
        rfl
      · simp only [dictHas, List.any_cons, hp, Bool.false_or] at h
        have := ih h
        simp only [dictGet] at this
        simp only [dictGet, List.map_cons, hp, Bool.false_eq_true, if_false]
        rw [List.find?_cons_of_neg (by simp [hp])]
        exact this
  · rename_i h
    have : l.find? (·.1 == k) = none := by
      rw [List.find?_eq_none]
      intro x hx hxk
      exact h (dictHas_iff.2 ⟨x.2, by rw [← (beq_iff_eq.1 hxk)]; exact hx⟩)
    simp [dictGet, List.find?_append, this]

theorem dictGet_put_ne {α : Type} (l : List (String × α)) {k k' : String} (v : α) (h : k ≠ k') :
    dictGet (dictPut l k v) k' = dictGet l k' := by
  unfold dictPut
  split
  · rename_i hx
    clear hx
    induction l with
    | nil => rfl
    | cons p l ih =>
      simp only [dictGet] at ih
      by_cases hp : p.1 == k
      · have hk := beq_iff_eq.1 hp
        have : (p.1 == k') = false := by simp [hk, h]
        simp only [dictGet, List.map_cons, hp, if_true]
        rw [List.find?_cons_of_neg (by simp [this]), List.find?_cons_of_neg (by simp [this])]
        exact ih
      · simp only [dictGet, List.map_cons, hp, Bool.false_eq_true, if_false]
        by_cases hp' : p.1 == k'
        · rw [List.find?_cons_of_pos (by simp [hp']), List.find?_cons_of_pos (by simp [hp'])]
        · rw [List.find?_cons_of_neg (by simp [hp']), List.find?_cons_of_neg (by simp [hp'])]
          exact ih
  · simp [dictGet, List.find?_append, h]

theorem dictGet_none_iff {α : Type} {l : List (String × α)} {k : String} :
    dictGet l k = none ↔ dictHas l k = false := by
  simp [dictGet, dictHas]

theorem dictGet_of_mem {α : Type} {l : List (String × α)} (hn : (l.map (·.1)).Nodup) {k : String}
    {v : α} (h : (k, v) ∈ l) : dictGet l k = some v := by
  induction l with
  | nil => cases h
  | cons p l ih =>
    simp only [List.map_cons, List.nodup_cons] at hn
    rcases List.mem_cons.1 h with rfl | h
    · simp [dictGet]
    · have : p.1 ≠ k := by
        intro hk
        apply hn.1
        rw [hk]
        exact List.mem_map.2 ⟨_, h, rfl⟩
      have ih := ih hn.2 h
      simp only [dictGet] at ih ⊢
      rw [List.find?_cons_of_neg (by simp [this])]
      exact ih

theorem mem_of_dictGet {α : Type} {l : List (String × α)} {k : String} {v : α}
    (h : dictGet l k = some v) : (k, v) ∈ l := by
  simp only [dictGet, Option.map_eq_some_iff] at h
  obtain ⟨p, hp, rfl⟩ := h
  have h1 := List.mem_of_find?_eq_some hp
  have h2 : p.1 = k := by simpa using List.find?_some hp
  rw [← h2]; exact h1

/-! ### The invariant -/

/-- What holds of every registry that was only changed through its methods. -/
structure Registry.Good (E : Env) (r : Registry) : Prop where
  keys : ∀ p ∈ r.definitions, p.1 = E.lower p.2.name
  nodup : (r.definitions.map (·.1)).Nodup
  aliases : ∀ p ∈ r.definitions, ∀ a ∈ p.2.hdr.aliases, dictGet r.aliases a = some p.1

theorem Registry.good_empty (E : Env) : Registry.Good E {} := ⟨by simp, by simp, by simp⟩

theorem foldl_put (l : List (String × String)) (as : List String) (n a : String) :
    dictGet (as.foldl (fun l a => dictPut l a n) l) a =
      if a ∈ as then some n else dictGet l a := by
  induction as generalizing l with
  | nil => simp
  | cons b as ih =>
    rw [List.foldl_cons, ih]
    by_cases hb : b = a
    · subst hb
      simp [dictGet_put_self]
    · rw [dictGet_put_ne _ _ hb]
      simp [Ne.symm hb]

theorem register_ok {E : Env} {r : Registry} {d : Defn} (h : (r.register E d).1 = .ok ()) :
    dictHas r.definitions (E.lower d.name) = false ∧ dictHas r.aliases d.name = false ∧
    (∀ a ∈ d.hdr.aliases, dictHas r.aliases a = false) ∧
    (r.register E d).2.definitions = r.definitions ++ [(E.lower d.name, d)] ∧
    ∀ a, dictGet (r.register E d).2.aliases a =
      if a ∈ d.hdr.aliases then some (E.lower d.name) else dictGet r.aliases a := by
  unfold Registry.register at h ⊢
  simp only at h ⊢
  split at h
  · cases h
  split at h
  · cases h
  split at h
  · cases h
  rename_i h1 h2 h3
  rw [if_neg h1, if_neg h2, if_neg h3]
  refine ⟨by simpa using h1, by simpa using h2, by simpa using h3, ?_, ?_⟩
  · simp only [dictPut]
    rw [if_neg h1]
  · intro a
    exact foldl_put _ _ _ _

theorem register_error {E : Env} {r : Registry} {d : Defn} {e : Err}
    (h : (r.register E d).1 = .error e) : e = .key ∧ (r.register E d).2 = r := by
  unfold Registry.register at h ⊢
  simp only at h ⊢
  split at h
  · rename_i h1; rw [if_pos h1]; cases h; exact ⟨rfl, rfl⟩
  rename_i h1
  rw [if_neg h1]
  split at h
  · rename_i h2; rw [if_pos h2]; cases h; exact ⟨rfl, rfl⟩
  rename_i h2
  rw [if_neg h2]
  split at h
  · rename_i h3; rw [if_pos h3]; cases h; exact ⟨rfl, rfl⟩
  · cases h

theorem Registry.good_step {E : Env} {r : Registry} (hr : r.Good E) (op : RegOp) :
    (r.step E op).2.Good E := by
  cases op with
  | register d =>
    show (r.register E d).2.Good E
    cases h : (r.register E d).1 with
    | error e => rw [(register_error h).2]; exact hr
    | ok u =>
      obtain ⟨h1, -, h3, h4, h5⟩ := register_ok (by rw [h])
      refine ⟨?_, ?_, ?_⟩
      · rw [h4]
        intro p hp
        simp only [List.mem_append, List.mem_singleton] at hp
        rcases hp with hp | rfl
        · exact hr.keys p hp
        · rfl
      · rw [h4, List.map_append, List.nodup_append]
        refine ⟨hr.nodup, by simp, ?_⟩
        intro a ha b hb
        simp only [List.map_cons, List.map_nil, List.mem_singleton] at hb
        rintro rfl
        subst hb
        obtain ⟨p, hp, hpa⟩ := List.mem_map.1 ha
        have : dictHas r.definitions (E.lower d.name) = true :=
          dictHas_iff.2 ⟨p.2, by rw [← hpa]; exact hp⟩
        rw [h1] at this; cases this
      · rw [h4]
        intro p hp a ha
        simp only [List.mem_append, List.mem_singleton] at hp
        rw [h5]
        rcases hp with hp | rfl
        · have := hr.aliases p hp a ha
          rw [if_neg, this]
          intro hmem
          rw [dictGet_none_iff.2 (h3 a hmem)] at this; cases this
        · rw [if_pos ha]
  | deregister d =>
    show (r.deregister E d).2.Good E
    unfold Registry.deregister
    simp only
    split
    · exact hr
    · refine ⟨?_, ?_, ?_⟩
      · intro p hp; exact hr.keys p (List.mem_filter.1 hp).1
      · exact (List.Sublist.map _ List.filter_sublist).nodup hr.nodup
      · intro p hp; exact hr.aliases p (List.mem_filter.1 hp).1

theorem foldl_good {E : Env} (ops : List RegOp) {r : Registry} (hr : r.Good E) :
    (ops.foldl (fun r op => (r.step E op).2) r).Good E := by
  induction ops generalizing r with
  | nil => exact hr
  | cons op ops ih => exact ih (Registry.good_step hr op)

theorem run_good (E : Env) (ops : List RegOp) : (Registry.run E ops).Good E :=
  foldl_good ops (Registry.good_empty E)

/-! ### C38: registering -/

/-- RegisterDefinition raises KeyError and leaves the registry as it was, or adds
the definition at the end and keeps all others. It is refused exactly if the
lower-case name is taken, the name is an alias, or an alias is taken. -/
theorem C38_register (E : Env) (ops : List RegOp) (d : Defn) :
    (((Registry.run E ops).register E d).1 = .error .key ∧
        ((Registry.run E ops).register E d).2 = Registry.run E ops) ∨
      (((Registry.run E ops).register E d).1 = .ok () ∧
        ((Registry.run E ops).register E d).2.getDefinitions =
          (Registry.run E ops).getDefinitions ++ [d] ∧
        ∀ d' ∈ (Registry.run E ops).getDefinitions, E.lower d'.name ≠ E.lower d.name) := by
  generalize hr : Registry.run E ops = r
  have hg : r.Good E := hr ▸ run_good E ops
  cases h : (r.register E d).1 with
  | error e =>
    obtain ⟨rfl, h2⟩ := register_error h
    exact .inl ⟨rfl, h2⟩
  | ok u =>
    obtain ⟨h1, -, -, h4, -⟩ := register_ok (by rw [h])
    refine .inr ⟨rfl, by simp [Registry.getDefinitions, h4], ?_⟩
    intro d' hd'
    obtain ⟨p, hp, rfl⟩ := List.mem_map.1 hd'
    intro heq
    have : dictHas r.definitions (E.lower d.name) = true :=
      dictHas_iff.2 ⟨p.2, by rw [← heq, ← hg.keys p hp]; exact hp⟩
    rw [h1] at this; cases this

/-- After any history, registered definitions at different positions have different
lower-case names. -/
theorem C38_unique (E : Env) (ops : List RegOp) :
    ((Registry.run E ops).getDefinitions.map (E.lower ·.name)).Nodup := by
  have hg := run_good E ops
  have : (Registry.run E ops).getDefinitions.map (E.lower ·.name) =
      (Registry.run E ops).definitions.map (·.1) := by
    simp only [Registry.getDefinitions, List.map_map]
    apply List.map_congr_left
    intro p hp
    exact (hg.keys p hp).symm
  rw [this]
  exact hg.nodup

/-! ### C39: lookup -/

theorem getDefinitions_run (E : Env) (ops : List RegOp) (r : Registry) (hr : r.Good E) :
    (ops.foldl (fun r op => (r.step E op).2) r).getDefinitions =
      (r.definitions.filter fun p => !ops.any (removes E p.1)).map (·.2) ++ registered E r ops := by
  induction ops generalizing r with
  | nil =>
    have : r.definitions.filter (fun _ => true) = r.definitions := List.filter_eq_self.2 (by simp)
    simp [registered, Registry.getDefinitions, this]
  | cons op ops ih =>
    rw [List.foldl_cons, ih _ (Registry.good_step hr op)]
    cases op with
    | deregister d =>
      simp only [Registry.step, registered, removes, List.any_cons]
      congr 1
      unfold Registry.deregister
      simp only
      split
      · rename_i hno
        congr 1
        apply List.filter_congr
        intro p hp
        have : (E.lower d.name == p.1) = false := by
          rw [beq_eq_false_iff_ne]
          intro hpe
          simp only [Bool.not_eq_eq_eq_not, Bool.not_true] at hno
          rw [dictHas_iff.2 ⟨p.2, by rw [hpe]; exact hp⟩] at hno
          cases hno
        simp [this]
      · simp only [List.filter_filter]
        congr 1
        apply List.filter_congr
        intro p hp
        rw [Bool.and_comm, bne, Bool.beq_comm, Bool.not_or]
    | register d =>
      simp only [Registry.step, registered, removes, List.any_cons, Bool.false_or]
      cases h : (r.register E d).1 with
      | error e => rw [(register_error h).2]; simp
      | ok u =>
        obtain ⟨h1, -, -, h4, -⟩ := register_ok (by rw [h])
        rw [h4]
        cases hany : ops.any (removes E (E.lower d.name)) <;> simp [hany]

/-- GetDefinitions lists exactly the registered definitions in the order in which
they were registered. -/
theorem C39_definitions (E : Env) (ops : List RegOp) :
    (Registry.run E ops).getDefinitions = registered E {} ops := by
  have := getDefinitions_run E ops {} (Registry.good_empty E)
  simpa [Registry.run] using this

/-- GetDefinitionByName finds the registered definition whose name equals the name
ignoring case. -/
theorem C39_lookup (E : Env) (ops : List RegOp) (n : String) (d : Defn)
    (hd : d ∈ registered E {} ops) (hn : E.lower d.name = E.lower n) :
    (Registry.run E ops).getByName E n = some d := by
  rw [← C39_definitions] at hd
  have hg := run_good E ops
  obtain ⟨p, hp, rfl⟩ := List.mem_map.1 hd
  have hk := hg.keys p hp
  rw [hn] at hk
  have hmem : (E.lower n, p.2) ∈ (Registry.run E ops).definitions := by rw [← hk]; exact hp
  unfold Registry.getByName
  simp only
  rw [if_pos (dictHas_iff.2 ⟨_, hmem⟩)]
  exact dictGet_of_mem hg.nodup hmem

theorem aliases_keys (E : Env) (ops : List RegOp) (r : Registry) (a : String)
    (h : dictHas (ops.foldl (fun r op => (r.step E op).2) r).aliases a = true) :
    dictHas r.aliases a = true ∨ ∃ d, .register d ∈ ops ∧ a ∈ d.hdr.aliases := by
  induction ops generalizing r with
  | nil => exact .inl h
  | cons op ops ih =>
    rcases ih _ h with h | ⟨d, hd, ha⟩
    · cases op with
      | deregister d =>
        left
        simp only [Registry.step, Registry.deregister] at h
        split at h <;> exact h
      | register d =>
        simp only [Registry.step] at h
        cases hr : (r.register E d).1 with
        | error e => rw [(register_error hr).2] at h; exact .inl h
        | ok u =>
          obtain ⟨-, -, -, -, h5⟩ := register_ok (by rw [hr])
          by_cases ha : a ∈ d.hdr.aliases
          · exact .inr ⟨d, List.mem_cons_self, ha⟩
          · left
            have h5 := h5 a
            rw [if_neg ha] at h5
            cases hx : dictHas r.aliases a with
            | true => rfl
            | false =>
              rw [dictGet_none_iff.2 hx] at h5
              rw [dictGet_none_iff.1 h5] at h; cases h
    · exact .inr ⟨d, List.mem_cons_of_mem _ hd, ha⟩

/-- GetDefinitionByName finds nothing for a name that no registered definition has
and that was never given as alias. -/
theorem C39_unknown (E : Env) (ops : List RegOp) (n : String)
    (hn : ∀ d ∈ registered E {} ops, E.lower d.name ≠ E.lower n)
    (ha : ∀ d, .register d ∈ ops → n ∉ d.hdr.aliases) :
    (Registry.run E ops).getByName E n = none := by
  have hg := run_good E ops
  rw [← C39_definitions] at hn
  have hno : dictHas (Registry.run E ops).definitions (E.lower n) = false := by
    cases h : dictHas (Registry.run E ops).definitions (E.lower n) with
    | false => rfl
    | true =>
      obtain ⟨v, hv⟩ := dictHas_iff.1 h
      exact absurd (hg.keys _ hv).symm (hn v (List.mem_map.2 ⟨_, hv, rfl⟩))
  have hal : dictGet (Registry.run E ops).aliases n = none := by
    rw [dictGet_none_iff]
    cases h : dictHas (Registry.run E ops).aliases n with
    | false => rfl
    | true =>
      rcases aliases_keys E ops {} n h with h | ⟨d, hd, hda⟩
      · simp [dictHas] at h
      · exact absurd hda (ha d hd)
  unfold Registry.getByName
  simp only [hno, hal, Bool.false_eq_true, if_false, Option.getD_none]
  exact dictGet_none_iff.2 hno

/-! ### C40: aliases -/

/-- An alias of a registered definition resolves to it unless it is, ignoring case,
the name of a registered definition. -/
theorem C40_alias_partial (E : Env) (ops : List RegOp) (d : Defn) (hd : d ∈ registered E {} ops) (a : String)
    (ha : a ∈ d.hdr.aliases) (hn : ∀ d' ∈ registered E {} ops, E.lower d'.name ≠ E.lower a) :
    (Registry.run E ops).getByName E a = some d := by
  have hg := run_good E ops
  rw [← C39_definitions] at hd hn
  obtain ⟨p, hp, rfl⟩ := List.mem_map.1 hd
  have hal := hg.aliases p hp a ha
  have hno : dictHas (Registry.run E ops).definitions (E.lower a) = false := by
    cases h : dictHas (Registry.run E ops).definitions (E.lower a) with
    | false => rfl
    | true =>
      obtain ⟨v, hv⟩ := dictHas_iff.1 h
      exact absurd (hg.keys _ hv).symm (hn v (List.mem_map.2 ⟨_, hv, rfl⟩))
  unfold Registry.getByName
  simp only [hno, hal, Bool.false_eq_true, if_false, Option.getD_some]
  exact dictGet_of_mem hg.nodup hp

/-- Deregistering a registered definition removes it and only it: its name then
resolves to nothing, unless it was also given as alias, and so do its aliases
unless they are names of other definitions. -/
theorem C40_deregister_partial (E : Env) (ops : List RegOp) (d : Defn) (hd : d ∈ registered E {} ops) :
    ((Registry.run E ops).deregister E d).1 = .ok () ∧
      ((Registry.run E ops).deregister E d).2.getDefinitions =
        (Registry.run E ops).getDefinitions.filter (fun d' => E.lower d'.name != E.lower d.name) ∧
      ((∀ d', .register d' ∈ ops → d.name ∉ d'.hdr.aliases) →
        ((Registry.run E ops).deregister E d).2.getByName E d.name = none) ∧
      (∀ a ∈ d.hdr.aliases, (∀ d' ∈ registered E {} ops, E.lower d'.name = E.lower a → d' = d) →
        ((Registry.run E ops).deregister E d).2.getByName E a = none) := by
  have hg := run_good E ops
  have hsnoc : ((Registry.run E ops).deregister E d).2 = Registry.run E (ops ++ [.deregister d]) := by
    simp [Registry.run, Registry.step]
  have hu := C38_unique E ops
  rw [← C39_definitions] at hd
  obtain ⟨p, hp, rfl⟩ := List.mem_map.1 hd
  have hk := hg.keys p hp
  have hhas : dictHas (Registry.run E ops).definitions (E.lower p.2.name) = true :=
    dictHas_iff.2 ⟨p.2, by rw [← hk]; exact hp⟩
  have hdef : ((Registry.run E ops).deregister E p.2) = (.ok (),
      { Registry.run E ops with
        definitions := (Registry.run E ops).definitions.filter (·.1 != E.lower p.2.name) }) := by
    unfold Registry.deregister
    simp [hhas]
  refine ⟨by rw [hdef], ?_, ?_, ?_⟩
  · rw [hdef]
    simp only [Registry.getDefinitions, List.filter_map]
    congr 1
    apply List.filter_congr
    intro q hq
    simp [hg.keys q hq]
  · intro ha
    rw [hsnoc]
    apply C39_unknown
    · rw [← C39_definitions, ← hsnoc, hdef]
      intro d' hd'
      obtain ⟨q, hq, rfl⟩ := List.mem_map.1 hd'
      obtain ⟨hq1, hq2⟩ := List.mem_filter.1 hq
      rw [← hg.keys q hq1]
      simpa using hq2
    · intro d' hd'
      simp only [List.mem_append, List.mem_singleton, reduceCtorEq, or_false] at hd'
      exact ha d' hd'
  · intro a ha hno
    have hal := hg.aliases p hp a ha
    rw [hdef]
    unfold Registry.getByName
    simp only
    have hgone : ∀ n, dictHas ((Registry.run E ops).definitions.filter (·.1 != E.lower p.2.name)) n = true →
        n ≠ E.lower p.2.name ∧ ∃ v, (n, v) ∈ (Registry.run E ops).definitions := by
      intro n h
      obtain ⟨v, hv⟩ := dictHas_iff.1 h
      obtain ⟨h1, h2⟩ := List.mem_filter.1 hv
      exact ⟨by simpa using h2, v, h1⟩
    split
    · rename_i h
      obtain ⟨h1, v, hv⟩ := hgone _ h
      have := hno v (by rw [← C39_definitions]; exact List.mem_map.2 ⟨_, hv, rfl⟩) (hg.keys _ hv).symm
      subst this
      exact absurd (hg.keys _ hv) h1
    · rw [hal, Option.getD_some, dictGet_none_iff]
      cases h : dictHas ((Registry.run E ops).definitions.filter (·.1 != E.lower p.2.name)) p.1 with
      | false => rfl
      | true => exact absurd hk (hgone _ h).1

/-- Definitions with and without alias. -/
def exA (as : List String) : Defn := .prim { name := "A", aliases := as } (.integer true) (.bytes 1) "bytes"
def exLow (as : List String) : Defn := .prim { name := "a", aliases := as } (.integer true) (.bytes 2) "bytes"

/-- A platform whose `str.lower` maps `A` to `a`. -/
def exEnvL : Env := { exEnv with lower := fun s => if s = "A" then "a" else s }

/-- **C40** is false. A definition with an alias cannot be registered again after it
was deregistered, and after another definition of that name was registered
instead, the alias of the first resolves to the second. -/
theorem C40_refuted :
    ((Registry.run exEnvL [.register (exA ["x"]), .deregister (exA ["x"])]).register exEnvL (exA ["x"])).1 =
      .error .key ∧
    (Registry.run exEnvL [.register (exA ["x"]), .deregister (exA ["x"]), .register (exLow [])]).getByName
      exEnvL "x" = some (exLow []) := ⟨rfl, rfl⟩

/-- Lookups ignore case, aliases are found, a second definition of the name is
refused, and the order is that of registration. -/
example :
    (Registry.run exEnvL [.register (exA ["x"]), .register exU16, .register (exLow [])]).getDefinitions =
      [exA ["x"], exU16] ∧
    (Registry.run exEnvL [.register (exA ["x"])]).getByName exEnvL "a" = some (exA ["x"]) ∧
    (Registry.run exEnvL [.register (exA ["x"])]).getByName exEnvL "x" = some (exA ["x"]) ∧
    (Registry.run exEnvL [.register (exA [])]).getByName exEnvL "y" = none ∧
    (Registry.run exEnvL [.register (exA []), .register exU16, .deregister (exLow []), .register (exA [])]).getDefinitions =
      [exU16, exA []] := ⟨rfl, rfl, rfl, rfl, rfl⟩

/-! ### C36: the factory -/

theorem createMembers_names {E : Env} {sname : String} {so : Order} {cache : List (String × DMap)}
    {ms : List Defn} {infos : List MemInfo} {maps : List DMap}
    (h : createMembers E sname so cache ms = .ok (infos, maps)) :
    infos.map (·.name) = ms.map (·.name) := by
  induction ms generalizing cache infos maps with
  | nil => simp [createMembers] at h; obtain ⟨rfl, rfl⟩ := h; rfl
  | cons d ds ih =>
    rw [createMembers.eq_def] at h
    simp only at h
    split at h <;>
    · split at h
      · cases h
      split at h
      · cases h
      split at h
      · cases h
      rename_i hr
      simp only [Except.ok.injEq, Prod.mk.injEq] at h
      obtain ⟨rfl, rfl⟩ := h
      simp [ih hr, Defn.name, Defn.hdr]

theorem createMap_kind {E : Env} {d : Defn} {m : DMap} (h : createMap E d = .ok m) :
    (m = .missing ∧ ((∃ hd ms, d = .union hd ms) ∨ (∃ hd b ms, d = .family hd b ms) ∨
        ∃ hd i c t v, d = .member hd i c t v)) ∨ KindOf d m := by
  cases d with
  | prim hd k s u =>
    right
    rw [createMap, createAs.eq_def] at h
    simp only at h
    split at h
    · cases h
    · cases h; exact ⟨rfl, rfl, rfl⟩
  | uuid hd s u => right; rw [createMap, createAs] at h; cases h; trivial
  | padding hd a => right; rw [createMap, createAs] at h; cases h; trivial
  | seq hd i e =>
    right
    obtain ⟨_, _, _, -, -, rfl, -⟩ := createAs_seq h
    rfl
  | struct hd ms =>
    right
    obtain ⟨io, infos, maps, l, -, hm, -, rfl, -⟩ := createAs_struct h
    exact createMembers_names hm
  | union hd ms => left; rw [createMap, createAs] at h; cases h; exact ⟨rfl, .inl ⟨_, _, rfl⟩⟩
  | constant hd v => right; rw [createMap, createAs] at h; cases h; trivial
  | enumeration hd vs => right; rw [createMap, createAs] at h; cases h; rfl
  | format hd o ms => right; rw [createMap, createAs] at h; cases h; rfl
  | family hd b ms => left; rw [createMap, createAs] at h; cases h; exact ⟨rfl, .inr (.inl ⟨_, _, _, rfl⟩)⟩
  | group hd b i df ms =>
    right
    obtain ⟨_, _, _, _, -, -, -, -, rfl⟩ := createAs_group h
    rfl
  | member hd i c t v =>
    left; rw [createMap, createAs] at h; cases h; exact ⟨rfl, .inr (.inr ⟨_, _, _, _, _, rfl⟩)⟩

/-- CreateDataTypeMap returns None (`missing`) for a name that resolves to nothing
and for unions and structure families. -/
theorem C36_none (E : Env) (r : Registry) (name : String)
    (h : r.getByName E name = none ∨ (∃ hd ms, r.getByName E name = some (.union hd ms)) ∨
      ∃ hd b ms, r.getByName E name = some (.family hd b ms)) :
    r.createDataTypeMap E name = .ok .missing := by
  unfold Registry.createDataTypeMap
  rcases h with h | ⟨hd, ms, h⟩ | ⟨hd, b, ms, h⟩ <;> rw [h]
  · show createMap E _ = _
    rw [createMap, createAs]
  · show createMap E _ = _
    rw [createMap, createAs]

/-- Otherwise it raises an error or returns a map of the kind of the definition.
(Members of structures are no definitions that are registered.) -/
theorem C36_kind (E : Env) (r : Registry) (name : String) (d : Defn) (h : r.getByName E name = some d)
    (hu : ∀ hd ms, d ≠ .union hd ms) (hf : ∀ hd b ms, d ≠ .family hd b ms)
    (hm : ∀ hd i c t v, d ≠ .member hd i c t v) (m : DMap) (hc : r.createDataTypeMap E name = .ok m) :
    m ≠ .missing ∧ KindOf d m := by
  unfold Registry.createDataTypeMap at hc
  rw [h] at hc
  rcases createMap_kind hc with ⟨-, ⟨_, _, hd⟩ | ⟨_, _, _, hd⟩ | ⟨_, _, _, _, _, hd⟩⟩ | hk
  · exact absurd hd (hu _ _)
  · exact absurd hd (hf _ _ _)
  · exact absurd hd (hm _ _ _ _ _)
  · refine ⟨?_, hk⟩
    rintro rfl
    cases d <;> exact hk

example : ∃ hd i e b em, (Registry.run exEnvL [.register exU16, .register exSeq]).createDataTypeMap exEnvL "b" =
    .ok (.seq hd i e b em) ∧
    (Registry.run exEnvL [.register exU16]).createDataTypeMap exEnvL "b" = .ok .missing ∧
    (Registry.run exEnvL [.register (.union { name := "b" } [exU8])]).createDataTypeMap exEnvL "b" =
      .ok .missing := ⟨_, _, _, _, _, rfl, rfl, rfl⟩

end Dtf
