import Verif.Props.Reorder
/-!
# Property C119: definitions that are not referred to can be left out and put in
-/
namespace Dtf
open Spec

/-- A definition that does not have a name does not matter for the name. -/
theorem findName_without {E : Env} {a c : List Defn} {x : Defn} {n : String} (h : ¬ Names E x n) :
    findName E (a ++ x :: c) n = findName E (a ++ c) n := by
  unfold Names at h
  have h1 : (E.lower x.name == E.lower n) = false := by simpa using fun e => h (.inl e)
  have h2 : x.hdr.aliases.contains n = false := by simpa using fun e => h (.inr e)
  unfold findName
  simp only [List.find?_append, List.find?_cons, h1, h2]

theorem fresh_without {E : Env} {a c : List Defn} {x y : Defn} :
    Fresh E (a ++ x :: c) y ↔ Fresh E (a ++ c) y ∧ Fresh E [x] y := by
  simp only [Fresh, List.mem_append, List.mem_cons, List.not_mem_nil, or_false]
  constructor
  · exact fun h => ⟨fun d hd => h d (hd.imp id .inr), fun d hd => h d (.inr (.inl hd))⟩
  · rintro ⟨h1, h2⟩ d (hd | hd | hd)
    · exact h1 d (.inl hd)
    · exact h2 d hd
    · exact h1 d (.inr hd)

/-- Reading on without a definition. -/
theorem library_without {E : Env} {x : Defn} : ∀ (ds : List Yaml) (ys : List Defn) {a c : List Defn} {r r' : Registry},
    r.Holds E (a ++ x :: c) → r'.Holds E (a ++ c) → (∀ d ∈ ds, ∀ s, Refers s d → ¬ Names E x s) →
    (Library E (a ++ x :: c) ds ys ↔ Library E (a ++ c) ds ys ∧ ∀ y ∈ ys, Fresh E [x] y)
  | [], ys, a, c, r, r', hr, hr', hn => by
    constructor
    · intro h
      cases h
      exact ⟨.nil, by simp⟩
    · rintro ⟨h, -⟩
      cases h
      exact .nil
  | d :: ds, ys, a, c, r, r', hr, hr', hn => by
    have hd : ∀ y, Describes E (findName E (a ++ x :: c)) d y ↔ Describes E (findName E (a ++ c)) d y := by
      intro y
      rw [← show r.getByName E = findName E (a ++ x :: c) from funext hr.getByName,
        ← show r'.getByName E = findName E (a ++ c) from funext hr'.getByName, ← C54_document, ← C54_document,
        readDefinition_local fun s hs => ?_]
      rw [hr.getByName, hr'.getByName, findName_without (hn d List.mem_cons_self s hs)]
    have hds := fun d hd => hn d (List.mem_cons_of_mem _ hd)
    constructor
    · intro h
      cases h with
      | @cons _ _ _ y ys h1 h2 h3 =>
        obtain ⟨h4, h5⟩ := fresh_without.1 h2
        have hr1 := hr.register ((hr.fresh y).2 h2)
        have hr2 := hr'.register ((hr'.fresh y).2 h4)
        rw [List.append_assoc, List.cons_append] at h3 hr1
        rw [List.append_assoc] at hr2
        obtain ⟨h6, h7⟩ := (library_without ds ys hr1 hr2 hds).1 h3
        refine ⟨.cons ((hd y).1 h1) h4 (by rw [List.append_assoc]; exact h6), fun z hz => ?_⟩
        rcases List.mem_cons.1 hz with rfl | hz
        · exact h5
        · exact h7 z hz
    · rintro ⟨h, hf⟩
      cases h with
      | @cons _ _ _ y ys h1 h2 h3 =>
        have h4 := fresh_without.2 ⟨h2, hf y List.mem_cons_self⟩
        have hr1 := hr.register ((hr.fresh y).2 h4)
        have hr2 := hr'.register ((hr'.fresh y).2 h2)
        rw [List.append_assoc, List.cons_append] at hr1
        rw [List.append_assoc] at h3 hr2
        have := (library_without ds ys hr1 hr2 hds).2 ⟨h3, fun z hz => hf z (List.mem_cons_of_mem _ hz)⟩
        refine .cons ((hd y).2 h1) h4 ?_
        rw [List.append_assoc, List.cons_append]
        exact this

/-- What both directions need: the definitions before. -/
theorem library_insert {E : Env} {r : Registry} {prev : List Defn} (h : r.Holds E prev) {as bs : List Yaml} {d : Yaml}
    {xs ys : List Defn} {x : Defn} (hx : xs.length = as.length) (hn : ∀ e ∈ bs, ∀ s, Refers s e → ¬ Names E x s) :
    Library E prev (as ++ d :: bs) (xs ++ x :: ys) ↔
      Library E prev (as ++ bs) (xs ++ ys) ∧ Describes E (findName E (prev ++ xs)) d x ∧ Fresh E (prev ++ xs) x ∧
        ∀ y ∈ ys, Fresh E [x] y := by
  have reg : Library E prev as xs → ∃ r : Registry, r.Holds E (prev ++ xs) := by
    intro hl
    obtain ⟨-, h2⟩ := (readDocs_library h as xs).mpr hl
    exact ⟨_, h2 ▸ readDocs_holds h as⟩
  rw [library_append, library_append]
  constructor
  · rintro ⟨xs', zs, he, h1, h2⟩
    obtain ⟨rfl, rfl⟩ := List.append_inj he (by rw [hx, h1.length])
    obtain ⟨r1, hr1⟩ := reg h1
    cases h2 with
    | cons h3 h4 h5 =>
      have hr2 := hr1.register ((hr1.fresh x).2 h4)
      obtain ⟨h6, h7⟩ := (library_without (c := []) bs ys hr2 (by simpa using hr1) hn).1 h5
      exact ⟨⟨xs, ys, rfl, h1, by simpa using h6⟩, h3, h4, h7⟩
  · rintro ⟨⟨xs', ys', he, h1, h2⟩, h3, h4, h5⟩
    obtain ⟨rfl, rfl⟩ := List.append_inj he (by rw [hx, h1.length])
    obtain ⟨r1, hr1⟩ := reg h1
    have hr2 := hr1.register ((hr1.fresh x).2 h4)
    exact ⟨xs, x :: ys, rfl, h1, .cons h3 h4
      ((library_without (c := []) bs ys hr2 (by simpa using hr1) hn).2 ⟨by simpa using h2, h5⟩)⟩

/-- **C119** If a file was read, and no document after a document `d` refers to the definition `x` of `d` by its name
or an alias, then the file without `d` can be read, too, and gives the other definitions. -/
theorem C119_leave_out (E : Env) (fs : List YamlFile) (as bs : List Yaml) (d : Yaml) (xs ys : List Defn) (x : Defn)
    (hx : xs.length = as.length) (hn : ∀ e ∈ bs, ∀ s, Refers s e → ¬ Names E x s)
    (hr : (readFileObject E (readFiles E fs) { docs := as ++ d :: bs }).1 = .ok ())
    (hd : (readFiles E (fs ++ [{ docs := as ++ d :: bs }])).getDefinitions =
      (readFiles E fs).getDefinitions ++ (xs ++ x :: ys)) :
    (readFileObject E (readFiles E fs) { docs := as ++ bs }).1 = .ok () ∧
    (readFiles E (fs ++ [{ docs := as ++ bs }])).getDefinitions = (readFiles E fs).getDefinitions ++ (xs ++ ys) := by
  have hl := (C55_file E fs { docs := as ++ d :: bs } _).mp ⟨hr, hd⟩
  rw [C55_file]
  exact ⟨rfl, ((library_insert (readFiles_holds E fs) hx hn).1 hl.2).1⟩

/-- **C119** And a document can be put into a file that was read: if it describes a definition `x` there whose name and
aliases are new, also to the definitions that follow, which do not refer to them. -/
theorem C119_put_in (E : Env) (fs : List YamlFile) (as bs : List Yaml) (d : Yaml) (xs ys : List Defn) (x : Defn)
    (hx : xs.length = as.length) (hn : ∀ e ∈ bs, ∀ s, Refers s e → ¬ Names E x s)
    (hr : (readFileObject E (readFiles E fs) { docs := as ++ bs }).1 = .ok ())
    (hd : (readFiles E (fs ++ [{ docs := as ++ bs }])).getDefinitions = (readFiles E fs).getDefinitions ++ (xs ++ ys))
    (hdx : Describes E (findName E ((readFiles E fs).getDefinitions ++ xs)) d x)
    (hf : Fresh E ((readFiles E fs).getDefinitions ++ xs) x) (hf' : ∀ y ∈ ys, Fresh E [x] y) :
    (readFileObject E (readFiles E fs) { docs := as ++ d :: bs }).1 = .ok () ∧
    (readFiles E (fs ++ [{ docs := as ++ d :: bs }])).getDefinitions =
      (readFiles E fs).getDefinitions ++ (xs ++ x :: ys) := by
  have hl := (C55_file E fs { docs := as ++ bs } _).mp ⟨hr, hd⟩
  rw [C55_file]
  exact ⟨rfl, (library_insert (readFiles_holds E fs) hx hn).2 ⟨hl.2, hdx, hf, hf'⟩⟩

/-- **C119** All other names mean the same with and without the definition: the same definition and the same map. -/
theorem C119_names (E : Env) (fs : List YamlFile) (f f' : YamlFile) (xs ys : List Defn) (x : Defn)
    (hd : (readFiles E (fs ++ [f])).getDefinitions = (readFiles E fs).getDefinitions ++ (xs ++ x :: ys))
    (hd' : (readFiles E (fs ++ [f'])).getDefinitions = (readFiles E fs).getDefinitions ++ (xs ++ ys))
    (n : String) (hn : ¬ Names E x n) :
    (readFiles E (fs ++ [f'])).getByName E n = (readFiles E (fs ++ [f])).getByName E n ∧
    (readFiles E (fs ++ [f'])).createDataTypeMap E n = (readFiles E (fs ++ [f])).createDataTypeMap E n := by
  have h : (readFiles E (fs ++ [f'])).getByName E n = (readFiles E (fs ++ [f])).getByName E n := by
    rw [C55_lookup, C55_lookup, hd, hd', ← List.append_assoc, ← List.append_assoc, findName_without hn]
  exact ⟨h, by rw [Registry.createDataTypeMap, h, Registry.createDataTypeMap]⟩

/-! A structure `point` of `u8`s: the definition `other` between them can be left out and put in again. -/
example :
    (readFileObject exEnvR (readFiles exEnvR []) { docs := [docU8] ++ docNamed "other" [] :: [docPoint] }).1 = .ok () ∧
    (readFiles exEnvR ([] ++ [{ docs := [docU8] ++ docNamed "other" [] :: [docPoint] }])).getDefinitions =
      (readFiles exEnvR []).getDefinitions ++ ([exU8r] ++ exNamed "other" [] :: [exPoint]) := ⟨rfl, rfl⟩

theorem exUnused : ∀ e ∈ [docPoint], ∀ s, Refers s e → ¬ Names exEnvR (exNamed "other" []) s := by
  intro e he s hs
  rw [List.mem_singleton.1 he] at hs
  exact exUnrelated.left s hs

example : (readFiles exEnvR ([] ++ [{ docs := [docU8] ++ [docPoint] }])).getDefinitions = [exU8r, exPoint] :=
  (C119_leave_out exEnvR [] [docU8] [docPoint] (docNamed "other" []) [exU8r] [exPoint] _ rfl exUnused rfl rfl).2

example : Fresh exEnvR [exU8r] (exNamed "other" []) ∧ ∀ y ∈ [exPoint], Fresh exEnvR [exNamed "other" []] y := by
  constructor
  · simp only [Fresh, exU8r, exNamed, Defn.hdr, Defn.name, List.mem_singleton, forall_eq]
    decide
  · simp only [Fresh, exPoint, exNamed, Defn.hdr, Defn.name, List.mem_singleton, forall_eq]
    decide

/-- The definition `u8`, which `point` refers to, cannot be left out. -/
theorem C119_needed : (readFileObject exEnvR (readFiles exEnvR []) { docs := [docU8, docPoint] }).1 = .ok () ∧
    ∃ x, (readFileObject exEnvR (readFiles exEnvR []) { docs := [docPoint] }).1 = .error x := ⟨rfl, _, rfl⟩

end Dtf
