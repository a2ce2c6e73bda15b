import Verif.Props.Documents
/-!
C55: what reading files means, without a registry: every document describes its
definition with the definitions before it, and names and aliases are fresh.
-/
namespace Dtf
namespace Spec

/-- The definition a name refers to: the definition with that name, ignoring case,
otherwise the definition with that alias. -/
def findName (E : Env) (prev : List Defn) (n : String) : Option Defn :=
  match prev.find? (E.lower ·.name == E.lower n) with
  | some d => some d
  | none => prev.find? (·.hdr.aliases.contains n)

/-- The definition can be added: no definition has its name, ignoring case, and
neither its name nor an alias of it is an alias of a definition. -/
def Fresh (E : Env) (prev : List Defn) (x : Defn) : Prop :=
  ∀ d ∈ prev, E.lower d.name ≠ E.lower x.name ∧ x.name ∉ d.hdr.aliases ∧
    ∀ a ∈ x.hdr.aliases, a ∉ d.hdr.aliases

/-- The documents describe the definitions, after those of `prev`. -/
inductive Library (E : Env) : List Defn → List Yaml → List Defn → Prop
  | nil {prev : List Defn} : Library E prev [] []
  | cons {prev : List Defn} {d : Yaml} {ds : List Yaml} {x : Defn} {xs : List Defn}
      (hd : Describes E (findName E prev) d x) (hf : Fresh E prev x)
      (h : Library E (prev ++ [x]) ds xs) : Library E prev (d :: ds) (x :: xs)

end Spec
open Spec

/-- The registry holds exactly the definitions of the list, in order. -/
structure Registry.Holds (E : Env) (r : Registry) (prev : List Defn) : Prop where
  definitions : r.definitions = prev.map fun d => (E.lower d.name, d)
  aliases : ∀ a, dictGet r.aliases a =
    (prev.find? (·.hdr.aliases.contains a)).map (E.lower ·.name)
  nodup : (prev.map (E.lower ·.name)).Nodup

theorem holds_empty (E : Env) : Registry.Holds E {} [] := ⟨rfl, fun _ => rfl, by simp⟩

theorem Registry.Holds.getDefinitions {E : Env} {r : Registry} {prev : List Defn}
    (h : r.Holds E prev) : r.getDefinitions = prev := by
  simp only [Registry.getDefinitions, h.definitions, List.map_map]
  exact List.map_id' prev

theorem dictGet_lower (E : Env) (prev : List Defn) (k : String) :
    dictGet (prev.map fun d => (E.lower d.name, d)) k = prev.find? (E.lower ·.name == k) := by
  induction prev with
  | nil => rfl
  | cons d prev ih =>
    simp only [dictGet, List.map_cons] at ih ⊢
    by_cases hd : (E.lower d.name == k) = true
    · rw [List.find?_cons_of_pos (by simpa using hd), List.find?_cons_of_pos (by simpa using hd)]
      rfl
    · rw [List.find?_cons_of_neg (by simpa using hd), List.find?_cons_of_neg (by simpa using hd)]
      exact ih

theorem dictHas_lower (E : Env) (prev : List Defn) (k : String) :
    dictHas (prev.map fun d => (E.lower d.name, d)) k = (prev.find? (E.lower ·.name == k)).isSome := by
  cases h : prev.find? (E.lower ·.name == k) with
  | none => rw [← dictGet_lower, dictGet_none_iff] at h; exact h
  | some d =>
    rw [← dictGet_lower] at h
    cases hh : dictHas (prev.map fun d => (E.lower d.name, d)) k
    · rw [← dictGet_none_iff, h] at hh; cases hh
    · rfl

/-- The definition with a lower-case name is unique. -/
theorem find_unique {E : Env} {prev : List Defn} (hn : (prev.map (E.lower ·.name)).Nodup) {d : Defn}
    (hd : d ∈ prev) : prev.find? (E.lower ·.name == E.lower d.name) = some d := by
  induction prev with
  | nil => cases hd
  | cons e prev ih =>
    simp only [List.map_cons, List.nodup_cons] at hn
    rcases List.mem_cons.mp hd with rfl | hd
    · exact List.find?_cons_of_pos (by simp)
    · rw [List.find?_cons_of_neg, ih hn.2 hd]
      simp only [beq_iff_eq]
      intro he
      exact hn.1 (he ▸ List.mem_map.mpr ⟨d, hd, rfl⟩)

theorem Registry.Holds.getByName {E : Env} {r : Registry} {prev : List Defn} (h : r.Holds E prev)
    (n : String) : r.getByName E n = findName E prev n := by
  simp only [Registry.getByName, h.definitions, dictHas_lower, dictGet_lower, h.aliases, findName]
  cases hf : prev.find? (E.lower ·.name == E.lower n) with
  | some d => simp [hf]
  | none =>
    simp only [Option.isSome_none, Bool.false_eq_true, if_false]
    cases ha : prev.find? (·.hdr.aliases.contains n) with
    | none => simp [hf]
    | some d =>
      simp only [Option.map_some, Option.getD_some]
      exact find_unique h.nodup (List.mem_of_find?_eq_some ha)

theorem Registry.Holds.fresh {E : Env} {r : Registry} {prev : List Defn} (h : r.Holds E prev)
    (x : Defn) : (r.register E x).1 = .ok () ↔ Fresh E prev x := by
  have hd : dictHas r.definitions (E.lower x.name) = false ↔
      ∀ d ∈ prev, E.lower d.name ≠ E.lower x.name := by
    rw [h.definitions, dictHas_lower]
    cases hf : prev.find? (E.lower ·.name == E.lower x.name) with
    | none =>
      simp only [List.find?_eq_none, beq_iff_eq] at hf
      simp only [Option.isSome_none, true_iff]
      exact hf
    | some d =>
      simp only [Option.isSome_some, Bool.true_eq_false, false_iff]
      intro hn
      exact hn d (List.mem_of_find?_eq_some hf) (by simpa using List.find?_some hf)
  have ha : ∀ a, dictHas r.aliases a = false ↔ ∀ d ∈ prev, a ∉ d.hdr.aliases := by
    intro a
    rw [← dictGet_none_iff, h.aliases, Option.map_eq_none_iff, List.find?_eq_none]
    simp
  constructor
  · intro hr
    obtain ⟨h1, h2, h3, -, -⟩ := register_ok hr
    intro d hm
    exact ⟨hd.mp h1 d hm, (ha _).mp h2 d hm, fun a hax => (ha a).mp (h3 a hax) d hm⟩
  · intro hf
    unfold Registry.register
    simp only
    rw [if_neg, if_neg, if_neg]
    · simp only [List.any_eq_true, not_exists, not_and, Bool.not_eq_true]
      exact fun a hax => (ha a).mpr fun d hm => (hf d hm).2.2 a hax
    · rw [(ha _).mpr fun d hm => (hf d hm).2.1]; simp
    · rw [hd.mpr fun d hm => (hf d hm).1]; simp

theorem Registry.Holds.register {E : Env} {r : Registry} {prev : List Defn} (h : r.Holds E prev)
    {x : Defn} (hr : (r.register E x).1 = .ok ()) : (r.register E x).2.Holds E (prev ++ [x]) := by
  have hf := (h.fresh x).mp hr
  obtain ⟨h1, h2, h3, h4, h5⟩ := register_ok hr
  refine ⟨?_, ?_, ?_⟩
  · rw [h4, h.definitions]; simp
  · intro a
    rw [h5, h.aliases, List.find?_append]
    by_cases hax : a ∈ x.hdr.aliases
    · rw [if_pos hax]
      have : prev.find? (·.hdr.aliases.contains a) = none := by
        rw [List.find?_eq_none]
        intro d hm
        simpa using (hf d hm).2.2 a hax
      rw [this]
      simp [hax]
    · rw [if_neg hax]
      have : [x].find? (·.hdr.aliases.contains a) = none := by
        simp [hax]
      rw [this]
      simp
  · simp only [List.map_append, List.map_cons, List.map_nil]
    rw [List.nodup_append]
    refine ⟨h.nodup, by simp, ?_⟩
    intro a hm b hb
    obtain ⟨d, hd, rfl⟩ := List.mem_map.mp hm
    simp only [List.mem_singleton] at hb
    subst hb
    exact (hf d hd).1

/-- Reading all documents, in terms of the definitions alone. -/
theorem readDocs_library {E : Env} {r : Registry} {prev : List Defn} (h : r.Holds E prev)
    (ds : List Yaml) (xs : List Defn) :
    ((readDocs E r ds).1 = .ok () ∧ (readDocs E r ds).2.getDefinitions = prev ++ xs) ↔
      Library E prev ds xs := by
  have hlook : r.getByName E = findName E prev := funext h.getByName
  induction ds generalizing r prev xs with
  | nil =>
    simp only [readDocs, h.getDefinitions, true_and]
    constructor
    · intro he
      have : xs = [] := by simpa using he
      subst this
      exact .nil
    · intro hl
      cases hl
      simp
  | cons d ds ih =>
    constructor
    · intro hr
      unfold readDocs at hr
      cases hd : readDefinition E r d with
      | error e => rw [hd] at hr; cases hr.1
      | ok x =>
        rw [hd] at hr
        simp only at hr
        have hdesc := (C54_document E r d x).mp hd
        rw [hlook] at hdesc
        cases hp : r.register E x with
        | mk res r1 =>
          rw [hp] at hr
          cases res with
          | error e => cases hr.1
          | ok u =>
            simp only at hr
            have hok : (r.register E x).1 = .ok () := by rw [hp]
            have h1 := h.register hok
            rw [hp] at h1
            simp only at h1
            obtain ⟨k, ys, hk, hl, -, -⟩ := readDocs_loaded E ds r1
            have hdefs := hl.definitions
            rw [h1.getDefinitions, hr.2] at hdefs
            have hxs : xs = x :: ys := by
              have : prev ++ xs = prev ++ (x :: ys) := by rw [hdefs]; simp
              exact List.append_cancel_left this
            subst hxs
            refine .cons hdesc ((h.fresh x).mp hok) ((ih h1 ys (funext h1.getByName)).mp ⟨hr.1, ?_⟩)
            rw [hr.2]; simp
    · intro hl
      cases hl with
      | @cons _ _ _ x xs hd hf hl =>
        rw [← hlook] at hd
        have hd := (C54_document E r d x).mpr hd
        have hok := (h.fresh x).mpr hf
        have h1 := h.register hok
        unfold readDocs
        rw [hd]
        simp only
        cases hp : r.register E x with
        | mk res r1 =>
          rw [hp] at hok h1
          simp only at hok h1
          subst hok
          simp only
          obtain ⟨ha, hb⟩ := (ih h1 xs (funext h1.getByName)).mpr hl
          exact ⟨ha, by rw [hb]; simp⟩

theorem loaded_holds {E : Env} {r r' : Registry} {prev : List Defn} {ds : List Yaml} {xs : List Defn}
    (hl : Loaded E r ds xs r') (h : r.Holds E prev) : r'.Holds E (prev ++ xs) := by
  induction hl generalizing prev with
  | nil r => simpa using h
  | @cons r r1 r2 d x ds xs hd hr hl ih =>
    have h1 := h.register (x := x) (by rw [hr])
    rw [hr] at h1
    have := ih h1
    simpa using this

theorem readFiles_holds (E : Env) (fs : List YamlFile) :
    (readFiles E fs).Holds E (readFiles E fs).getDefinitions := by
  have : ∀ (fs : List YamlFile) (r : Registry), r.Holds E r.getDefinitions →
      (fs.foldl (fun r f => (readFileObject E r f).2) r).Holds E
        (fs.foldl (fun r f => (readFileObject E r f).2) r).getDefinitions := by
    intro fs
    induction fs with
    | nil => exact fun _ h => h
    | cons f fs ih =>
      intro r h
      rw [List.foldl_cons]
      apply ih
      obtain ⟨k, xs, _, h1, h2, _⟩ := C44_stops E r f
      rw [h2]
      exact loaded_holds h1 h
  exact this fs {} (holds_empty E)

theorem readFileObject_library {E : Env} {r : Registry} {prev : List Defn} (h : r.Holds E prev)
    (f : YamlFile) (xs : List Defn) :
    ((readFileObject E r f).1 = .ok () ∧ (readFileObject E r f).2.getDefinitions = prev ++ xs) ↔
      f.ending = .done ∧ Library E prev f.docs xs := by
  rw [← readDocs_library h]
  unfold readFileObject
  generalize readDocs E r f.docs = p
  rcases p with ⟨_ | _, r'⟩
  · simp
  · cases f.ending <;> simp

/-- **C55**. After reading any files, a further file is accepted with the
definitions `xs` exactly when its documents describe `xs`, given the definitions
registered before. -/
theorem C55_file (E : Env) (fs : List YamlFile) (f : YamlFile) (xs : List Defn) :
    ((readFileObject E (readFiles E fs) f).1 = .ok () ∧
      (readFiles E (fs ++ [f])).getDefinitions = (readFiles E fs).getDefinitions ++ xs) ↔
    f.ending = .done ∧ Library E (readFiles E fs).getDefinitions f.docs xs := by
  rw [← readFileObject_library (readFiles_holds E fs)]
  simp [readFiles]

/-- GetDefinitionByName after reading files. -/
theorem C55_lookup (E : Env) (fs : List YamlFile) (n : String) :
    (readFiles E fs).getByName E n = findName E (readFiles E fs).getDefinitions n :=
  (readFiles_holds E fs).getByName n

/-! ### Several files -/

theorem library_append {E : Env} {prev : List Defn} {ds es : List Yaml} {zs : List Defn} :
    Library E prev (ds ++ es) zs ↔
      ∃ xs ys, zs = xs ++ ys ∧ Library E prev ds xs ∧ Library E (prev ++ xs) es ys := by
  induction ds generalizing prev zs with
  | nil =>
    constructor
    · intro h
      exact ⟨[], zs, rfl, .nil, by simpa using h⟩
    · rintro ⟨xs, ys, rfl, hx, hy⟩
      cases hx
      simpa using hy
  | cons d ds ih =>
    constructor
    · intro h
      cases h with
      | cons hd hf h =>
        obtain ⟨xs, ys, rfl, hx, hy⟩ := ih.mp h
        exact ⟨_ :: xs, ys, rfl, .cons hd hf hx, by simpa using hy⟩
    · rintro ⟨xs, ys, rfl, hx, hy⟩
      cases hx with
      | cons hd hf hx =>
        exact .cons hd hf (ih.mpr ⟨_, _, rfl, hx, by simpa using hy⟩)

/-- Splitting the documents over two files makes no difference. -/
theorem C55_split (E : Env) (fs : List YamlFile) (ds es : List Yaml) (zs : List Defn) :
    ((readFileObject E (readFiles E fs) { docs := ds ++ es }).1 = .ok () ∧
      (readFiles E (fs ++ [{ docs := ds ++ es }])).getDefinitions =
        (readFiles E fs).getDefinitions ++ zs) ↔
    ((readFileObject E (readFiles E fs) { docs := ds }).1 = .ok () ∧
      (readFileObject E (readFiles E (fs ++ [{ docs := ds }])) { docs := es }).1 = .ok () ∧
      (readFiles E (fs ++ [{ docs := ds }, { docs := es }])).getDefinitions =
        (readFiles E fs).getDefinitions ++ zs) := by
  have hsplit : fs ++ [({ docs := ds } : YamlFile), { docs := es }] =
      (fs ++ [{ docs := ds }]) ++ [{ docs := es }] := by simp
  rw [C55_file, hsplit]
  simp only [true_and]
  rw [library_append]
  constructor
  · rintro ⟨xs, ys, rfl, hx, hy⟩
    obtain ⟨h1, h2⟩ := (C55_file E fs { docs := ds } xs).mpr ⟨rfl, hx⟩
    rw [← h2] at hy
    obtain ⟨h3, h4⟩ := (C55_file E _ { docs := es } ys).mpr ⟨rfl, hy⟩
    refine ⟨h1, h3, ?_⟩
    rw [h4, h2]
    simp
  · rintro ⟨h1, h3, h4⟩
    obtain ⟨k, xs, _, _, h2, _⟩ := C44_stops E (readFiles E fs) { docs := ds }
    have h2' : (readFiles E (fs ++ [{ docs := ds }])).getDefinitions =
        (readFiles E fs).getDefinitions ++ xs := by
      rw [← h2]
      simp [readFiles]
    obtain ⟨k, ys, _, _, h5, _⟩ := C44_stops E (readFiles E (fs ++ [{ docs := ds }])) { docs := es }
    have h5' : (readFiles E (fs ++ [{ docs := ds }] ++ [{ docs := es }])).getDefinitions =
        (readFiles E (fs ++ [{ docs := ds }])).getDefinitions ++ ys := by
      rw [← h5]
      simp [readFiles]
    have hx := ((C55_file E fs { docs := ds } xs).mp ⟨h1, h2'⟩).2
    have hy := ((C55_file E _ { docs := es } ys).mp ⟨h3, h5'⟩).2
    rw [h2'] at hy
    refine ⟨xs, ys, ?_, hx, hy⟩
    rw [h5', h2', List.append_assoc] at h4
    exact (List.append_cancel_left h4).symm

/-! ### Definitions that are added later -/

/-- **C56**, names: what a definition's name refers to does not change when
further files are read. -/
theorem C56_name_partial (E : Env) (fs gs : List YamlFile) (d : Defn) (n : String)
    (hd : d ∈ (readFiles E fs).getDefinitions) (hn : E.lower d.name = E.lower n) :
    (readFiles E fs).getByName E n = some d ∧ (readFiles E (fs ++ gs)).getByName E n = some d := by
  have h1 := readFiles_holds E fs
  have h2 := readFiles_holds E (fs ++ gs)
  have hmem : ∀ (gs : List YamlFile) (r : Registry), d ∈ r.getDefinitions →
      d ∈ (gs.foldl (fun r f => (readFileObject E r f).2) r).getDefinitions := by
    intro gs
    induction gs with
    | nil => exact fun _ h => h
    | cons f gs ih =>
      intro r h
      rw [List.foldl_cons]
      apply ih
      obtain ⟨k, xs, _, _, h2, _⟩ := C44_stops E r f
      rw [h2]
      exact List.mem_append_left _ h
  have hd2 : d ∈ (readFiles E (fs ++ gs)).getDefinitions := by
    simp only [readFiles, List.foldl_append]
    exact hmem gs _ hd
  refine ⟨?_, ?_⟩
  · rw [h1.getByName, findName, ← hn, find_unique h1.nodup hd]
  · rw [h2.getByName, findName, ← hn, find_unique h2.nodup hd2]

/-- **C56**: whatever a name refers to, it still refers to after further files were
read, provided that no definition has the name, ignoring case, or the definition
it refers to has it. -/
theorem C56_alias_partial (E : Env) (fs gs : List YamlFile) (d : Defn) (n : String)
    (hn : (readFiles E fs).getByName E n = some d)
    (hc : ∀ x ∈ (readFiles E (fs ++ gs)).getDefinitions, E.lower x.name = E.lower n → x = d) :
    (readFiles E (fs ++ gs)).getByName E n = some d := by
  have h1 := readFiles_holds E fs
  have h2 := readFiles_holds E (fs ++ gs)
  have happ : ∀ (gs : List YamlFile) (r : Registry), ∃ xs,
      (gs.foldl (fun r f => (readFileObject E r f).2) r).getDefinitions = r.getDefinitions ++ xs := by
    intro gs
    induction gs with
    | nil => exact fun r => ⟨[], by simp⟩
    | cons f gs ih =>
      intro r
      rw [List.foldl_cons]
      obtain ⟨k, xs, _, _, h2, _⟩ := C44_stops E r f
      obtain ⟨ys, hy⟩ := ih (readFileObject E r f).2
      exact ⟨xs ++ ys, by rw [hy, h2]; simp⟩
  obtain ⟨xs, hx⟩ := happ gs (readFiles E fs)
  have hx : (readFiles E (fs ++ gs)).getDefinitions = (readFiles E fs).getDefinitions ++ xs := by
    simp only [readFiles, List.foldl_append] at hx ⊢
    exact hx
  rw [h1.getByName, findName] at hn
  rw [h2.getByName, findName]
  cases hf : (readFiles E (fs ++ gs)).getDefinitions.find? (E.lower ·.name == E.lower n) with
  | some x =>
    simp only [Option.some.injEq]
    exact hc x (List.mem_of_find?_eq_some hf) (by simpa using List.find?_some hf)
  | none =>
    rw [hx, List.find?_append, Option.or_eq_none_iff] at hf
    rw [hf.1] at hn
    simp only at hn ⊢
    rw [hx, List.find?_append, hn]
    rfl

/-! ### Examples -/

/-- An integer of one byte with a name and aliases. -/
def docNamed (n : String) (aliases : List String) : Yaml := doc [("name", .str n),
  ("aliases", .list (aliases.map .str)), ("type", .str "integer"),
  ("attributes", doc [("size", .int 1)])]

def exEnvRL : Env := { exEnvL with parseInt := fun _ => none }

def exNamed (n : String) (aliases : List String) : Defn :=
  .prim { name := n, aliases := aliases } (.integer false) (.bytes 1) "bytes"

/-- **C56** is false: an alias of a definition refers to another definition after
a file was read in which a definition has that name in other case. -/
theorem C56_refuted :
    (readFileObject exEnvRL {} { docs := [docNamed "word" ["a"]] }).1 = .ok () ∧
    (readFileObject exEnvRL (readFiles exEnvRL [{ docs := [docNamed "word" ["a"]] }])
      { docs := [docNamed "A" []] }).1 = .ok () ∧
    (readFiles exEnvRL [{ docs := [docNamed "word" ["a"]] }]).getByName exEnvRL "a" =
      some (exNamed "word" ["a"]) ∧
    (readFiles exEnvRL [{ docs := [docNamed "word" ["a"]] }, { docs := [docNamed "A" []] }]).getByName
      exEnvRL "a" = some (exNamed "A" []) :=
  ⟨rfl, rfl, rfl, rfl⟩

/-- The hypotheses of `C56_name_partial` and `C56_alias_partial`. -/
example : exNamed "word" ["a"] ∈
      (readFiles exEnvRL [{ docs := [docNamed "word" ["a"]] }]).getDefinitions ∧
    (readFiles exEnvRL ([{ docs := [docNamed "word" ["a"]] }] ++
      [{ docs := [docNamed "other" []] }])).getByName exEnvRL "a" = some (exNamed "word" ["a"]) := by
  refine ⟨List.mem_cons_self, C56_alias_partial exEnvRL _ _ _ _ rfl ?_⟩
  intro x hx
  have : (readFiles exEnvRL ([{ docs := [docNamed "word" ["a"]] }] ++
      [{ docs := [docNamed "other" []] }])).getDefinitions =
      [exNamed "word" ["a"], exNamed "other" []] := rfl
  rw [this] at hx
  simp only [List.mem_cons, List.not_mem_nil, or_false] at hx
  rcases hx with rfl | rfl
  · exact fun _ => rfl
  · intro h
    exact absurd h (by decide)

/-- The two documents of the reader examples describe their definitions. -/
example : Library exEnvR [] [docU8, docPoint] [exU8r, exPoint] :=
  ((C55_file exEnvR [] { docs := [docU8, docPoint] } [exU8r, exPoint]).mp ⟨rfl, rfl⟩).2

example : Describes exEnvR (findName exEnvR [exU8r]) docPoint exPoint := by
  have := ((C55_file exEnvR [] { docs := [docU8, docPoint] } [exU8r, exPoint]).mp ⟨rfl, rfl⟩).2
  cases this with
  | cons _ _ h => cases h with
    | cons hd _ _ => exact hd

end Dtf
