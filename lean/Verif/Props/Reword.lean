import Verif.Reword
import Verif.Props.Relabel
import Verif.Props.Library
import Verif.Props.Fabric
/-!
# Property C82: the documentation in definition files does not matter

`Reworded true y y'`: documents that differ only in the order of keys, in descriptions and in
the urls of the definition.
-/
namespace Dtf

namespace Spec

/-- Files whose documents differ only in the order of keys, in descriptions and in urls. -/
def RewordedFile (f f' : YamlFile) : Prop := RewordedDocs f.docs f'.docs ∧ f.ending = f'.ending

end Spec
open Spec

theorem readFiles_reworded {E : Env} {fs fs' : List YamlFile} (h : All2 RewordedFile fs fs') :
    SameRegistry (readFiles E fs) (readFiles E fs') := by
  have key : ∀ {reg reg' : Registry}, SameRegistry reg reg' →
      SameRegistry (fs.foldl (fun r f => (readFileObject E r f).2) reg)
        (fs'.foldl (fun r f => (readFileObject E r f).2) reg') := by
    induction h with
    | nil => exact id
    | cons h t ih => exact fun hr => ih (readFileObject_reworded hr h.1 h.2).2
  exact key ⟨rfl, rfl, rfl⟩

/-- **C82** Reading a file that differs from another only in the order of keys, descriptions
and urls has the same outcome, also after other such files were read. -/
theorem C82_file (E : Env) (fs fs' : List YamlFile) (h : All2 RewordedFile fs fs') (f f' : YamlFile)
    (hf : RewordedFile f f') :
    (readFileObject E (readFiles E fs) f).1 = (readFileObject E (readFiles E fs') f').1 :=
  (readFileObject_reworded (readFiles_reworded h) hf.1 hf.2).1

/-- **C82** Afterwards the same names are known, and they stand for definitions that are the
same to a user: C81 applies to them. -/
theorem C82_definitions (E : Env) (fs fs' : List YamlFile) (h : All2 RewordedFile fs fs') (n : String) :
    ((readFiles E fs).getByName E n = none ∧ (readFiles E fs').getByName E n = none) ∨
    ∃ d d', (readFiles E fs).getByName E n = some d ∧ (readFiles E fs').getByName E n = some d' ∧
      d.name = d'.name ∧ Relabelled d d' ∧ (d.Every Told → d'.Every Told → Interchangeable E d d') := by
  have := (readFiles_reworded (E := E) h).lookups E n
  cases h1 : (readFiles E fs).getByName E n <;> cases h2 : (readFiles E fs').getByName E n <;>
    rw [h1, h2] at this <;> simp only [Option.map_none, Option.map_some, reduceCtorEq, Option.some.injEq] at this
  · exact .inl ⟨rfl, rfl⟩
  · have hr := relabelled_bare this
    exact .inr ⟨_, _, rfl, rfl, (name_same this).symm, hr, fun hd hd' => C81_same E _ _ hd hd' hr⟩

/-- **C82** The same for data type fabrics: making them fails with the same error, or the maps
they create are the same to a user. -/
theorem C82_fabric (E : Env) (f f' : YamlFile) (h : RewordedFile f f') :
    (∃ e, fabric E (some f) = .error e ∧ fabric E (some f') = .error e) ∨
    ∃ reg reg', fabric E (some f) = .ok reg ∧ fabric E (some f') = .ok reg' ∧
      ∀ n, (fabricDefinition E reg n = none ∧ fabricDefinition E reg' n = none) ∨
        ∃ d d', fabricDefinition E reg n = some d ∧ fabricDefinition E reg' n = some d' ∧
          (d.Every Told → d'.Every Told → Interchangeable E d d') := by
  have := readFileObject_reworded (E := E) (reg := {}) (reg' := {}) ⟨rfl, rfl, rfl⟩ h.1 h.2
  simp only [fabric, fabricDefinition]
  generalize readFileObject E {} f = p at this
  generalize readFileObject E {} f' = p' at this
  obtain ⟨a, r⟩ := p
  obtain ⟨a', r'⟩ := p'
  obtain ⟨h1, h2⟩ := this
  simp only at h1 h2
  subst h1
  cases a with
  | error e => exact .inl ⟨e, rfl, rfl⟩
  | ok a =>
    refine .inr ⟨r, r', rfl, rfl, fun n => ?_⟩
    have := h2.lookups E n
    cases h1 : r.getByName E n <;> cases h2 : r'.getByName E n <;>
      rw [h1, h2] at this <;> simp only [Option.map_none, Option.map_some, reduceCtorEq, Option.some.injEq] at this
    · exact .inl ⟨rfl, rfl⟩
    · exact .inr ⟨_, _, rfl, rfl, fun hd hd' => C81_same E _ _ hd hd' (relabelled_bare this)⟩

/-! ### An example -/

/-- `docPoint` with its keys in another order, urls and descriptions. -/
def docPoint2 : Yaml := doc [("type", .str "structure"), ("urls", .list [.str "http://example.com/"]),
  ("description", .str "A point"), ("attributes", doc [("byte_order", .str "little-endian")]),
  ("members", .list [
    doc [("description", .str "Horizontal"), ("data_type", .str "u8"), ("name", .str "x")],
    doc [("name", .str "y"), ("data_type", .str "u8"), ("condition", .str "point.x > 0")],
    doc [("elements_data_size", .str "point.x"), ("name", .str "data"), ("type", .str "stream"),
      ("element_data_type", .str "u8")]]),
  ("name", .str "point")]

/-- `docU8` with its attributes in another order and a description. -/
def docU82 : Yaml := doc [("name", .str "u8"), ("description", .null), ("type", .str "integer"),
  ("attributes", doc [("size", .int 1), ("units", .str "bytes"), ("format", .str "unsigned")])]

theorem valueOf_doc (k : Key) (s : String) (y : Yaml) (l : List (String × Yaml)) :
    valueOf (((s, y) :: l).map fun e => (Key.str e.1, e.2)) k =
      if k = .str s then some y else valueOf (l.map fun e => (Key.str e.1, e.2)) k := by
  simp only [valueOf, List.map_cons, List.find?_cons]
  by_cases h : k = .str s
  · subst h; simp
  · have : (Key.str s == k) = false := by simpa using fun h' => h h'.symm
    rw [if_neg h, this]

theorem doc_reworded {u : Bool} {l l' : List (String × Yaml)}
    (h : ∀ s ∈ l.map (·.1) ++ l'.map (·.1), SameAt u (.str s)
      (valueOf (l.map fun e => (Key.str e.1, e.2)) (.str s)) (valueOf (l'.map fun e => (Key.str e.1, e.2)) (.str s))) :
    Reworded u (doc l) (doc l') := by
  refine .mapping fun k => ?_
  by_cases hk : ∃ s ∈ l.map (·.1) ++ l'.map (·.1), k = .str s
  · obtain ⟨s, hs, rfl⟩ := hk
    exact h s hs
  · have key : ∀ l : List (String × Yaml), (∀ s ∈ l.map (·.1), k ≠ .str s) →
        valueOf (l.map fun e => (Key.str e.1, e.2)) k = none := by
      intro l hl
      induction l with
      | nil => rfl
      | cons e l ih =>
        rw [valueOf_doc, if_neg (hl e.1 (by simp)), ih fun s hs => hl s (by simp_all)]
    rw [key l fun s hs h => hk ⟨s, List.mem_append_left _ hs, h⟩,
      key l' fun s hs h => hk ⟨s, List.mem_append_right _ hs, h⟩]
    exact .same _

theorem docU8_reworded : Reworded true docU8 docU82 := by
  refine doc_reworded ?_
  simp only [List.map_cons, List.map_nil, List.cons_append, List.nil_append, List.mem_cons, List.not_mem_nil,
    or_false, forall_eq_or_imp, forall_eq]
  refine ⟨.same _, .same _, ?_, .same _, .description (.inl rfl) (.inr (.inl rfl)), .same _, ?_⟩ <;>
  · refine .attributes fun k => ?_
    simp only [valueOf_doc]
    by_cases h1 : k = .str "format"
    · subst h1; rfl
    · by_cases h2 : k = .str "size"
      · subst h2; rfl
      · by_cases h3 : k = .str "units"
        · subst h3; rfl
        · simp only [h1, h2, h3, if_false]

theorem docPoint_reworded : Reworded true docPoint docPoint2 := by
  have hm : RewordedAll [doc [("name", .str "x"), ("data_type", .str "u8")],
      doc [("name", .str "y"), ("data_type", .str "u8"), ("condition", .str "point.x > 0")],
      doc [("name", .str "data"), ("type", .str "stream"), ("element_data_type", .str "u8"),
        ("elements_data_size", .str "point.x")]]
      [doc [("description", .str "Horizontal"), ("data_type", .str "u8"), ("name", .str "x")],
      doc [("name", .str "y"), ("data_type", .str "u8"), ("condition", .str "point.x > 0")],
      doc [("elements_data_size", .str "point.x"), ("name", .str "data"), ("type", .str "stream"),
        ("element_data_type", .str "u8")]] := by
    refine .cons (doc_reworded ?_) (.cons (.same _) (.cons (doc_reworded ?_) .nil))
    · simp only [List.map_cons, List.map_nil, List.cons_append, List.nil_append, List.mem_cons, List.not_mem_nil,
        or_false, forall_eq_or_imp, forall_eq]
      exact ⟨.same _, .same _, .description (.inl rfl) (.inr (.inr ⟨_, rfl⟩)), .same _, .same _⟩
    · simp only [List.map_cons, List.map_nil, List.cons_append, List.nil_append, List.mem_cons, List.not_mem_nil,
        or_false, forall_eq_or_imp, forall_eq]
      exact ⟨.same _, .same _, .same _, .same _, .same _, .same _, .same _, .same _⟩
  refine doc_reworded ?_
  simp only [List.map_cons, List.map_nil, List.cons_append, List.nil_append, List.mem_cons, List.not_mem_nil,
    or_false, forall_eq_or_imp, forall_eq]
  exact ⟨.same _, .same _, .same _, .members hm, .same _, .urls, .description (.inl rfl) (.inr (.inr ⟨_, rfl⟩)),
    .same _, .members hm, .same _⟩

/-- The two files of the example, and what they define. -/
theorem exFiles_reworded : RewordedFile { docs := [docU8, docPoint] } { docs := [docU82, docPoint2] } :=
  ⟨.cons docU8_reworded (.cons docPoint_reworded .nil), rfl⟩

def exPoint2 : Defn := .struct { name := "point", order := .little, description := some "A point" } [
  .member { name := "x", description := some "Horizontal" } exU8r none (some "u8") none,
  .member { name := "y" } exU8r (some "point.x > 0") (some "u8") none,
  .seq { name := "data" }
    { kind := .stream, elementDataType := some "u8", dataSizeExpr := some "point.x" } exU8r]

example : (readFiles exEnvR [{ docs := [docU82, docPoint2] }]).getDefinitions = [exU8r, exPoint2] := rfl

theorem exPoint_told (a b : Option String) (ha : Quiet (a.getD "")) (hb : Quiet (b.getD "")) :
    Defn.Every Told (.struct { name := "point", order := .little, description := a } [
      .member { name := "x", description := b } exU8r none (some "u8") none,
      .member { name := "y" } exU8r (some "point.x > 0") (some "u8") none,
      .seq { name := "data" }
        { kind := .stream, elementDataType := some "u8", dataSizeExpr := some "point.x" } exU8r]) := by
  have key : ∀ s ∈ ["point", "x", "y", "data", "u8", ""], Quiet s := by decide +kernel
  simp only [List.mem_cons, List.not_mem_nil, or_false, forall_eq_or_imp, forall_eq] at key
  obtain ⟨k1, k2, k3, k4, k5, k6⟩ := key
  simp only [Defn.Every, everyDefn, Told, exU8r, and_true]
  refine ⟨⟨?_, ?_⟩, k1, ha, ?_⟩
  · intro x hx y hy
    simp only [List.mem_cons, List.not_mem_nil, or_false] at hx hy
    rcases hx with rfl | rfl | rfl <;> rcases hy with rfl | rfl | rfl <;>
      simp [Defn.target, Defn.name, Defn.hdr]
  · intro x hx
    simp only [List.mem_cons, List.not_mem_nil, or_false] at hx
    rcases hx with rfl | rfl | rfl <;> (simp only [Defn.target, Defn.name, Defn.hdr]; decide +kernel)
  · intro m hm
    simp only [List.mem_cons, List.not_mem_nil, or_false] at hm
    rcases hm with rfl | rfl | rfl <;>
      simp only [Defn.name, Defn.hdr, typeTexts, Option.toList, List.mem_cons, List.not_mem_nil, or_false, forall_eq,
        Option.getD_none] <;> simp only [k2, k3, k4, k5, k6, hb, and_self]

/-- The structures of the two files are the same to a user. -/
example : Interchangeable exEnvR exPoint exPoint2 := by
  rcases C82_definitions exEnvR _ _ (.cons exFiles_reworded .nil) "point" with ⟨h, _⟩ | ⟨d, d', h1, h2, _, _, h⟩
  · exact absurd h (by decide)
  · cases h1
    cases h2
    exact h (exPoint_told none none (by decide +kernel) (by decide +kernel))
      (exPoint_told (some "A point") (some "Horizontal") (by decide +kernel) (by decide +kernel))

/-! ### Urls of members -/

/-- **C82** Unlike definitions, members must not have urls: the file is refused. -/
theorem C82_urls (urls : Yaml) :
    (readFileObject exEnvR {} { docs := [docU8, doc [("name", .str "s"), ("type", .str "structure"),
      ("members", .list [doc [("name", .str "x"), ("data_type", .str "u8")]])]] }).1 = .ok () ∧
    (readFileObject exEnvR {} { docs := [docU8, doc [("name", .str "s"), ("type", .str "structure"),
      ("members", .list [doc [("name", .str "x"), ("data_type", .str "u8"), ("urls", urls)]])]] }).1 =
      .error .format :=
  ⟨rfl, rfl⟩

end Dtf
