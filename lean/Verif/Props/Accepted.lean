import Verif.Props.ClassTexts
/-!
# Property C70: what accepted definition files can still get wrong
-/
namespace Dtf
open Spec

namespace Spec

/-- A definition without byte order: a constant, an enumeration, a structure family, or a
format that declares none. -/
def Unordered : Defn → Prop
  | .constant _ _ | .enumeration _ _ | .family _ _ _ => True
  | .format _ o _ => o = none
  | _ => False

/-- What can be wrong with a definition that a reader accepted, and the error it causes
when a map is created. -/
inductive Mistake (E : Env) : Err → String → Order → Defn → Prop
  /-- elements of a constant, enumeration, family or format -/
  | elements {nm o h i e} : Unordered e → Mistake E .attribute nm o (.seq h i e)
  /-- an expression that is no Python expression -/
  | expression {nm o h i e x} : i.dataSizeExpr = some x ∨ i.numElementsExpr = some x → x ≠ "" →
      E.parses x = false → Mistake E .syntax nm o (.seq h i e)
  /-- a stream or string of composite elements -/
  | composite {nm o h i e} : i.kind ≠ .sequence → e.isComposite = true →
      Mistake E .format nm o (.seq h i e)
  /-- a sequence of a negative data size or number of elements -/
  | negative {nm o h i e n} : FixedCount i → i.dataSize = some n ∨ i.numElements = some n → n < 0 →
      Mistake E .format nm o (.seq h i e)
  /-- a name of a structure or member that is not valid -/
  | names {nm o h ms} : ¬ ValidNames E nm (ms.map (·.name)) → Mistake E .value nm o (.struct h ms)
  | self {nm o h ms n} : n ∈ nm :: ms.map (·.name) → E.pyIdent n = false ∨ n = "self" →
      Mistake E .syntax nm o (.struct h ms)
  /-- padding with a condition or values -/
  | padding {nm o h ms h' h'' a c vs} : .member h' (.padding h'' a) c none vs ∈ ms →
      Mistake E .type nm o (.struct h ms)
  /-- a text that is not inert -/
  | text {nm o h ms t} : Documented nm h.description ms t →
      '\x00' ∈ t.toList ∨ ¬ Legal E (t.toList ++ ['.']) → Mistake E .syntax nm o (.struct h ms)
  | code {nm o h ms t} : Documented nm h.description ms t → ¬ Stays 0 (t.toList ++ ['.']) →
      Mistake E .other nm o (.struct h ms)
  /-- a member of a constant, enumeration, family or format -/
  | members {nm o h ms x} : x ∈ ms → Unordered x.target → Mistake E .attribute nm o (.struct h ms)
  /-- a group of families or groups -/
  | variants {nm o h b i df ms g} : g ∈ ms →
      (∃ h b xs, g = .family h b xs) ∨ (∃ h b i df xs, g = .group h b i df xs) →
      Mistake E .attribute nm o (.group h b i df ms)
  /-- a member of a group whose identifier has no values -/
  | noValues {nm o h b i df ms g mh t c dt} : g ∈ ms →
      Identifier? i g (some (.member mh t c dt none)) → Mistake E .format nm o (.group h b i df ms)
  | plain {nm o h b i df ms g x} : g ∈ ms → Identifier? i g (some x) →
      (∀ mh t c dt vs, x ≠ .member mh t c dt vs) → Mistake E .attribute nm o (.group h b i df ms)
  /-- an identifier value that cannot be a dictionary key -/
  | unhashable {nm o h b i df ms g vs v} : g ∈ ms → IdentifierValues i g vs → v ∈ vs →
      v.isHashable = false → Mistake E .type nm o (.group h b i df ms)
  /-- an identifier value that occurs twice -/
  | duplicate {nm o h b i df ms v w} : DifferentPlaces i ms v w → Alike v w →
      Mistake E .format nm o (.group h b i df ms)

end Spec

theorem unordered_of {d : Defn} (h : d.order? = none) : Unordered d := by
  cases d <;> simp_all [Defn.order?, Unordered]

/-- The definitions whose maps are needed are parts of the definition. -/
theorem needs_every {P : Defn → Prop} {nm o d nm' o' d'} (h : Needs nm o d nm' o' d') (hd : d.Every P) :
    d'.Every P := by
  induction h with
  | itself => exact hd
  | element _ ih => simp only [Defn.Every] at hd; exact ih hd.2
  | member hm _ ih =>
    simp only [Defn.Every, everyDefn_iff] at hd
    exact ih (hd.2 _ hm).target
  | base _ ih => simp only [Defn.Every] at hd; exact ih hd.2.1
  | default _ ih => simp only [Defn.Every, everyOptDefn] at hd; exact ih hd.2.2.1
  | variant hm _ _ _ ih =>
    simp only [Defn.Every, everyDefn_iff] at hd
    exact ih (hd.2.2.2 _ hm)

theorem undescribed_padding {x : Defn} (hx : x.Every WellFormed) (hd : ¬ Described x) :
    ∃ h h' a c vs, x = .member h (.padding h' a) c none vs := by
  cases x with
  | member h t c dt vs =>
    simp only [Defn.Every] at hx
    cases dt with
    | none =>
      have ht := hx.1.2 rfl
      cases t with
      | padding h' a => exact ⟨h, h', a, c, vs, rfl⟩
      | prim => exact absurd trivial hd
      | uuid => exact absurd trivial hd
      | seq h' i e =>
        have := hx.2.self.2.2.2.2
        exact absurd (fun _ => this) hd
      | _ => exact absurd ht id
    | some n =>
      cases t with
      | prim => exact absurd trivial hd
      | uuid => exact absurd trivial hd
      | seq h' i e =>
        have := hx.2.self.2.2.2.2
        exact absurd (fun _ => this) hd
      | _ => exact absurd (by simp [Described]) hd
  | seq h i e =>
    have := hx.self.2.2.2.2
    exact absurd (fun _ => this) hd
  | _ => exact absurd trivial hd

theorem fault_mistake {E : Env} {x nm o d} (h : Fault E x nm o d) (hd : d.Every WellFormed) :
    Mistake E x nm o d := by
  cases h with
  | boolean => exact absurd rfl hd.self.2
  | elementOrder h => exact .elements (unordered_of h)
  | paddingElement h => exact absurd hd.self.2.2.2.1 id
  | expression h1 h2 h3 => exact .expression h1 h2 h3
  | composite h1 h2 => exact .composite h1 h2
  | negativeSize h1 h2 h3 h4 => exact .negative h1 (.inl h2) h3
  | negativeNumber h1 h2 h3 h4 h5 => exact .negative h1 (.inr h3) h4
  | empty h1 h2 h3 =>
    simp only [Defn.Every] at hd
    rcases hd.2.1 with h | ⟨n, hn, h⟩
    · cases h
    · cases h
      rename_i k _
      cases k <;> simp [supportedSizes] at hn
  | names h => exact .names h
  | undescribed hm h =>
    simp only [Defn.Every, everyDefn_iff] at hd
    obtain ⟨h1, h2, a, c, vs, rfl⟩ := undescribed_padding (hd.2 _ hm) h
    exact .padding hm
  | self h1 h2 => exact .self h1 (.inl h2)
  | selfName h1 h2 => exact .self (List.mem_cons_of_mem _ (List.mem_map.mpr ⟨_, h1, h2⟩)) (.inr rfl)
  | text h1 h2 => exact .text h1 h2
  | code h1 h2 => exact .code h1 h2
  | memberOrder h1 h2 h3 => exact .members h2 (unordered_of h3)
  | noMembers => exact absurd rfl hd.self.2.2.2.1
  | noStructure hm h =>
    rename_i g
    obtain ⟨-, inner, hi, -⟩ := hd.self.2.2.2.2.2 g hm
    refine .variants hm ?_
    cases g <;> simp [Defn.members?] at hi
    · exact absurd rfl (h _ _).1
    · exact absurd rfl (h _ _).2
    · exact .inl ⟨_, _, _, rfl⟩
    · exact .inr ⟨_, _, _, _, _, rfl⟩
  | noIdentifier hm h =>
    rename_i g
    obtain ⟨-, inner, hi, hin⟩ := hd.self.2.2.2.2.2 g hm
    obtain ⟨h', xs, hg, hf⟩ := h
    have : inner = xs := by
      rcases hg with rfl | rfl <;> simp [Defn.members?] at hi <;> exact hi.symm
    subst this
    obtain ⟨y, hy, hn⟩ := List.mem_map.mp hin
    have := List.find?_eq_none.mp hf y hy
    exact absurd hn (by simpa using this)
  | noValues h1 h2 => exact .noValues h1 h2
  | badIdentifier h1 h2 h3 => exact .plain h1 h2 h3
  | unhashable h1 h2 h3 h4 => exact .unhashable h1 h2 h3 h4
  | duplicate h1 h2 => exact .duplicate h1 h2

/-- **C70** If a definition of files that were read gets no map, it or a definition whose
map it needs has a mistake that causes this error. -/
theorem C70_cause (E : Env) (fs : List YamlFile) (d : Defn) (hd : d ∈ (readFiles E fs).getDefinitions)
    (x : Err) (hx : createMap E d = .error x) :
    ∃ nm o d', Needs d.name d.orderOrNative d nm o d' ∧ Mistake E x nm o d' := by
  have hw := (C41_wellformed_partial E fs d hd).1
  obtain ⟨nm, o, d', hn, h | h⟩ := C67_cause E d x hx
  · exact ⟨nm, o, d', hn, fault_mistake h (needs_every hn hw)⟩
  · cases h with
    | member h1 h2 => exact ⟨_, _, _, hn, .members h1 (unordered_of h2)⟩

/-- So a definition of files without such mistakes gets a map. -/
theorem C70_maps (E : Env) (fs : List YamlFile) (d : Defn) (hd : d ∈ (readFiles E fs).getDefinitions)
    (h : ∀ nm o d' x, Needs d.name d.orderOrNative d nm o d' → ¬ Mistake E x nm o d') :
    ∃ m, createMap E d = .ok m := by
  cases hm : createMap E d with
  | ok m => exact ⟨m, rfl⟩
  | error x =>
    obtain ⟨nm, o, d', hn, hx⟩ := C70_cause E fs d hd x hm
    exact absurd hx (h nm o d' x hn)

/-- Division by zero does not happen, and TypeError is raised for padding with a
condition or values and for identifier values that are no dictionary keys only. -/
theorem C70_errors (E : Env) (fs : List YamlFile) (d : Defn) (hd : d ∈ (readFiles E fs).getDefinitions) :
    createMap E d ≠ .error .zeroDiv ∧
    (createMap E d = .error .type → ∃ nm o d', Needs d.name d.orderOrNative d nm o d' ∧
      ((∃ h ms h' h'' a c vs, d' = .struct h ms ∧ .member h' (.padding h'' a) c none vs ∈ ms) ∨
       (∃ h b i df ms g vs v, d' = .group h b i df ms ∧ g ∈ ms ∧ IdentifierValues i g vs ∧ v ∈ vs ∧
          v.isHashable = false))) := by
  constructor
  · intro hx
    obtain ⟨nm, o, d', hn, h⟩ := C70_cause E fs d hd _ hx
    cases h
  · intro hx
    obtain ⟨nm, o, d', hn, h⟩ := C70_cause E fs d hd _ hx
    refine ⟨nm, o, d', hn, ?_⟩
    cases h with
    | padding h => exact .inl ⟨_, _, _, _, _, _, _, rfl, h⟩
    | unhashable h1 h2 h3 h4 => exact .inr ⟨_, _, _, _, _, _, _, _, rfl, h1, h2, h3, h4⟩

/-! ### Every mistake is possible -/

/-- The file is accepted and creating the map of `n` raises the error. -/
def Breaks (docs : List Yaml) (n : String) (x : Err) (E : Env := exEnvR) : Prop :=
  (readFileObject E {} { docs := docs }).1 = .ok () ∧
  (readFileObject E {} { docs := docs }).2.createDataTypeMap E n = .error x

/-- Python does not accept `1 +` as an expression. -/
def exEnvX : Env := { exEnvR with parses := fun s => s != "1 +" }

def docSeq (ty el : String) (n : Int) : Yaml := doc [("name", .str "s"), ("type", .str ty),
  ("element_data_type", .str el), ("number_of_elements", .int n)]
def docOne (member : List (String × Yaml)) : Yaml := doc [("name", .str "t"), ("type", .str "structure"),
  ("members", .list [doc member])]
def docTwo (a b : List (String × Yaml)) : Yaml := doc [("name", .str "t"), ("type", .str "structure"),
  ("members", .list [doc a, doc b])]
def docGroup (ms : List String) : Yaml := doc [("name", .str "g"), ("type", .str "structure-group"),
  ("base", .str "t"), ("identifier", .str "a"), ("members", .list (ms.map .str))]
def docFamily : Yaml := doc [("name", .str "a"), ("type", .str "structure-family"),
  ("base", .str "t"), ("members", .list [.str "t"])]
def docOuter : Yaml := doc [("name", .str "f"), ("type", .str "structure-family"),
  ("base", .str "t"), ("members", .list [.str "a"])]

/-- **C70** The list cannot be shortened: for every kind of mistake there is a file that
is accepted. (Texts that are not inert: `C68_path_refuted`, `C68_code_refuted`.) -/
theorem C70_each :
    -- elements and members of an enumeration
    Breaks [docEnum, docSeq "sequence" "e" 2] "s" .attribute ∧
    Breaks [docEnum, docOne [("name", .str "a"), ("data_type", .str "e")]] "t" .attribute ∧
    -- an expression
    Breaks [docU8, doc [("name", .str "s"), ("type", .str "stream"), ("element_data_type", .str "u8"),
      ("elements_data_size", .str "1 +")]] "s" .syntax exEnvX ∧
    -- composite elements of a stream
    Breaks [docU8, docOne [("name", .str "a"), ("data_type", .str "u8")], docSeq "stream" "t" 2] "s" .format ∧
    -- a negative number of elements
    Breaks [docU8, docSeq "sequence" "u8" (-1)] "s" .format ∧
    -- names
    Breaks [docU8, docOne [("name", .str "class"), ("data_type", .str "u8")]] "t" .value ∧
    Breaks [docU8, docOne [("name", .str "self"), ("data_type", .str "u8")]] "t" .syntax ∧
    -- padding with a condition
    Breaks [docU8, docTwo [("name", .str "a"), ("data_type", .str "u8")]
      [("name", .str "p"), ("type", .str "padding"), ("alignment_size", .int 4), ("condition", .str "t.a > 0")]]
      "t" .type ∧
    -- a group of families that contain a family with the name of the identifier
    Breaks [docU8, docOne [("name", .str "a"), ("data_type", .str "u8")], docFamily, docOuter, docGroup ["f"]]
      "g" .attribute ∧
    -- identifiers without values, without a place for values, with values that are no keys
    -- and with the same value twice
    Breaks [docU8, docOne [("name", .str "a"), ("data_type", .str "u8")], docGroup ["t"]] "g" .format ∧
    Breaks [docU8, docOne [("name", .str "a"), ("type", .str "stream"), ("element_data_type", .str "u8"),
      ("number_of_elements", .int 1)], docGroup ["t"]] "g" .attribute ∧
    Breaks [docU8, docOne [("name", .str "a"), ("data_type", .str "u8"), ("values", .list [.list []])],
      docGroup ["t"]] "g" .type ∧
    Breaks [docU8, docOne [("name", .str "a"), ("data_type", .str "u8"), ("values", .list [.int 1, .int 1])],
      docGroup ["t"]] "g" .format :=
  ⟨⟨rfl, rfl⟩, ⟨rfl, rfl⟩, ⟨rfl, rfl⟩, ⟨rfl, rfl⟩, ⟨rfl, rfl⟩, ⟨rfl, rfl⟩, ⟨rfl, rfl⟩, ⟨rfl, rfl⟩, ⟨rfl, rfl⟩,
    ⟨rfl, rfl⟩, ⟨rfl, rfl⟩, ⟨rfl, rfl⟩, ⟨rfl, rfl⟩⟩

/-- A file without mistakes: the hypothesis of `C70_maps` for its structure. -/
def exOneMember : Defn := .struct { name := "t" } [.member { name := "a" } exU8r none (some "u8") none]

example : exOneMember ∈ (readFiles exEnvR [{ docs := [docU8, docOne [("name", .str "a"), ("data_type", .str "u8")]] }]).getDefinitions ∧
    ∀ nm o d' x, Needs exOneMember.name exOneMember.orderOrNative exOneMember nm o d' → ¬ Mistake exEnvR x nm o d' := by
  refine ⟨List.mem_cons_of_mem _ (List.mem_singleton.mpr rfl), ?_⟩
  intro nm o d' x hn hx
  have inert : ∀ t, Documented "t" none [.member { name := "a" } exU8r none (some "u8") none] t →
      Inert exEnvR t.toList := by
    intro t ht
    apply C68_plain_partial
    cases ht with
    | title h =>
      rcases h with ⟨h, -⟩ | ⟨-, rfl⟩
      · cases h
      · decide
    | name h => rw [List.mem_singleton] at h; subst h; decide
    | type h h' =>
      rw [List.mem_singleton] at h
      subst h
      cases h' with
      | data h1 => exact absurd rfl (h1 _ _ _ _)
    | about h h' =>
      rw [List.mem_singleton] at h
      subst h
      rcases h' with ⟨h, -⟩ | ⟨-, rfl⟩
      · cases h
      · decide
  cases hn with
  | itself =>
    cases hx with
    | names h =>
      refine h ⟨⟨isIdentifier_iff.mp (by decide), by decide⟩, by decide, ?_, by decide⟩
      intro n hn
      rw [List.map_singleton, List.mem_singleton] at hn
      subst hn
      exact ⟨isIdentifier_iff.mp (by decide), by decide, by decide⟩
    | self h h' =>
      rcases List.mem_cons.mp h with rfl | h
      · revert h'; decide
      · rw [List.map_singleton, List.mem_singleton] at h
        subst h
        revert h'; decide
    | padding h => cases h with | tail _ h => cases h
    | text h h' =>
      rcases h' with h' | h'
      · exact (inert _ h).noNull h'
      · exact h' (inert _ h).legal
    | code h h' => exact h' (inert _ h).stays
    | members h h' => rw [List.mem_singleton] at h; subst h; exact h'
  | member h h' =>
    rw [List.mem_singleton] at h
    subst h
    cases h'
    cases hx

end Dtf
