import Verif.Respell
import Verif.Props.Reword
/-!
# Property C109: it does not matter by which of its names a type is referred to

`Respelled R y y'` (module `Respell`): documents that differ only in the names under `data_type`,
`element_data_type`, `base` and `default`, and in the names of the members of families and groups; `R` says
which names may be exchanged.
-/
namespace Dtf

namespace Spec

/-- Two names that stand for the same definition, or for none. -/
def SameMeaning (E : Env) (reg : Registry) (n n' : String) : Prop :=
  n ≠ "" ∧ n' ≠ "" ∧ reg.getByName E n = reg.getByName E n'

/-- Documents that differ only in the names by which types are referred to: in each of them a name is replaced
by another one that stands for the same definition after the documents before it were read. -/
inductive RespelledDocs (E : Env) : Registry → List Yaml → List Yaml → Prop
  | nil {reg} : RespelledDocs E reg [] []
  | cons {reg y y' l l'} (h : Respelled (SameMeaning E reg) y y')
      (t : ∀ d, readDefinition E reg y = .ok d → RespelledDocs E (reg.register E d).2 l l') :
      RespelledDocs E reg (y :: l) (y' :: l')

/-- The same for files that are read one after another. -/
inductive RespelledFiles (E : Env) : Registry → List YamlFile → List YamlFile → Prop
  | nil {reg} : RespelledFiles E reg [] []
  | cons {reg f f' l l'} (h : RespelledDocs E reg f.docs f'.docs) (he : f.ending = f'.ending)
      (t : RespelledFiles E (readFileObject E reg f).2 l l') : RespelledFiles E reg (f :: l) (f' :: l')

end Spec
open Spec

/-! ### Registries -/

/-- Registries that are the same but for the names by which the definitions refer to others. -/
structure RespeltRegistry (reg reg' : Registry) : Prop where
  aliases : reg'.aliases = reg.aliases
  definitions : All2 (fun p p' => p'.1 = p.1 ∧ Respelt p.2 p'.2) reg.definitions reg'.definitions

theorem dictHas_respelt {l l' : List (String × Defn)} (h : All2 (fun p p' => p'.1 = p.1 ∧ Respelt p.2 p'.2) l l')
    (k : String) : dictHas l' k = dictHas l k := by
  induction h with
  | nil => rfl
  | cons h _ ih =>
    simp only [dictHas, List.any_cons] at ih ⊢
    rw [ih, h.1]

theorem dictGet_respelt {l l' : List (String × Defn)} (h : All2 (fun p p' => p'.1 = p.1 ∧ Respelt p.2 p'.2) l l')
    (k : String) : FoundAlike (dictGet l k) (dictGet l' k) := by
  induction h with
  | nil => exact .inl ⟨rfl, rfl⟩
  | @cons p p' _ _ h _ ih =>
    simp only [dictGet, List.find?_cons] at ih ⊢
    rw [h.1]
    split
    · exact .inr ⟨p.2, p'.2, rfl, rfl, h.2⟩
    · exact ih

theorem RespeltRegistry.lookups {reg reg' : Registry} (h : RespeltRegistry reg reg') (E : Env) (n : String) :
    FoundAlike (reg.getByName E n) (reg'.getByName E n) := by
  simp only [Registry.getByName, dictHas_respelt h.definitions, h.aliases]
  exact dictGet_respelt h.definitions _

theorem all2_append {α β : Type} {R : α → β → Prop} {a : List α} {b : List β} (h : All2 R a b) {x : α} {y : β}
    (hx : R x y) : All2 R (a ++ [x]) (b ++ [y]) := by
  induction h with
  | nil => exact .cons hx .nil
  | cons h _ ih => exact .cons h ih

theorem RespeltRegistry.register {reg reg' : Registry} (h : RespeltRegistry reg reg') (E : Env) {d d' : Defn}
    (hd : Respelt d d') : (reg'.register E d').1 = (reg.register E d).1 ∧
      RespeltRegistry (reg.register E d).2 (reg'.register E d').2 := by
  simp only [Registry.register, hd.name, hd.hdr, dictHas_respelt h.definitions, h.aliases]
  split
  · exact ⟨rfl, h⟩
  · rename_i hno
    split
    · exact ⟨rfl, h⟩
    · split
      · exact ⟨rfl, h⟩
      · refine ⟨rfl, rfl, ?_⟩
        simp only [dictPut, dictHas_respelt h.definitions, hno, Bool.false_eq_true, if_false]
        exact all2_append h.definitions ⟨rfl, hd⟩

theorem respelled_symm {R : String → String → Prop} (k : Nat) : ∀ y y', y.depth ≤ k → Respelled R y y' →
    Respelled (fun n n' => R n' n) y' y := by
  induction k with
  | zero => intro y y' hk; cases y <;> simp [Yaml.depth] at hk
  | succ k ih =>
    have hitems : ∀ l l', depthList l ≤ k → RespelledItems R l l' → RespelledItems (fun n n' => R n' n) l' l := by
      intro l
      induction l with
      | nil => intro l' _ h; cases h; exact .nil
      | cons y l ihl =>
        intro l' hl h
        rw [depthList] at hl
        cases h with
        | cons h t => exact .cons (ih _ _ (by omega) h) (ihl _ (by omega) t)
        | name h t => exact .name h (ihl _ (by omega) t)
    intro y y' hk h
    cases h with
    | same => exact .same _
    | @mapping es fs h =>
      rw [Yaml.depth] at hk
      replace hk : depthEntries es ≤ k := by omega
      refine .mapping ?_
      clear ih
      induction es generalizing fs with
      | nil => cases h; exact .nil
      | cons e es ihe =>
        rw [depthEntries] at hk
        cases h with
        | @cons key y y' _ fs h t =>
          refine .cons ?_ (ihe t (by omega))
          rw [depthEntry] at hk
          cases h with
          | same => exact .same _
          | name hkey h => exact .name hkey h
          | @members l l' h =>
            have : (Yaml.list l).depth = depthList l + 1 := rfl
            exact .members (hitems _ _ (by omega) h)

theorem sameMeaning_found {E : Env} {reg reg' : Registry} (h : RespeltRegistry reg reg') {n n' : String}
    (hs : SameMeaning E reg n n') : FoundAlike (reg.getByName E n) (reg'.getByName E n') := by
  rw [hs.2.2]
  exact h.lookups E n'

theorem foundAlike_symm {o o' : Option Defn} (h : FoundAlike o o') : FoundAlike o' o := by
  rcases h with ⟨h1, h2⟩ | ⟨d, d', h1, h2, h3⟩
  · exact .inl ⟨h2, h1⟩
  · exact .inr ⟨d', d, h2, h1, h3.symm⟩

/-- Reading a document and the same with other names. -/
theorem readDefinition_respelled {E : Env} {reg reg' : Registry} (hr : RespeltRegistry reg reg') {y y' : Yaml}
    (h : Respelled (SameMeaning E reg) y y') :
    (∃ e e', readDefinition E reg y = .error e ∧ readDefinition E reg' y' = .error e') ∨
    ∃ d d', readDefinition E reg y = .ok d ∧ readDefinition E reg' y' = .ok d' ∧ Respelt d d' := by
  cases hy : readDefinition E reg y with
  | ok d =>
    obtain ⟨d', h1, h2⟩ := describes_respelled (hr.lookups E) (fun n n' hs => ⟨⟨hs.1, hs.2.1⟩, sameMeaning_found hr hs⟩) h
      ((C54_document E reg y d).1 hy)
    exact .inr ⟨d, d', rfl, (C54_document E reg' y' d').2 h1, h2⟩
  | error e =>
    cases hy' : readDefinition E reg' y' with
    | error e' => exact .inl ⟨e, e', rfl, rfl⟩
    | ok d' =>
      obtain ⟨d, h1, -⟩ := describes_respelled (fun n => foundAlike_symm (hr.lookups E n))
        (fun n n' hs => ⟨⟨hs.2.1, hs.1⟩, foundAlike_symm (sameMeaning_found hr hs)⟩)
        (respelled_symm _ _ _ (Nat.le_refl _) h) ((C54_document E reg' y' d').1 hy')
      rw [(C54_document E reg y d).2 h1] at hy
      cases hy

theorem readDocs_respelled {E : Env} {reg reg' : Registry} (hr : RespeltRegistry reg reg') {l l' : List Yaml}
    (h : RespelledDocs E reg l l') :
    ((readDocs E reg l).1 = .ok () ↔ (readDocs E reg' l').1 = .ok ()) ∧
      RespeltRegistry (readDocs E reg l).2 (readDocs E reg' l').2 := by
  induction h generalizing reg' with
  | nil => exact ⟨Iff.rfl, hr⟩
  | @cons reg y y' l l' h t ih =>
    simp only [readDocs]
    rcases readDefinition_respelled hr h with ⟨e, e', h1, h2⟩ | ⟨d, d', h1, h2, hd⟩
    · rw [h1, h2]
      exact ⟨iff_of_false (fun h => nomatch h) (fun h => nomatch h), hr⟩
    · have ih := fun {r} => @ih d h1 r
      rw [h1, h2]
      obtain ⟨h3, h4⟩ := hr.register E hd
      simp only
      generalize reg.register E d = p at h3 h4 ih
      generalize reg'.register E d' = p' at h3 h4
      obtain ⟨a, r⟩ := p
      obtain ⟨a', r'⟩ := p'
      simp only at h3 h4 ih
      subst h3
      cases a' with
      | error e => exact ⟨Iff.rfl, h4⟩
      | ok a => exact ih h4

theorem readFileObject_respelled {E : Env} {reg reg' : Registry} (hr : RespeltRegistry reg reg') {f f' : YamlFile}
    (h : RespelledDocs E reg f.docs f'.docs) (he : f.ending = f'.ending) :
    ((readFileObject E reg f).1 = .ok () ↔ (readFileObject E reg' f').1 = .ok ()) ∧
      RespeltRegistry (readFileObject E reg f).2 (readFileObject E reg' f').2 := by
  have := readDocs_respelled (E := E) hr h
  simp only [readFileObject, ← he]
  generalize readDocs E reg f.docs = p at this
  generalize readDocs E reg' f'.docs = p' at this
  obtain ⟨a, r⟩ := p
  obtain ⟨a', r'⟩ := p'
  obtain ⟨h1, h2⟩ := this
  simp only at h1 h2
  cases a with
  | error e =>
    cases a' with
    | error e' => exact ⟨iff_of_false (fun h => nomatch h) (fun h => nomatch h), h2⟩
    | ok a' => cases h1.2 rfl
  | ok a =>
    cases a' with
    | error e' => cases h1.1 rfl
    | ok a' => cases f.ending <;> exact ⟨Iff.rfl, h2⟩

theorem respeltRegistry_refl (reg : Registry) : RespeltRegistry reg reg := by
  refine ⟨rfl, ?_⟩
  induction reg.definitions with
  | nil => exact .nil
  | cons p l ih => exact .cons ⟨rfl, .refl _⟩ ih

/-- **C109** A file is read without error exactly if the one with other names for the types it refers to is. -/
theorem C109_file (E : Env) (reg : Registry) (f f' : YamlFile) (h : RespelledDocs E reg f.docs f'.docs)
    (he : f.ending = f'.ending) :
    (readFileObject E reg f).1 = .ok () ↔ (readFileObject E reg f').1 = .ok () :=
  (readFileObject_respelled (respeltRegistry_refl reg) h he).1

/-- **C109** After files, or those with other names for the types they refer to, the same names are known, and
they stand for definitions of the same name and aliases that are the same to a user. -/
theorem C109_definitions (E : Env) (fs fs' : List YamlFile) (h : RespelledFiles E {} fs fs') (n : String) :
    ((readFiles E fs).getByName E n = none ∧ (readFiles E fs').getByName E n = none) ∨
    ∃ d d', (readFiles E fs).getByName E n = some d ∧ (readFiles E fs').getByName E n = some d' ∧
      d'.hdr = d.hdr ∧ (d.Every Told → d'.Every Told → Interchangeable E d d') := by
  have key : ∀ {reg reg' : Registry}, RespeltRegistry reg reg' → RespelledFiles E reg fs fs' →
      RespeltRegistry (fs.foldl (fun r f => (readFileObject E r f).2) reg)
        (fs'.foldl (fun r f => (readFileObject E r f).2) reg') := by
    clear h
    intro reg reg' hr h
    induction h generalizing reg' with
    | nil => exact hr
    | cons h he t ih => exact ih (readFileObject_respelled hr h he).2
  rcases (key (respeltRegistry_refl {}) h).lookups E n with h | ⟨d, d', h1, h2, h3⟩
  · exact .inl h
  · exact .inr ⟨d, d', h1, h2, h3.hdr, fun hd hd' => C81_same E d d' hd hd' h3.there⟩

/-! ### An example: a type with an alias, and documents that refer to it by its name, in capitals and by the
alias -/

/-- A byte by the name of `a`, with an alias. -/
def docByte : Yaml := doc [("name", .str "a"), ("aliases", .list [.str "BYTE"]), ("type", .str "integer"),
  ("attributes", doc [("format", .str "unsigned"), ("size", .int 1), ("units", .str "bytes")])]

def docRefer (n n' : String) : Yaml := doc [("name", .str "pair"), ("type", .str "structure"),
  ("members", .list [
    doc [("name", .str "x"), ("data_type", .str n)],
    doc [("name", .str "data"), ("type", .str "stream"), ("element_data_type", .str n'),
      ("elements_data_size", .str "pair.x")]])]

theorem docRefer_respelled {R : String → String → Prop} {n n' m m' : String} (h : R n m) (h' : R n' m') :
    Respelled R (docRefer n n') (docRefer m m') :=
  .mapping (.cons (.same _) (.cons (.same _) (.cons (.members
    (.cons (.mapping (.cons (.same _) (.cons (.name (by simp [referenceKeys]) h) .nil)))
      (.cons (.mapping (.cons (.same _) (.cons (.same _) (.cons (.name (by simp [referenceKeys]) h') (.cons (.same _) .nil)))))
        .nil))) .nil)))

theorem exFiles_respelled : RespelledFiles exEnvRL {} [{ docs := [docByte] }, { docs := [docRefer "a" "a"] }]
    [{ docs := [docByte] }, { docs := [docRefer "BYTE" "A"] }] :=
  .cons (.cons (.same _) fun _ _ => .nil) rfl
    (.cons (.cons (docRefer_respelled ⟨by decide, by decide, rfl⟩ ⟨by decide, by decide, rfl⟩) fun _ _ => .nil) rfl .nil)

def exAliased : Defn := .prim { name := "a", aliases := ["BYTE"], order := .native } (.integer true) (.bytes 1) "bytes"

def exReferring (n n' : String) : Defn := .struct { name := "pair", order := .native } [
  .member { name := "x" } exAliased none (some n) none,
  .seq { name := "data" }
    { kind := .stream, elementDataType := some n', dataSizeExpr := some "pair.x" } exAliased]

example : (readFiles exEnvRL [{ docs := [docByte] }, { docs := [docRefer "a" "a"] }]).getDefinitions =
      [exAliased, exReferring "a" "a"] ∧
    (readFiles exEnvRL [{ docs := [docByte] }, { docs := [docRefer "BYTE" "A"] }]).getDefinitions =
      [exAliased, exReferring "BYTE" "A"] := ⟨rfl, rfl⟩

theorem exReferring_told (n n' : String) (hn : Quiet n) (hn' : Quiet n') :
    (exReferring n n').Every Told := by
  have key : ∀ s ∈ ["pair", "x", "data", ""], Quiet s := by decide +kernel
  simp only [List.mem_cons, List.not_mem_nil, or_false, forall_eq_or_imp, forall_eq] at key
  obtain ⟨k1, k2, k3, k4⟩ := key
  simp only [exReferring, Defn.Every, everyDefn, Told, exAliased, and_true]
  refine ⟨⟨?_, ?_⟩, k1, k4, ?_⟩
  · intro x hx y hy
    simp only [List.mem_cons, List.not_mem_nil, or_false] at hx hy
    rcases hx with rfl | rfl <;> rcases hy with rfl | rfl <;>
      simp [Defn.target, Defn.name, Defn.hdr]
  · intro x hx
    simp only [List.mem_cons, List.not_mem_nil, or_false] at hx
    rcases hx with rfl | rfl <;> (simp only [Defn.target, Defn.name, Defn.hdr]; decide +kernel)
  · intro m hm
    simp only [List.mem_cons, List.not_mem_nil, or_false] at hm
    rcases hm with rfl | rfl <;>
      simp only [Defn.name, Defn.hdr, typeTexts, Option.toList, List.mem_cons, List.not_mem_nil, or_false, forall_eq,
        Option.getD_none] <;> simp only [k2, k3, k4, hn, hn', and_self]

/-- The structures of the two files are the same to a user. -/
example : Interchangeable exEnvRL (exReferring "a" "a") (exReferring "BYTE" "A") := by
  rcases C109_definitions exEnvRL _ _ exFiles_respelled "pair" with ⟨h, _⟩ | ⟨d, d', h1, h2, _, h⟩
  · exact absurd h (by decide)
  · cases h1
    cases h2
    exact h (exReferring_told _ _ (by decide +kernel) (by decide +kernel))
      (exReferring_told _ _ (by decide +kernel) (by decide +kernel))

/-- Aliases are not looked up without regard to case (C40): this file is not one with another name of the type. -/
example : (readFileObject exEnvRL {} { docs := [docByte, docRefer "BYTE" "a"] }).1 = .ok () ∧
    (readFileObject exEnvRL {} { docs := [docByte, docRefer "BYTE" "byte"] }).1 ≠ .ok () := ⟨rfl, (nomatch ·)⟩

end Dtf
