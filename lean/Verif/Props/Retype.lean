import Verif.Retype
import Verif.Props.Respell
import Verif.Props.Unused
/-!
# Property C121: types can be renamed throughout a definition file

`RetypedDoc R y y'` (module `Retype`): documents that differ only in the names and aliases of types and in the names by
which types are referred to; `R` relates the old and the new names, `Consistent` says that it keeps different names
different. Structures keep their names, which are those of their values.
-/
namespace Dtf
open Spec

theorem contains_retyped {E : Env} {R : String → String → Prop} (hR : Consistent E R) {l l' : List String}
    (h : All2 R l l') {n n' : String} (hn : R n n') : n ∈ l ↔ n' ∈ l' := by
  induction h with
  | nil => exact iff_of_false (nomatch ·) (nomatch ·)
  | cons h _ ih => rw [List.mem_cons, List.mem_cons, ih, hR.same hn h]

theorem find_retyped {R : String → String → Prop} {p p' : Defn → Bool} {ds ds' : List Defn}
    (h : All2 (TypeKin R) ds ds') (hp : ∀ d d', TypeKin R d d' → p d = p' d') :
    FoundKin R (ds.find? p) (ds'.find? p') := by
  induction h with
  | nil => exact .inl ⟨rfl, rfl⟩
  | @cons d d' _ _ h _ ih =>
    rw [List.find?_cons, List.find?_cons, hp d d' h]
    split
    · exact .inr ⟨d, d', rfl, rfl, h⟩
    · exact ih

theorem findName_retyped {E : Env} {R : String → String → Prop} (hR : Consistent E R) {ds ds' : List Defn}
    (h : All2 (TypeKin R) ds ds') (n n' : String) (hn : R n n') : FoundKin R (findName E ds n) (findName E ds' n') := by
  have h1 := find_retyped (p := (E.lower ·.name == E.lower n)) (p' := (E.lower ·.name == E.lower n')) h (by
    intro d d' hd
    rw [Bool.eq_iff_iff]
    simpa using hR.lower hd.2.1 hn)
  have h2 := find_retyped (p := (·.hdr.aliases.contains n)) (p' := (·.hdr.aliases.contains n')) h (by
    intro d d' hd
    rw [Bool.eq_iff_iff]
    simpa using contains_retyped hR hd.2.2 hn)
  unfold findName
  rcases h1 with ⟨h3, h4⟩ | ⟨d, d', h3, h4, h5⟩
  · rw [h3, h4]; exact h2
  · rw [h3, h4]; exact .inr ⟨d, d', rfl, rfl, h5⟩

theorem fresh_retyped {E : Env} {R : String → String → Prop} (hR : Consistent E R) {ds ds' : List Defn}
    (h : All2 (TypeKin R) ds ds') {x x' : Defn} (hx : TypeKin R x x') (hf : Fresh E ds x) : Fresh E ds' x' := by
  induction h with
  | nil => intro d hd; cases hd
  | @cons d d' ds ds' hd _ ih =>
    intro e he
    rcases List.mem_cons.1 he with rfl | he
    · obtain ⟨h1, h2, h3⟩ := hf d List.mem_cons_self
      refine ⟨fun h => h1 ((hR.lower hd.2.1 hx.2.1).2 h), fun h => h2 ((contains_retyped hR hd.2.2 hx.2.1).2 h), ?_⟩
      have key : ∀ {l l' : List String}, All2 R l l' → (∀ a ∈ l, a ∉ d.hdr.aliases) → ∀ a ∈ l', a ∉ e.hdr.aliases := by
        intro l l' hl
        induction hl with
        | nil => intro _ a ha; cases ha
        | cons hr _ ih =>
          intro h a ha
          rcases List.mem_cons.1 ha with rfl | ha
          · exact fun hm => h _ List.mem_cons_self ((contains_retyped hR hd.2.2 hr).2 hm)
          · exact ih (fun a ha => h a (List.mem_cons_of_mem _ ha)) a ha
      exact key hx.2.2 h3
    · exact ih (fun d hd => hf d (List.mem_cons_of_mem _ hd)) e he

theorem library_retyped {E : Env} {R : String → String → Prop} (hR : Consistent E R) {docs docs' : List Yaml}
    (h : All2 (RetypedDoc R) docs docs') {prev prev' : List Defn} (hp : All2 (TypeKin R) prev prev') {xs : List Defn}
    (hx : Library E prev docs xs) : ∃ xs', Library E prev' docs' xs' ∧ All2 (TypeKin R) xs xs' := by
  induction h generalizing prev prev' xs with
  | nil => cases hx; exact ⟨[], .nil, .nil⟩
  | cons h _ ih =>
    cases hx with
    | cons h1 h2 h3 =>
      obtain ⟨x', h4, h5⟩ := describes_retyped hR (findName_retyped hR hp) h h1
      obtain ⟨xs', h6, h7⟩ := ih (all2_append hp h5) h3
      exact ⟨x' :: xs', .cons h4 (fresh_retyped hR hp h5 h2) h6, .cons h5 h7⟩

theorem all2_join {α β : Type} {P : α → β → Prop} {a c : List α} {b d : List β} (h : All2 P a b) (h' : All2 P c d) :
    All2 P (a ++ c) (b ++ d) := by
  induction h with
  | nil => exact h'
  | cons h _ ih => exact .cons h ih

/-- The definitions before, whose names stay. -/
theorem kept_retyped {R : String → String → Prop} {prev : List Defn}
    (h : ∀ d ∈ prev, R d.name d.name ∧ ∀ a ∈ d.hdr.aliases, R a a) : All2 (TypeKin R) prev prev := by
  have key : ∀ l : List String, (∀ a ∈ l, R a a) → All2 R l l := by
    intro l
    induction l with
    | nil => exact fun _ => .nil
    | cons a l ih => exact fun h => .cons (h a List.mem_cons_self) (ih fun a ha => h a (List.mem_cons_of_mem _ ha))
  induction prev with
  | nil => exact .nil
  | cons d ds ih =>
    obtain ⟨h1, h2⟩ := h d List.mem_cons_self
    exact .cons ⟨.refl R d, h1, key _ h2⟩ (ih fun d hd => h d (List.mem_cons_of_mem _ hd))

theorem read_library {E : Env} {fs : List YamlFile} {f : YamlFile} (h : (readFileObject E (readFiles E fs) f).1 = .ok ()) :
    ∃ xs, (readFiles E (fs ++ [f])).getDefinitions = (readFiles E fs).getDefinitions ++ xs ∧ f.ending = .done ∧
      Library E (readFiles E fs).getDefinitions f.docs xs := by
  obtain ⟨xs, hx⟩ : ∃ xs, (readFiles E (fs ++ [f])).getDefinitions = (readFiles E fs).getDefinitions ++ xs := by
    obtain ⟨k, xs, _, _, h2, _⟩ := C44_stops E (readFiles E fs) f
    exact ⟨xs, by simpa [readFiles] using h2⟩
  exact ⟨xs, hx, (C55_file E fs f xs).1 ⟨h, hx⟩⟩

/-- **C121** After any files whose types keep their names, a file is read without error exactly if the file is in which
types got other names. -/
theorem C121_file (E : Env) (R : String → String → Prop) (hR : Consistent E R) (fs : List YamlFile)
    (hfs : ∀ d ∈ (readFiles E fs).getDefinitions, R d.name d.name ∧ ∀ a ∈ d.hdr.aliases, R a a)
    (f f' : YamlFile) (h : All2 (RetypedDoc R) f.docs f'.docs) (he : f.ending = f'.ending) :
    (readFileObject E (readFiles E fs) f).1 = .ok () ↔ (readFileObject E (readFiles E fs) f').1 = .ok () := by
  constructor
  · intro hr
    obtain ⟨xs, -, h1, h2⟩ := read_library hr
    obtain ⟨xs', h3, -⟩ := library_retyped hR h (kept_retyped hfs) h2
    exact ((C55_file E fs f' xs').2 ⟨he ▸ h1, h3⟩).1
  · intro hr
    obtain ⟨xs, -, h1, h2⟩ := read_library hr
    obtain ⟨xs', h3, -⟩ := library_retyped hR.flip (all2_imp (fun _ _ h => h.flip) (all2_flip h)) (kept_retyped hfs) h2
    exact ((C55_file E fs f xs').2 ⟨he ▸ h1, h3⟩).1

/-- **C121** And then what an old name stood for the new name stands for: definitions that are the same to a user, the
name of which is the old one and the new one. -/
theorem C121_types (E : Env) (R : String → String → Prop) (hR : Consistent E R) (fs : List YamlFile)
    (hfs : ∀ d ∈ (readFiles E fs).getDefinitions, R d.name d.name ∧ ∀ a ∈ d.hdr.aliases, R a a)
    (f f' : YamlFile) (h : All2 (RetypedDoc R) f.docs f'.docs) (he : f.ending = f'.ending)
    (hr : (readFileObject E (readFiles E fs) f).1 = .ok ()) (n n' : String) (hn : R n n') :
    ((readFiles E (fs ++ [f])).getByName E n = none ∧ (readFiles E (fs ++ [f'])).getByName E n' = none) ∨
    ∃ d d', (readFiles E (fs ++ [f])).getByName E n = some d ∧ (readFiles E (fs ++ [f'])).getByName E n' = some d' ∧
      R d.name d'.name ∧ All2 R d.hdr.aliases d'.hdr.aliases ∧
      (d.Every Told → d'.Every Told → Interchangeable E d d') := by
  obtain ⟨xs, h0, h1, h2⟩ := read_library hr
  obtain ⟨xs', h3, h4⟩ := library_retyped hR h (kept_retyped hfs) h2
  have h5 := ((C55_file E fs f' xs').2 ⟨he ▸ h1, h3⟩).2
  rw [C55_lookup, C55_lookup, h0, h5]
  rcases findName_retyped hR (all2_join (kept_retyped hfs) h4) n n' hn with h | ⟨d, d', h6, h7, h8⟩
  · exact .inl h
  · exact .inr ⟨d, d', h6, h7, h8.2.1, h8.2.2, fun hd hd' => C81_same E d d' hd hd' h8.1.there⟩

/-! ### An example: the type `a` and its alias renamed, in the file and in the structure that refers to it by both -/

/-- A byte with a name and an alias. -/
def docAliased (n a : String) : Yaml := doc [("name", .str n), ("aliases", .list [.str a]), ("type", .str "integer"),
  ("attributes", doc [("format", .str "unsigned"), ("size", .int 1), ("units", .str "bytes")])]

/-- The old names and the new ones. -/
def exNewNames : List (String × String) := [("a", "octet"), ("BYTE", "UINT8"), ("pair", "pair")]

theorem exNewNames_consistent : Consistent exEnvRL fun n n' => (n, n') ∈ exNewNames := by
  have h1 : ∀ p ∈ exNewNames, p.1 ≠ "" ∧ p.2 ≠ "" := by decide
  have h2 : ∀ p ∈ exNewNames, ∀ q ∈ exNewNames, (p.1 = q.1 ↔ p.2 = q.2) := by decide
  have h3 : ∀ p ∈ exNewNames, ∀ q ∈ exNewNames,
      (exEnvRL.lower p.1 = exEnvRL.lower q.1 ↔ exEnvRL.lower p.2 = exEnvRL.lower q.2) := by decide +kernel
  exact ⟨fun h => h1 _ h, fun h h' => h2 _ h _ h', fun h h' => h3 _ h _ h'⟩

theorem docAliased_retyped {R : String → String → Prop} {n n' a a' : String} (h : R n n') (h' : R a a') :
    RetypedDoc R (docAliased n a) (docAliased n' a') := by
  refine .mk (.cons (.name (by simp [typeNameKeys]) h) (.cons (.aliases (l := [a]) (l' := [a']) (.cons h' .nil))
    (.cons (.same ?_ _) (.cons (.same ?_ _) .nil)))) ?_
  · simp [retypedKeys, typeNameKeys, referenceKeys]
  · simp [retypedKeys, typeNameKeys, referenceKeys]
  · exact fun h => absurd (Yaml.str.inj h) (by decide)

theorem docRefer_retyped {R : String → String → Prop} {n n' m m' : String} (hp : R "pair" "pair") (h : R n m)
    (h' : R n' m') : RetypedDoc R (docRefer n n') (docRefer m m') := by
  have k : ∀ s, s ∈ ["name", "type", "elements_data_size"] → ∀ t ∈ retypedKeys false, Key.str s ≠ Key.str t := by
    intro s hs t ht e
    cases e
    revert hs ht
    simp only [retypedKeys, typeNameKeys, referenceKeys, List.mem_cons, List.not_mem_nil, or_false]
    rintro (rfl | rfl | rfl) <;> decide
  refine .mk (.cons (.name (by simp [typeNameKeys]) hp) (.cons (.same ?_ _) (.cons (.members
    (.cons (.cons (.same (k _ (by decide)) _) (.cons (.name (by simp [typeNameKeys, referenceKeys]) h) .nil))
      (.cons (.cons (.same (k _ (by decide)) _) (.cons (.same (k _ (by decide)) _)
        (.cons (.name (by simp [typeNameKeys, referenceKeys]) h') (.cons (.same (k _ (by decide)) _) .nil)))) .nil)))
    .nil))) ?_
  · simp [retypedKeys, typeNameKeys, referenceKeys]
  · exact fun _ => rfl

/-- The structures that were read. -/
def exOctets : Defn := .struct { name := "pair", order := .native } [
  .member { name := "x" }
    (.prim { name := "octet", aliases := ["UINT8"], order := .native } (.integer true) (.bytes 1) "bytes")
    none (some "octet") none,
  .seq { name := "data" } { kind := .stream, elementDataType := some "UINT8", dataSizeExpr := some "pair.x" }
    (.prim { name := "octet", aliases := ["UINT8"], order := .native } (.integer true) (.bytes 1) "bytes")]

theorem exOctets_told : exOctets.Every Told := by
  have key : ∀ s ∈ ["pair", "x", "data", "", "octet", "UINT8"], Quiet s := by decide +kernel
  simp only [List.mem_cons, List.not_mem_nil, or_false, forall_eq_or_imp, forall_eq] at key
  obtain ⟨k1, k2, k3, k4, k5, k6⟩ := key
  simp only [exOctets, Defn.Every, everyDefn, Told, and_true]
  refine ⟨⟨?_, ?_⟩, k1, k4, ?_⟩
  · intro x hx y hy
    simp only [List.mem_cons, List.not_mem_nil, or_false] at hx hy
    rcases hx with rfl | rfl <;> rcases hy with rfl | rfl <;>
      simp [Defn.target, Defn.name, Defn.hdr]
  · intro x hx
    simp only [List.mem_cons, List.not_mem_nil, or_false] at hx
    rcases hx with rfl | rfl <;> (simp only [Defn.target, Defn.name, Defn.hdr]; decide +kernel)
  · intro m hm
    simp only [List.mem_cons, List.not_mem_nil, or_false] at hm
    rcases hm with rfl | rfl <;>
      simp only [Defn.name, Defn.hdr, typeTexts, Option.toList, List.mem_cons, List.not_mem_nil, or_false, forall_eq,
        Option.getD_none] <;> simp only [k2, k3, k4, k5, k6, and_self]

example : Interchangeable exEnvRL (exReferring "a" "BYTE") exOctets ∧
    ∃ d d', (readFiles exEnvRL [{ docs := [docAliased "a" "BYTE", docRefer "a" "BYTE"] }]).getByName exEnvRL "BYTE" = some d ∧
      (readFiles exEnvRL [{ docs := [docAliased "octet" "UINT8", docRefer "octet" "UINT8"] }]).getByName exEnvRL "UINT8" =
        some d' ∧ d.name = "a" ∧ d'.name = "octet" := by
  refine ⟨?_, _, _, rfl, rfl, rfl, rfl⟩
  rcases C121_types exEnvRL _ exNewNames_consistent [] (fun d hd => nomatch hd)
    { docs := [docAliased "a" "BYTE", docRefer "a" "BYTE"] } { docs := [docAliased "octet" "UINT8", docRefer "octet" "UINT8"] }
    (.cons (docAliased_retyped (by decide) (by decide)) (.cons (docRefer_retyped (by decide) (by decide) (by decide)) .nil))
    rfl rfl "pair" "pair" (by decide) with ⟨h, _⟩ | ⟨d, d', h1, h2, _, _, h⟩
  · exact absurd h (by decide)
  · cases h1
    cases h2
    exact h (exReferring_told _ _ (by decide +kernel) (by decide +kernel)) exOctets_told

/-- The renaming has to reach every mention: with one left the file is no longer read. And it has to keep names apart
without regard to case. -/
theorem C121_needed :
    (readFileObject exEnvRL {} { docs := [docAliased "a" "BYTE", docRefer "a" "BYTE"] }).1 = .ok () ∧
    (readFileObject exEnvRL {} { docs := [docAliased "octet" "UINT8", docRefer "octet" "BYTE"] }).1 ≠ .ok () ∧
    (readFileObject exEnvRL {} { docs := [docAliased "a" "BYTE", docAliased "b" "WORD"] }).1 = .ok () ∧
    (readFileObject exEnvRL {} { docs := [docAliased "a" "BYTE", docAliased "A" "WORD"] }).1 ≠ .ok () :=
  ⟨rfl, (nomatch ·), rfl, (nomatch ·)⟩

end Dtf
