import Verif.Props.Library
import Verif.Props.ReaderErrors
/-!
# Property C122: a type is defined once

Documents whose name, in whatever case, is that of a definition that is already known are not taken, whatever else they
say, and nothing after them is; so a file cannot be read a second time.
-/
namespace Dtf

namespace Spec

/-- The document has the name. -/
def Titled (y : Yaml) (n : String) : Prop := ∃ es, y = .map es ∧ entry es "name" = .str n

end Spec
open Spec

theorem readDefinition_titled {E : Env} {r : Registry} {y : Yaml} {x : Defn} (h : readDefinition E r y = .ok x) :
    Titled y x.name := by
  obtain ⟨es, nm, ty, t, rfl, hn, -, -, -, hr⟩ := readDefinition_ok h
  exact ⟨es, rfl, by rw [readTyped_name hr]; exact hn⟩

theorem titled_unique {y : Yaml} {n m : String} (h : Titled y n) (h' : Titled y m) : n = m := by
  obtain ⟨es, rfl, h1⟩ := h
  obtain ⟨fs, h2, h3⟩ := h'
  cases h2
  exact Yaml.str.inj (h1.symm.trans h3)

/-- Document for document the definitions have the names, and no name twice. -/
theorem loaded_titled {E : Env} {r r' : Registry} {ds : List Yaml} {xs prev : List Defn} (h : Loaded E r ds xs r')
    (hr : r.Holds E prev) : xs.length = ds.length ∧ ∀ i (hi : i < xs.length) (hd : i < ds.length),
      Titled ds[i] xs[i].name ∧ Fresh E (prev ++ xs.take i) xs[i] := by
  induction h generalizing prev with
  | nil r => exact ⟨rfl, fun i hi => nomatch hi⟩
  | @cons r r1 r2 d x ds xs hd hx _ ih =>
    have h1 := hr.register (x := x) (by rw [hx])
    have h2 := (hr.fresh x).1 (by rw [hx])
    rw [hx] at h1
    obtain ⟨h3, h4⟩ := ih h1
    refine ⟨by simp [h3], fun i hi hd' => ?_⟩
    cases i with
    | zero => exact ⟨readDefinition_titled hd, by simpa using h2⟩
    | succ i =>
      have := h4 i (by simpa using hi) (by simpa using hd')
      simpa using this

/-- **C122** If a document of a file has, in whatever case, the name of a definition from the files before or of a
document before it in the file, or is named like an alias of a definition from the files before, then reading the file raises, and neither that document nor one after it is taken. -/
theorem C122_once (E : Env) (fs : List YamlFile) (f : YamlFile) (k : Nat) (hk : k < f.docs.length) (n : String)
    (hn : Titled f.docs[k] n)
    (h : (∃ d ∈ (readFiles E fs).getDefinitions, E.lower d.name = E.lower n ∨ n ∈ d.hdr.aliases) ∨
      ∃ j m, ∃ hj : j < k, Titled (f.docs[j]'(Nat.lt_trans hj hk)) m ∧ E.lower m = E.lower n) :
    (readFileObject E (readFiles E fs) f).1 ≠ .ok () ∧
      ∃ xs, (readFiles E (fs ++ [f])).getDefinitions = (readFiles E fs).getDefinitions ++ xs ∧ xs.length ≤ k := by
  obtain ⟨k', xs, hk', h1, h2, h3, -⟩ := C44_stops E (readFiles E fs) f
  obtain ⟨h4, h5⟩ := loaded_titled h1 (readFiles_holds E fs)
  rw [List.length_take, Nat.min_eq_left hk'] at h4
  have hle : k' ≤ k := by
    refine Nat.le_of_not_lt fun hlt => ?_
    obtain ⟨h6, h7⟩ := h5 k (by omega) (by rw [List.length_take]; omega)
    rw [List.getElem_take] at h6
    have h8 := titled_unique hn h6
    rcases h with ⟨d, hd, he | he⟩ | ⟨j, m, hj, hm, he⟩
    · exact (h7 d (List.mem_append_left _ hd)).1 (he.trans (by rw [h8]))
    · exact (h7 d (List.mem_append_left _ hd)).2.1 (h8 ▸ he)
    · obtain ⟨h9, -⟩ := h5 j (by omega) (by rw [List.length_take]; omega)
      rw [List.getElem_take] at h9
      have h10 := titled_unique hm h9
      refine (h7 (xs[j]'(by omega)) (List.mem_append_right _ ?_)).1 (by rw [← h10, ← h8]; exact he)
      rw [List.mem_take_iff_getElem]
      exact ⟨j, by omega, rfl⟩
  refine ⟨?_, xs, by simpa [readFiles] using h2, by omega⟩
  obtain ⟨-, e, he⟩ := h3 (by omega)
  rw [he]
  exact (nomatch ·)

/-- **C122** A file of which definitions were taken cannot be read again, not even after further files: reading it raises
and leaves everything as it is. -/
theorem C122_again (E : Env) (fs gs : List YamlFile) (f : YamlFile)
    (hf : (readFiles E (fs ++ [f])).getDefinitions ≠ (readFiles E fs).getDefinitions) :
    (readFileObject E (readFiles E (fs ++ [f] ++ gs)) f).1 ≠ .ok () ∧
      (readFileObject E (readFiles E (fs ++ [f] ++ gs)) f).2 = readFiles E (fs ++ [f] ++ gs) := by
  obtain ⟨k, xs, hk, h1, h2, -, -⟩ := C44_stops E (readFiles E fs) f
  have h2' : (readFiles E (fs ++ [f])).getDefinitions = (readFiles E fs).getDefinitions ++ xs := by
    simpa [readFiles] using h2
  obtain ⟨h4, h5⟩ := loaded_titled h1 (readFiles_holds E fs)
  rw [List.length_take, Nat.min_eq_left hk] at h4
  have hx : 0 < xs.length := by
    refine Nat.pos_of_ne_zero fun h => hf ?_
    rw [h2', List.eq_nil_of_length_eq_zero h, List.append_nil]
  obtain ⟨h6, -⟩ := h5 0 hx (by rw [List.length_take]; omega)
  rw [List.getElem_take] at h6
  have hg : ∃ ys, (readFiles E (fs ++ [f] ++ gs)).getDefinitions = (readFiles E (fs ++ [f])).getDefinitions ++ ys := by
    have : ∀ (gs : List YamlFile) (r : Registry), ∃ ys,
        (gs.foldl (fun r f => (readFileObject E r f).2) r).getDefinitions = r.getDefinitions ++ ys := by
      intro gs
      induction gs with
      | nil => exact fun r => ⟨[], by simp⟩
      | cons g gs ih =>
        intro r
        obtain ⟨k, xs, _, _, h2, _⟩ := C44_stops E r g
        obtain ⟨ys, hy⟩ := ih (readFileObject E r g).2
        exact ⟨xs ++ ys, by rw [List.foldl_cons, hy, h2]; simp⟩
    obtain ⟨ys, hy⟩ := this gs (readFiles E (fs ++ [f]))
    exact ⟨ys, by rw [← hy]; simp [readFiles]⟩
  obtain ⟨ys, hy⟩ := hg
  obtain ⟨h7, zs, h8, h9⟩ := C122_once E (fs ++ [f] ++ gs) f 0 (by omega) _ h6
    (.inl ⟨xs[0], by rw [hy, h2']; simp [hx], .inl rfl⟩)
  refine ⟨h7, ?_⟩
  obtain ⟨k2, xs2, _, g1, g2, -, -⟩ := C44_stops E (readFiles E (fs ++ [f] ++ gs)) f
  have : xs2 = zs := by
    have : (readFiles E (fs ++ [f] ++ gs ++ [f])).getDefinitions = (readFiles E (fs ++ [f] ++ gs)).getDefinitions ++ xs2 := by
      simpa [readFiles] using g2
    exact List.append_cancel_left (this.symm.trans h8)
  have hz : xs2 = [] := by rw [this]; exact List.eq_nil_of_length_eq_zero (by omega)
  subst hz
  generalize f.docs.take k2 = l at g1
  generalize hr : (readFileObject E (readFiles E (fs ++ [f] ++ gs)) f).2 = r' at g1
  cases g1
  rfl

/-! ### Examples -/

/-- The second document of the file is bad. Its first was taken, and so even the repaired file cannot be read any more,
not after another file either. -/
example : (readFiles exEnvRL [{ docs := [docNamed "word" ["a"], .null] }]).getDefinitions = [exNamed "word" ["a"]] ∧
    (readFileObject exEnvRL (readFiles exEnvRL ([] ++ [{ docs := [docNamed "word" ["a"], .null] }] ++
      [{ docs := [docNamed "other" []] }])) { docs := [docNamed "word" ["a"], .null] }).1 ≠ .ok () ∧
    (readFileObject exEnvRL (readFiles exEnvRL [{ docs := [docNamed "word" ["a"], .null] }])
      { docs := [docNamed "word" ["a"]] }).1 ≠ .ok () := by
  refine ⟨rfl, (C122_again exEnvRL [] [{ docs := [docNamed "other" []] }]
    { docs := [docNamed "word" ["a"], .null] } (List.cons_ne_nil (exNamed "word" ["a"]) [])).1,
    (C122_once exEnvRL [{ docs := [docNamed "word" ["a"], .null] }] { docs := [docNamed "word" ["a"]] } 0 Nat.zero_lt_one "word" ⟨_, rfl, rfl⟩
      (.inl ⟨exNamed "word" ["a"], List.mem_cons_self, .inl rfl⟩)).1⟩

/-- A name twice in a file, in different case. -/
example : (readFileObject exEnvRL {} { docs := [docNamed "a" [], docNamed "b" [], docNamed "A" [], docNamed "c" []] }).1 ≠
      .ok () ∧
    (readFiles exEnvRL [{ docs := [docNamed "a" [], docNamed "b" [], docNamed "A" [], docNamed "c" []] }]).getDefinitions =
      [exNamed "a" [], exNamed "b" []] :=
  ⟨(C122_once exEnvRL [] { docs := [docNamed "a" [], docNamed "b" [], docNamed "A" [], docNamed "c" []] } 2 (by decide) "A"
    ⟨_, rfl, rfl⟩ (.inr ⟨0, "a", by decide, ⟨_, rfl, rfl⟩, rfl⟩)).1, rfl⟩

/-- Aliases are compared as they are: a type may be named like an alias in another case. -/
theorem C122_alias_case : ∃ (f g : YamlFile) (d : Defn) (a n : String), d ∈ (readFiles exEnvRL [f]).getDefinitions ∧
    a ∈ d.hdr.aliases ∧ exEnvRL.lower a = exEnvRL.lower n ∧ (∃ y ∈ g.docs, Titled y n) ∧
    (readFileObject exEnvRL (readFiles exEnvRL [f]) g).1 = .ok () :=
  ⟨{ docs := [docNamed "word" ["a"]] }, { docs := [docNamed "A" []] }, exNamed "word" ["a"], "a", "A", List.mem_cons_self,
    List.mem_cons_self, rfl, ⟨_, List.mem_cons_self, _, rfl, rfl⟩, rfl⟩

end Dtf
