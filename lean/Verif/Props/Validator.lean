import Verif.Validator
import Verif.Props.ReaderErrors
/-!
# Property C48: validating a directory
-/
namespace Dtf

namespace Spec

/-- Following the path from one node leads to the other; the names in a directory
are distinct. -/
inductive At : Node → List String → Node → Prop
  | here (n : Node) : At n [] n
  | step {es : List (String × Node)} {name : String} {n m : Node} {ps : List String}
      (hd : (es.map (·.1)).Nodup) (hm : (name, n) ∈ es) (h : At n ps m) :
      At (.dir es) (name :: ps) m

/-- Text without the characters that are special in path patterns. -/
def NoPattern (s : String) : Prop := ∀ c ∈ s.toList, c ≠ '*' ∧ c ≠ '?' ∧ c ≠ '['

/-- A name with the extension that is not the name of a hidden file. -/
def DefinitionFile (extension name : String) : Prop :=
  (∃ stem, name.toList = stem ++ '.' :: extension.toList) ∧ name.toList.head? ≠ some '.'

/-- A file whose definitions can be read into an empty registry. -/
def Valid (E : Env) (n : Node) : Prop :=
  ∃ f, n = .file (some f) ∧ (readFileObject E {} f).1 = .ok ()

/-- A file that can be opened and that the reader either reads or refuses with the
documented errors. -/
def Judged (E : Env) (n : Node) : Prop :=
  ∃ f, n = .file (some f) ∧
    ∀ e, (readFileObject E {} f).1 = .error e → e = .format ∨ e = .key

/-- What a user expects of the validator: the result says whether all definition
files are valid, and all are checked once. -/
def Validates (E : Env) (root : Node) (path : List String) (extension : String)
    (es : List (String × Node)) : Prop :=
  ∃ b checked, checkDirectory E root path extension = (.ok b, checked) ∧
    (b = true ↔ ∀ e ∈ es, DefinitionFile extension e.1 → Valid E e.2) ∧
    checked.Nodup ∧
    ∀ p, p ∈ checked ↔ ∃ e ∈ es, DefinitionFile extension e.1 ∧ p = path ++ [e.1]

end Spec
open Spec

theorem checkFile_judged {E : Env} {n : Node} (h : Judged E n) :
    ∃ b, checkFile E n = .ok b ∧ (b = true ↔ Valid E n) := by
  obtain ⟨f, rfl, hf⟩ := h
  unfold checkFile Valid
  simp only [Node.file.injEq, Option.some.injEq, exists_eq_left']
  generalize (readFileObject E {} f).1 = r at hf ⊢
  rcases r with e | u
  · rcases hf e rfl with rfl | rfl <;> exact ⟨false, rfl, by simp⟩
  · exact ⟨true, rfl, by simp⟩

theorem checkFiles_judged (E : Env) : ∀ (ms : List (List String × Node)) (r : Bool),
    (∀ m ∈ ms, Judged E m.2) →
    ∃ b, checkFiles E r ms = (.ok b, ms.map (·.1)) ∧
      (b = true ↔ r = true ∧ ∀ m ∈ ms, Valid E m.2)
  | [], r, _ => ⟨r, rfl, by simp⟩
  | m :: ms, r, h => by
    obtain ⟨b, hb, hv⟩ := checkFile_judged (h m (by simp))
    obtain ⟨c, hc, hw⟩ := checkFiles_judged E ms (r && b) (fun x hx => h x (by simp [hx]))
    refine ⟨c, by simp [checkFiles, hb, hc], ?_⟩
    rw [hw, Bool.and_eq_true, hv]
    simp [and_assoc]

theorem hasMagic_plain {s : String} (h : NoPattern s) : hasMagic s = false := by
  unfold hasMagic
  rw [List.any_eq_false]
  intro c hc
  obtain ⟨h1, h2, h3⟩ := h c hc
  simp [h1, h2, h3]

theorem filter_name {es : List (String × Node)} {name : String} {n : Node}
    (hd : (es.map (·.1)).Nodup) (hm : (name, n) ∈ es) :
    es.filter (fun e => e.1 == name) = [(name, n)] := by
  induction es with
  | nil => simp at hm
  | cons e es ih =>
    simp only [List.map_cons, List.nodup_cons] at hd
    rcases List.mem_cons.1 hm with rfl | hm
    · have : es.filter (fun e => e.1 == name) = [] := by
        rw [List.filter_eq_nil_iff]
        intro x hx hxe
        exact hd.1 (List.mem_map.2 ⟨x, hx, by simpa using hxe⟩)
      simp [this]
    · have : (e.1 == name) = false := by
        rw [beq_eq_false_iff_ne]
        intro he
        exact hd.1 (List.mem_map.2 ⟨_, hm, he.symm⟩)
      rw [List.filter_cons, this]
      exact ih hd.2 hm

theorem glob_at {root n : Node} {path : List String} (h : At root path n)
    (hp : ∀ p ∈ path, NoPattern p) (last : String) :
    glob (path ++ [last]) root = (glob [last] n).map fun m => (path ++ m.1, m.2) := by
  induction h with
  | here n => simp
  | @step es name n m ps hd hm h ih =>
    have hn : globEntries name es = [(name, n)] := by
      simp only [globEntries, hasMagic_plain (hp name (by simp)), Bool.false_eq_true, if_false]
      exact filter_name hd hm
    rw [List.cons_append, glob, hn]
    simp only [List.flatMap_cons, List.flatMap_nil, List.append_nil,
      ih (fun p hq => hp p (by simp [hq])), List.map_map]
    rfl

theorem suffixes_mem {s cs : List Char} : s ∈ suffixes cs ↔ ∃ p, cs = p ++ s := by
  induction cs with
  | nil => simp [suffixes, eq_comm]
  | cons c cs ih =>
    simp only [suffixes, List.mem_cons, ih]
    constructor
    · rintro (rfl | ⟨p, rfl⟩)
      · exact ⟨[], rfl⟩
      · exact ⟨c :: p, rfl⟩
    · rintro ⟨p, hp⟩
      cases p with
      | nil => exact .inl hp.symm
      | cons a p => exact .inr ⟨p, (List.cons.inj hp).2⟩

theorem matches_lits (l cs : List Char) : matches? (l.map .lit) cs = true ↔ cs = l := by
  induction l generalizing cs with
  | nil => simp [matches?]
  | cons a l ih =>
    cases cs with
    | nil => simp [matches?]
    | cons c cs => simp [matches?, ih]

theorem translate_plain : ∀ (l : List Char) (n : Nat), l.length ≤ n →
    (∀ c ∈ l, c ≠ '*' ∧ c ≠ '?' ∧ c ≠ '[') → translate n l = l.map .lit
  | [], 0, _, _ => rfl
  | [], _ + 1, _, _ => rfl
  | c :: l, 0, h, _ => by simp at h
  | c :: l, n + 1, h, hc => by
    obtain ⟨h1, h2, h3⟩ := hc c (by simp)
    rw [translate.eq_def]
    have := translate_plain l n (by simpa using h) (fun x hx => hc x (by simp [hx]))
    split <;> simp_all

theorem fnmatch_ext {name ext : String} (h : NoPattern ext) :
    fnmatch name ("*." ++ ext) = true ↔ ∃ stem, name.toList = stem ++ '.' :: ext.toList := by
  have h1 : ("*." ++ ext).toList = '*' :: '.' :: ext.toList := by
    rw [String.toList_append]; rfl
  unfold fnmatch
  rw [h1]
  have h2 : translate ('*' :: '.' :: ext.toList).length ('*' :: '.' :: ext.toList)
      = .star :: (('.' :: ext.toList).map .lit) := by
    simp only [List.length_cons, translate, List.map_cons, List.cons.injEq, true_and]
    refine translate_plain ('.' :: ext.toList) _ (Nat.le_refl _) fun c hc => ?_
    rcases List.mem_cons.1 hc with rfl | hc
    · decide
    · exact h c hc
  rw [h2, matches?, List.any_eq_true]
  constructor
  · rintro ⟨s, hs, hm⟩
    rw [matches_lits] at hm
    subst hm
    exact suffixes_mem.1 hs
  · rintro ⟨stem, hs⟩
    exact ⟨_, suffixes_mem.2 ⟨stem, hs⟩, (matches_lits _ _).2 rfl⟩

theorem glob_ext {ext : String} (h : NoPattern ext) (es : List (String × Node)) :
    ∃ P : String × Node → Bool, (∀ e, P e = true ↔ DefinitionFile ext e.1) ∧
      glob ["*." ++ ext] (.dir es) = (es.filter P).map fun e => ([e.1], e.2) := by
  refine ⟨fun e => (!hidden e.1 || hidden ("*." ++ ext)) && fnmatch e.1 ("*." ++ ext), ?_, ?_⟩
  · intro e
    have hh : hidden ("*." ++ ext) = false := by
      unfold hidden
      rw [String.toList_append]; rfl
    simp only [hh, Bool.or_false, Bool.and_eq_true, fnmatch_ext h, DefinitionFile]
    rw [hidden, Bool.not_eq_true', beq_eq_false_iff_ne]
    exact and_comm
  · have hm : hasMagic ("*." ++ ext) = true := by
      unfold hasMagic
      rw [String.toList_append]; rfl
    simp only [glob, globEntries, hm, if_true, List.map_cons, List.map_nil]
    generalize List.filter _ es = l
    induction l with
    | nil => rfl
    | cons a l ih => simp [ih]

/-- **C48**, for directories whose path has no pattern characters and whose
definition files the reader reads or refuses as documented: the validator succeeds
exactly when every definition file is valid, and checks each of them once. Missing:
other directories, for which it does not hold. -/
theorem C48_directory_partial (E : Env) (root : Node) (path : List String) (ext : String)
    (es : List (String × Node)) (ha : At root path (.dir es)) (hd : (es.map (·.1)).Nodup)
    (hp : ∀ p ∈ path, NoPattern p) (he : NoPattern ext) (hne : ext ≠ "")
    (hj : ∀ e ∈ es, DefinitionFile ext e.1 → Judged E e.2) :
    Validates E root path ext es := by
  obtain ⟨P, hP, hg⟩ := glob_ext he es
  unfold Validates checkDirectory
  have hne' : (ext != "") = true := by simpa using hne
  simp only [hne', if_true]
  rw [glob_at ha hp, hg, List.map_map]
  generalize hl : List.map _ (es.filter P) = l
  have hml : ∀ m, m ∈ l ↔ ∃ e ∈ es, DefinitionFile ext e.1 ∧ m = (path ++ [e.1], e.2) := by
    intro m
    subst hl
    simp only [List.mem_map, List.mem_filter, hP, Function.comp]
    exact ⟨fun ⟨e, ⟨h1, h2⟩, h3⟩ => ⟨e, h1, h2, h3.symm⟩,
      fun ⟨e, h1, h2, h3⟩ => ⟨e, ⟨h1, h2⟩, h3.symm⟩⟩
  generalize hs : l.mergeSort _ = s
  have hperm : s.Perm l := hs ▸ List.mergeSort_perm _ _
  obtain ⟨b, hb, hv⟩ := checkFiles_judged E s true (by
    intro m hm
    obtain ⟨e, h1, h2, rfl⟩ := (hml m).1 (hperm.mem_iff.1 hm)
    exact hj e h1 h2)
  refine ⟨b, _, hb, ?_, ?_, ?_⟩
  · rw [hv]
    simp only [true_and]
    constructor
    · intro h e h1 h2
      exact h _ (hperm.mem_iff.2 ((hml _).2 ⟨e, h1, h2, rfl⟩))
    · intro h m hm
      obtain ⟨e, h1, h2, rfl⟩ := (hml m).1 (hperm.mem_iff.1 hm)
      exact h e h1 h2
  · refine ((hperm.map (·.1)).nodup_iff).2 ?_
    subst hl
    rw [List.map_map]
    have : List.map ((fun x => x.1) ∘ (fun m : List String × Node => (path ++ m.1, m.2)) ∘
        fun e : String × Node => ([e.1], e.2)) (es.filter P)
        = ((es.filter P).map (·.1)).map fun n => path ++ [n] := by
      rw [List.map_map]; rfl
    rw [this]
    have h1 : ((es.filter P).map (·.1)).Nodup :=
      List.Nodup.sublist (List.Sublist.map _ (List.filter_sublist)) hd
    exact List.Pairwise.map _ (fun a b hab h => hab (by simpa using h)) h1
  · intro p
    rw [(hperm.map (·.1)).mem_iff, List.mem_map]
    constructor
    · rintro ⟨m, hm, rfl⟩
      obtain ⟨e, h1, h2, rfl⟩ := (hml m).1 hm
      exact ⟨e, h1, h2, rfl⟩
    · rintro ⟨e, h1, h2, rfl⟩
      exact ⟨_, (hml _).2 ⟨e, h1, h2, rfl⟩, rfl⟩

/-- Files of documents with the value types of the format specification that avoid
the defects of C45 meet the condition on files. -/
theorem judged_of_checked (E : Env) (f : YamlFile)
    (ht : ∀ d ∈ f.docs, Typed d) (hc : ∀ d ∈ f.docs, Checked d) (hy : f.ending ≠ .other)
    (hg : ∀ k xs r, (h : k < f.docs.length) → Loaded E {} (f.docs.take k) xs r →
      GroupChecked E r f.docs[k]) : Judged E (.file (some f)) :=
  ⟨f, rfl, C45_errors_partial E {} f ht hc hy hg⟩

/-- **C48** fails: in a directory with pattern characters in its name nothing is
checked, and an invalid file goes unnoticed. -/
theorem C48_magic_refuted :
    let bad : Node := .file (some { docs := [.map []] })
    let es := [("a.yaml", bad)]
    At (.dir [("defs[1]", .dir es)]) ["defs[1]"] (.dir es) ∧
    checkDirectory exEnvR (.dir [("defs[1]", .dir es)]) ["defs[1]"] = (.ok true, []) ∧
    DefinitionFile "yaml" "a.yaml" ∧ ¬ Valid exEnvR bad := by
  refine ⟨.step (by simp) (by simp) (.here _), ?_, ⟨⟨['a'], rfl⟩, by decide⟩, ?_⟩
  · have h : glob (["defs[1]"] ++ ["*." ++ "yaml"])
        (.dir [("defs[1]", .dir [("a.yaml", .file (some { docs := [.map []] }))])]) = [] := rfl
    have hy : ("yaml" != "") = true := rfl
    simp only [checkDirectory, hy, if_true, h, List.mergeSort_nil, checkFiles]
  · rintro ⟨f, hf, h⟩
    cases hf
    cases h

/-- **C48** fails: a file on which the reader raises anything but a FormatError or
KeyError, such as an unreadable one, ends the check; the files after it are not
checked. -/
theorem C48_leak_refuted :
    let good : Node := .file (some { docs := [docU8] })
    let leak : Node := .file (some { docs := [.map esU8, .map esGroup] })
    let es := [("a.yaml", leak), ("b.yaml", good)]
    checkDirectory exEnvR (.dir es) [] = (.error .attribute, [["a.yaml"]]) ∧
    DefinitionFile "yaml" "b.yaml" ∧ Valid exEnvR good := by
  refine ⟨?_, ⟨⟨['b'], rfl⟩, by decide⟩, ⟨_, rfl, rfl⟩⟩
  have h : glob ([] ++ ["*." ++ "yaml"]) (.dir [("a.yaml", .file (some { docs := [.map esU8, .map esGroup] })),
      ("b.yaml", .file (some { docs := [docU8] }))])
      = [(["a.yaml"], .file (some { docs := [.map esU8, .map esGroup] })),
        (["b.yaml"], .file (some { docs := [docU8] }))] := rfl
  have hy : ("yaml" != "") = true := rfl
  simp only [checkDirectory, hy, if_true, h]
  rw [List.mergeSort_of_pairwise (by simp)]
  rfl

/-- A directory that meets the hypotheses of `C48_directory_partial`. -/
example : At (.dir [("defs", .dir [("a.yaml", .file (some { docs := [docU8] })),
      ("b.yaml", .file (some { docs := [.map []] })), ("c.txt", .file none)])]) ["defs"]
      (.dir [("a.yaml", .file (some { docs := [docU8] })),
        ("b.yaml", .file (some { docs := [.map []] })), ("c.txt", .file none)]) ∧
    NoPattern "defs" ∧ NoPattern "yaml" ∧ DefinitionFile "yaml" "a.yaml" ∧ ¬ DefinitionFile "yaml" "c.txt" ∧
    Valid exEnvR (.file (some { docs := [docU8] })) ∧
    Judged exEnvR (.file (some { docs := [.map []] })) := by
  refine ⟨.step (by simp) (by simp) (.here _), by unfold NoPattern; decide, by unfold NoPattern; decide,
    ⟨⟨['a'], rfl⟩, by decide⟩, ?_, ⟨_, rfl, rfl⟩, _, rfl, ?_⟩
  · rintro ⟨⟨stem, h⟩, -⟩
    have := congrArg List.reverse h
    rw [List.reverse_append] at this
    simp at this
  · intro e h
    cases h
    exact .inl rfl

namespace Spec

/-- Names are distinct in every directory. -/
inductive Distinct : Node → Prop
  | file (c : Option YamlFile) : Distinct (.file c)
  | dir {es : List (String × Node)} (hd : (es.map (·.1)).Nodup) (h : ∀ e ∈ es, Distinct e.2) :
      Distinct (.dir es)

/-- What the exit status of the validator tells about its argument: 0 for the path
of a valid definition file, or of a directory whose `.yaml` files are all valid, and
1 for anything else. -/
def Tells (E : Env) (root : Node) (source : Option (List String)) (status : Nat) : Prop :=
  (status = 0 ∨ status = 1) ∧
  (status = 0 ↔ ∃ path n, source = some path ∧ At root path n ∧
    (Valid E n ∨ ∃ es, n = .dir es ∧ ∀ e ∈ es, DefinitionFile "yaml" e.1 → Valid E e.2))

end Spec

theorem entry_find {es : List (String × Node)} {name : String} {n : Node}
    (hd : (es.map (·.1)).Nodup) (hm : (name, n) ∈ es) :
    es.find? (fun e => e.1 == name) = some (name, n) := by
  have h := filter_name hd hm
  rw [← List.head?_filter, h]
  rfl

theorem find_at {root n : Node} {path : List String} (h : At root path n) :
    Node.find path root = some n := by
  induction h with
  | here n => rfl
  | step hd hm _ ih =>
    rw [Node.find, entry_find hd hm]
    exact ih

theorem at_find : ∀ (path : List String) {root n : Node}, Distinct root →
    Node.find path root = some n → At root path n
  | [], root, n, _, h => by
    cases h
    exact .here _
  | p :: ps, .file _, n, _, h => by simp [Node.find] at h
  | p :: ps, .dir es, n, hd, h => by
    rw [Node.find] at h
    generalize hf : es.find? _ = o at h
    cases o with
    | none => simp at h
    | some e =>
      have hm := List.mem_of_find?_eq_some hf
      have hp : e.1 = p := by simpa using List.find?_some hf
      cases hd with
      | dir hd hc => exact .step hd (hp ▸ hm) (at_find ps (hc e hm) h)

theorem at_unique {root n m : Node} {path : List String} (h : At root path n)
    (h' : At root path m) : n = m :=
  Option.some.inj ((find_at h).symm.trans (find_at h'))

theorem at_distinct {root n : Node} {path : List String} (h : At root path n)
    (hd : Distinct root) : Distinct n := by
  induction h with
  | here n => exact hd
  | step _ hm _ ih =>
    cases hd with
    | dir _ hc => exact ih (hc _ hm)

theorem checkFile_true {E : Env} {n : Node} : checkFile E n = .ok true ↔ Valid E n := by
  unfold Valid
  match n with
  | .dir es => simp [checkFile]
  | .file none => simp [checkFile]
  | .file (some f) =>
    simp only [checkFile, Node.file.injEq, Option.some.injEq, exists_eq_left']
    generalize (readFileObject E {} f).1 = r
    rcases r with e | u
    · cases e <;> simp
    · simp

theorem checkFiles_true (E : Env) : ∀ (ms : List (List String × Node)) (r : Bool),
    (checkFiles E r ms).1 = .ok true ↔ r = true ∧ ∀ m ∈ ms, Valid E m.2
  | [], r => by simp [checkFiles]
  | m :: ms, r => by
    have hv := @checkFile_true E m.2
    rw [checkFiles]
    generalize checkFile E m.2 = c at hv ⊢
    rcases c with e | b
    · simp only [reduceCtorEq, false_iff] at hv ⊢
      intro h
      exact hv (h.2 m (by simp))
    · simp only [checkFiles_true E ms (r && b), List.forall_mem_cons, ← hv, Except.ok.injEq,
        Bool.and_eq_true, and_assoc]

theorem checkDirectory_true (E : Env) {root : Node} {path : List String}
    {es : List (String × Node)} (ha : At root path (.dir es)) (hp : ∀ p ∈ path, NoPattern p) :
    (checkDirectory E root path).1 = .ok true ↔
      ∀ e ∈ es, DefinitionFile "yaml" e.1 → Valid E e.2 := by
  obtain ⟨P, hP, hg⟩ := glob_ext (ext := "yaml") (by unfold NoPattern; decide) es
  have hy : ("yaml" != "") = true := rfl
  simp only [checkDirectory, hy, if_true]
  rw [glob_at ha hp, hg, checkFiles_true]
  simp only [true_and, (List.mergeSort_perm _ _).mem_iff, List.mem_map, List.mem_filter, hP]
  constructor
  · intro h e h1 h2
    exact h _ ⟨_, ⟨e, ⟨h1, h2⟩, rfl⟩, rfl⟩
  · rintro h _ ⟨_, ⟨e, ⟨h1, h2⟩, rfl⟩, rfl⟩
    exact h e h1 h2

/-- **C73**, for sources without pattern characters: the exit status of the validator
is 0 for valid definition files and directories of valid definition files, whatever
the reader raises on other files, and 1 for anything else. Missing: directories with
pattern characters in their path, for which it does not hold. -/
theorem C73_status_partial (E : Env) (root : Node) (hd : Distinct root)
    (source : Option (List String)) (hp : ∀ path ∈ source, ∀ p ∈ path, NoPattern p) :
    Tells E root source (validatorStatus E root source) := by
  unfold validatorStatus
  cases source with
  | none => exact ⟨.inr rfl, by simp [validatorMain]⟩
  | some path =>
    have hp := hp path rfl
    have hex : ∀ {Q : Node → Prop}, (∃ p n, some path = some p ∧ At root p n ∧ Q n) ↔
        ∃ n, At root path n ∧ Q n := by
      intro Q
      constructor
      · rintro ⟨p, n, hp, h⟩
        cases hp
        exact ⟨n, h⟩
      · rintro ⟨n, h⟩
        exact ⟨path, n, rfl, h⟩
    rw [Tells, hex]
    simp only [validatorMain]
    generalize hf : Node.find path root = o
    cases o with
    | none =>
      refine ⟨.inr rfl, by simp, ?_⟩
      rintro ⟨n, hn, -⟩
      rw [find_at hn] at hf
      cases hf
    | some n =>
      have ha := at_find path hd hf
      have hv : checkSource E root path n = .ok true ↔ ∃ n, At root path n ∧
            (Valid E n ∨ ∃ es, n = .dir es ∧ ∀ e ∈ es, DefinitionFile "yaml" e.1 → Valid E e.2) := by
        have hu : ∀ {Q : Node → Prop}, (∃ n, At root path n ∧ Q n) ↔ Q n := by
          intro Q
          exact ⟨fun ⟨m, hm, hq⟩ => at_unique hm ha ▸ hq, fun hq => ⟨n, ha, hq⟩⟩
        rw [hu]
        cases n with
        | file c =>
          simp only [reduceCtorEq, false_and, exists_false, or_false]
          exact checkFile_true
        | dir es =>
          simp only [Node.dir.injEq, exists_eq_left']
          rw [checkSource, checkDirectory_true E ha hp]
          constructor
          · exact .inr
          · rintro (⟨f, hf, -⟩ | h)
            · cases hf
            · exact h
      simp only
      rw [← hv]
      generalize checkSource E root path n = r
      rcases r with e | b
      · simp
      · cases b <;> simp

/-- **C73** fails: for a directory with pattern characters in its name the exit status
is 0 although a definition file in it is not valid. -/
theorem C73_magic_refuted :
    let bad : Node := .file (some { docs := [.map []] })
    let root : Node := .dir [("defs[1]", .dir [("a.yaml", bad)])]
    Distinct root ∧ ¬ Tells exEnvR root (some ["defs[1]"])
      (validatorStatus exEnvR root (some ["defs[1]"])) := by
  have hd : Distinct (.dir [("defs[1]", .dir [("a.yaml", .file (some { docs := [.map []] }))])]) :=
    .dir (by simp) fun e he => by
      cases List.mem_singleton.1 he
      exact .dir (by simp) fun e he => by
        cases List.mem_singleton.1 he
        exact .file _
  refine ⟨hd, ?_⟩
  obtain ⟨ha, hm, hdef, hbad⟩ := C48_magic_refuted
  have hs : validatorStatus exEnvR
      (.dir [("defs[1]", .dir [("a.yaml", .file (some { docs := [.map []] }))])])
      (some ["defs[1]"]) = 0 := by
    simp only [validatorStatus, validatorMain, find_at ha, checkSource, hm]
    rfl
  simp only [hs]
  rintro ⟨-, h⟩
  obtain ⟨path, n, hp, hn, hv⟩ := h.1 rfl
  cases hp
  cases at_unique hn ha
  rcases hv with ⟨f, hf, -⟩ | ⟨es, he, hv⟩
  · cases hf
  · cases he
    exact hbad (hv _ (.head _) hdef)

/-- A tree and a source that meet the hypotheses of `C73_status_partial`, with a file
whose check ends with another exception. -/
example : Distinct (.dir [("defs", .dir [("a.yaml", .file none)])]) ∧ NoPattern "defs" ∧
    validatorMain exEnvR (.dir [("defs", .dir [("a.yaml", .file none)])]) (some ["defs", "a.yaml"])
      = .error .other := by
  refine ⟨.dir (by simp) fun e he => ?_, by unfold NoPattern; decide, rfl⟩
  cases List.mem_singleton.1 he
  exact .dir (by simp) fun e he => by
    cases List.mem_singleton.1 he
    exact .file _

end Dtf
