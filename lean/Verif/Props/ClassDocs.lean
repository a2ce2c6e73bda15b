import Verif.Props.ClassTexts
/-!
# Property C74: the class of a structure documents its members
-/
namespace Dtf
open Spec

namespace Spec

/-- The Python type that stands for values of a definition; others are named by their
data type. -/
inductive PythonType : Defn → Option String → String → Prop
  | boolean {h f t s u n} : PythonType (.prim h (.boolean f t) s u) n "bool"
  | character {h s u n} : PythonType (.prim h .character s u) n "str"
  | floatingPoint {h s u n} : PythonType (.prim h .floatingPoint s u) n "float"
  | integer {h g s u n} : PythonType (.prim h (.integer g) s u) n "int"
  | uuid {h s u n} : PythonType (.uuid h s u) n "uuid.UUID"
  | stream {h i e n} (hk : i.kind = .stream) : PythonType (.seq h i e) n "bytes"
  | string {h i e n enc} (hk : i.kind = .string enc) : PythonType (.seq h i e) n "str"
  | sequence {h i e n t} (hk : i.kind = .sequence) (ht : i.elementDataType = some t) :
      PythonType (.seq h i e) n ("tuple[" ++ t ++ "]")
  | other {d t} (h1 : ∀ h k s u, d ≠ .prim h k s u) (h2 : ∀ h s u, d ≠ .uuid h s u)
      (h3 : ∀ h i e, d ≠ .seq h i e) : PythonType d (some t) t

/-- The type of a member: a member with a condition or values has that of its definition;
what is defined in place and has no Python type is not named. -/
inductive MemberType : Defn → String → Prop
  | member {h d c n vs t} (ht : PythonType d n t) : MemberType (.member h d c n vs) t
  | direct {d t} (hd : ∀ h x c n vs, d ≠ .member h x c n vs) (ht : PythonType d (some "") t) : MemberType d t

/-- The text without the dots at its end. -/
def Undotted (t s : List Char) : Prop := (∃ k, t = s ++ List.replicate k '.') ∧ s.getLast? ≠ some '.'

/-- The description, or the name if there is none, without dots at its end. -/
def Summary (description : Option String) (name : String) (s : List Char) : Prop :=
  ∃ t, Shown description name t ∧ Undotted t.toList s

/-- The line that documents a member. -/
def AttributeLine (d : Defn) (l : List Char) : Prop :=
  ∃ t s, MemberType d t ∧ Summary d.hdr.description d.name s ∧
    l = "    ".toList ++ d.name.toList ++ " (".toList ++ t.toList ++ "): ".toList ++ s ++ ".".toList

/-- The lines, in the order of their characters. -/
def Sorted (ls : List (List Char)) : Prop := ls.Pairwise (· ≤ ·)

/-- The lines of a class: its description, its attributes, and the method that takes the
values of the members in order and stores them. -/
inductive ClassLines (nm : String) (description : Option String) (ms : List Defn) : List (List Char) → Prop
  | mk {title : List Char} {docs attributes stores : List (List Char)}
      (ht : Summary description nm title)
      (hd : All2 AttributeLine ms docs) (ha : attributes.Perm docs) (hs : Sorted attributes)
      (hp : stores.Perm (ms.map fun d => "    self.".toList ++ d.name.toList ++ " = ".toList ++ d.name.toList))
      (hq : Sorted stores) :
      ClassLines nm description ms
        (["class ".toList ++ nm.toList ++ "(object):".toList,
          "  \"\"\"".toList ++ title ++ ".".toList,
          [],
          "  Attributes:".toList] ++
        attributes ++
        ["  \"\"\"".toList,
          [],
          "  def __init__(self, ".toList ++
            List.intercalate ", ".toList (ms.map fun d => d.name.toList ++ "=None".toList) ++ "):".toList,
          "    \"\"\"Initializes an instance of ".toList ++ nm.toList ++ ".\"\"\"".toList,
          "    super(".toList ++ nm.toList ++ ", self).__init__()".toList] ++
        stores ++
        [[]])

end Spec

/-! ### Lines -/

theorem lineLe_iff : ∀ a b : List Char, lineLe a b = true ↔ a ≤ b
  | [], b => by simp [lineLe]
  | _ :: _, [] => by simp [lineLe]
  | a :: as, b :: bs => by
    rw [lineLe, List.cons_le_cons_iff, ← lineLe_iff as bs]
    have h1 : (a.toNat < b.toNat) ↔ a < b := Iff.rfl
    have h2 : a.toNat = b.toNat ↔ a = b := Char.toNat_inj
    rw [Bool.or_eq_true, Bool.and_eq_true, decide_eq_true_eq, decide_eq_true_eq, h1, h2]

theorem insertLine_perm (l : List Char) : ∀ ls, (insertLine l ls).Perm (l :: ls)
  | [] => .refl _
  | k :: ks => by
    rw [insertLine]
    split
    · exact .refl _
    · exact ((insertLine_perm l ks).cons k).trans (.swap ..)

theorem sortLines_perm : ∀ ls, (sortLines ls).Perm ls
  | [] => .refl _
  | l :: ls => by
    rw [sortLines]
    exact (insertLine_perm l _).trans ((sortLines_perm ls).cons l)

theorem insertLine_sorted (l : List Char) : ∀ ls, Sorted ls → Sorted (insertLine l ls)
  | [], _ => List.pairwise_singleton ..
  | k :: ks, h => by
    obtain ⟨h1, h2⟩ := List.pairwise_cons.mp h
    rw [insertLine]
    split
    · rename_i hl
      have hl := (lineLe_iff _ _).mp hl
      refine List.pairwise_cons.mpr ⟨?_, h⟩
      intro x hx
      rcases List.mem_cons.mp hx with rfl | hx
      · exact hl
      · exact Std.le_trans hl (h1 x hx)
    · rename_i hl
      have hl : k ≤ l := by
        rcases Std.le_total (a := k) (b := l) with h | h
        · exact h
        · exact absurd ((lineLe_iff _ _).mpr h) hl
      refine List.pairwise_cons.mpr ⟨?_, insertLine_sorted l ks h2⟩
      intro x hx
      rcases List.mem_cons.mp ((insertLine_perm l ks).mem_iff.mp hx) with rfl | hx
      · exact hl
      · exact h1 x hx

theorem sortLines_sorted : ∀ ls, Sorted (sortLines ls)
  | [] => .nil
  | l :: ls => insertLine_sorted l _ (sortLines_sorted ls)

theorem joinLines_intercalate (sep : List Char) : ∀ ls, joinLines sep ls = List.intercalate sep ls
  | [] => rfl
  | [l] => by simp [joinLines]
  | l :: k :: ls => by
    rw [joinLines, joinLines_intercalate sep (k :: ls)]
    simp [List.intercalate]

/-! ### Texts -/

theorem shownText_summary (description : Option String) (name : String) :
    Summary description name (shownText description name) := by
  have key : ∀ t : List Char, Undotted t ((t.reverse.dropWhile (· == '.')).reverse) := by
    intro t
    constructor
    · refine ⟨(t.reverse.takeWhile (· == '.')).length, ?_⟩
      have h1 := List.takeWhile_append_dropWhile (p := (· == '.')) (l := t.reverse)
      have h2 : t.reverse.takeWhile (· == '.') = List.replicate (t.reverse.takeWhile (· == '.')).length '.' := by
        apply List.eq_replicate_iff.mpr
        refine ⟨rfl, fun c hc => ?_⟩
        simpa using List.all_eq_true.mp List.all_takeWhile c hc
      have h3 := congrArg List.reverse h1
      rw [List.reverse_append, List.reverse_reverse, h2, List.reverse_replicate] at h3
      exact h3.symm
    · rw [List.getLast?_reverse]
      intro h
      have := List.head?_dropWhile_not (p := (· == '.')) (l := t.reverse)
      rw [h] at this
      simp at this
  unfold shownText Summary
  cases description with
  | none => exact ⟨name, .inr ⟨.inl rfl, rfl⟩, key _⟩
  | some d =>
    by_cases hd : d = ""
    · subst hd
      simp only [if_true]
      exact ⟨name, .inr ⟨.inr rfl, rfl⟩, key _⟩
    · simp only [if_neg hd]
      exact ⟨d, .inl ⟨rfl, hd⟩, key _⟩

theorem seqTypeText_type {h : Hdr} {i : SeqInfo} {e : Defn} {n : Option String} {t : List Char}
    (ht : seqTypeText i = some t) : PythonType (.seq h i e) n (String.ofList t) := by
  unfold seqTypeText at ht
  split at ht
  · rename_i hk
    obtain ⟨s, hs, rfl⟩ := Option.map_eq_some_iff.mp ht
    have : String.ofList ("tuple[".toList ++ s.toList ++ [']']) = "tuple[" ++ s ++ "]" := by
      rw [String.ofList_append, String.ofList_append, String.ofList_toList, String.ofList_toList]
    rw [this]
    exact .sequence hk hs
  · rename_i hk
    cases ht
    rw [String.ofList_toList]
    exact .stream hk
  · rename_i hk
    cases ht
    rw [String.ofList_toList]
    exact .string hk

theorem native_type {h : Hdr} {k : PrimKind} {s : Size} {u : String} {n : Option String} :
    PythonType (.prim h k s u) n (nativeTypeName k) := by
  cases k with
  | boolean => exact .boolean
  | character => exact .character
  | floatingPoint => exact .floatingPoint
  | integer => exact .integer

theorem memberTypeText_type {d : Defn} {t : List Char} (h : memberTypeText d = some t) :
    MemberType d (String.ofList t) := by
  cases d with
  | member h' d c dt vs =>
    cases d with
    | prim => cases h; rw [String.ofList_toList]; exact .member native_type
    | uuid => cases h; rw [String.ofList_toList]; exact .member .uuid
    | seq => exact .member (seqTypeText_type h)
    | _ =>
      obtain ⟨s, rfl, rfl⟩ := Option.map_eq_some_iff.mp h
      rw [String.ofList_toList]
      exact .member (.other (by simp) (by simp) (by simp))
  | prim => cases h; rw [String.ofList_toList]; exact .direct (by simp) native_type
  | uuid => cases h; rw [String.ofList_toList]; exact .direct (by simp) .uuid
  | seq => exact .direct (by simp) (seqTypeText_type h)
  | _ =>
    cases h
    exact .direct (by simp) (.other (by simp) (by simp) (by simp))

theorem attributeLine_line {d : Defn} {t : List Char} (h : memberTypeText d = some t) :
    AttributeLine d (attributeLine d t) := by
  refine ⟨_, _, memberTypeText_type h, shownText_summary .., ?_⟩
  rw [String.toList_ofList (l := t)]
  rfl

theorem mapM_lines : ∀ {ms : List Defn} {ls : List (List Char)},
    ms.mapM (fun d => (memberTypeText d).map (attributeLine d)) = some ls → All2 AttributeLine ms ls
  | [], ls, h => by cases h; exact .nil
  | d :: ms, ls, h => by
    rw [List.mapM_cons] at h
    cases ht : memberTypeText d with
    | none => rw [ht] at h; cases h
    | some t =>
      rw [ht] at h
      cases hm : ms.mapM (fun d => (memberTypeText d).map (attributeLine d)) with
      | none => rw [hm] at h; cases h
      | some ks =>
        rw [hm] at h
        cases h
        exact .cons (attributeLine_line ht) (mapM_lines hm)

theorem join_append (xs ys : List (List Char)) (hx : xs ≠ []) (hy : ys ≠ []) :
    List.intercalate ['\n'] (xs ++ ys) = List.intercalate ['\n'] xs ++ ['\n'] ++ List.intercalate ['\n'] ys := by
  rw [← joinLines_intercalate, ← joinLines_intercalate, ← joinLines_intercalate]
  cases ys with
  | nil => exact absurd rfl hy
  | cons y ys =>
    clear hy
    induction xs with
    | nil => exact absurd rfl hx
    | cons x xs ih =>
      cases xs with
      | nil => simp [joinLines]
      | cons z zs =>
        have := ih (by simp)
        simp only [List.cons_append] at this
        simp only [List.cons_append, joinLines, this]
        simp

/-- The class of a structure, for which a map is created, is this text. -/
theorem C74_class (E : Env) (hd : Hdr) (ms : List Defn) (m : DMap) (hm : createMap E (.struct hd ms) = .ok m) :
    ∃ lines, ClassLines hd.name hd.description ms lines ∧
      classText hd.name hd.description ms = some (List.intercalate ['\n'] lines) := by
  obtain ⟨io, infos, maps, l, hc, -⟩ := createAs_struct hm
  obtain ⟨hv, hd', -⟩ := createClass_ok hc
  obtain ⟨doc, hdoc⟩ := (classDoc_iff (nm := hd.name) (ds := hd.description)).mpr hd'
  have hne : ms ≠ [] := by
    intro h
    exact hv.nonempty (by rw [h]; rfl)
  unfold classText
  rw [hdoc]
  unfold classDoc at hdoc
  obtain ⟨lines, hl, rfl⟩ := Option.map_eq_some_iff.mp hdoc
  have hlines := mapM_lines hl
  have hln : lines ≠ [] := by
    rintro rfl
    cases hlines
    exact hne rfl
  have h1 : sortLines lines ≠ [] := by
    intro h
    have := sortLines_perm lines
    rw [h] at this
    exact hln this.nil_eq.symm
  have h2 : sortLines ((ms.map Defn.name).map fun n => "    self.".toList ++ n.toList ++ " = ".toList ++ n.toList) ≠ [] := by
    intro h
    have := sortLines_perm ((ms.map Defn.name).map fun n => "    self.".toList ++ n.toList ++ " = ".toList ++ n.toList)
    rw [h] at this
    have := this.nil_eq
    simp [hne] at this
  refine ⟨_, .mk (shownText_summary ..) hlines (sortLines_perm lines) (sortLines_sorted _)
    (stores := sortLines ((ms.map Defn.name).map fun n => "    self.".toList ++ n.toList ++ " = ".toList ++ n.toList))
    ?_ (sortLines_sorted _), ?_⟩
  · have := sortLines_perm ((ms.map Defn.name).map fun n => "    self.".toList ++ n.toList ++ " = ".toList ++ n.toList)
    rwa [List.map_map] at this ⊢
  · rw [join_append _ _ (by simp) (by simp), join_append _ _ (by simp) h2, join_append _ _ (by simp) (by simp),
      join_append _ _ (by simp) h1]
    unfold classCode
    rw [joinLines_intercalate, joinLines_intercalate, joinLines_intercalate, List.map_map]
    have e1 : "(object):\n  \"\"\"".toList = "(object):".toList ++ ['\n'] ++ "  \"\"\"".toList := by decide +kernel
    have e2 : ".\n\n  Attributes:\n".toList = ".".toList ++ ['\n'] ++ ['\n'] ++ "  Attributes:".toList ++ ['\n'] := by
      decide +kernel
    have e3 : "\n  ".toList ++ "\"\"\"".toList = ['\n'] ++ "  \"\"\"".toList := by decide +kernel
    have e4 : "\n\n  def __init__(self, ".toList = ['\n'] ++ ['\n'] ++ "  def __init__(self, ".toList := by decide +kernel
    have e5 : "):\n    \"\"\"Initializes an instance of ".toList =
        "):".toList ++ ['\n'] ++ "    \"\"\"Initializes an instance of ".toList := by decide +kernel
    have e6 : ".\"\"\"\n    super(".toList = ".\"\"\"".toList ++ ['\n'] ++ "    super(".toList := by decide +kernel
    have e7 : ", self).__init__()\n".toList = ", self).__init__()".toList ++ ['\n'] := by decide +kernel
    rw [e1, e2, e4, e5, e6, e7]
    have e3' : ∀ x, "\n  ".toList ++ ("\"\"\"".toList ++ x) = ['\n'] ++ ("  \"\"\"".toList ++ x) := by
      intro x
      rw [← List.append_assoc, e3, List.append_assoc]
    simp only [List.append_assoc, e3', Option.map_some, List.intercalate, List.intersperse,
      List.flatten_cons, List.flatten_nil, List.append_nil, List.nil_append, List.cons_append, Function.comp_def]

/-- An entry with a description, a size and data of that size. -/
def exEntry : Defn := .struct { name := "entry", description := some "An entry...", order := .little } [
  .member { name := "size", description := some "size of the data." } exU8r none (some "u8") none,
  .seq { name := "data" } { kind := .stream, elementDataType := some "u8", dataSizeExpr := some "entry.size" } exU8r]

/-- The documentation is in the order of the names, the arguments are in that of the
members. -/
example : classText "entry" (some "An entry...") (exEntry.members?.getD []) = some (List.intercalate ['\n'] [
    "class entry(object):".toList,
    "  \"\"\"An entry.".toList,
    [],
    "  Attributes:".toList,
    "    data (bytes): data.".toList,
    "    size (int): size of the data.".toList,
    "  \"\"\"".toList,
    [],
    "  def __init__(self, size=None, data=None):".toList,
    "    \"\"\"Initializes an instance of entry.\"\"\"".toList,
    "    super(entry, self).__init__()".toList,
    "    self.data = data".toList,
    "    self.size = size".toList,
    []]) := by decide +kernel

example : ∃ m, createMap exEnvR exEntry = .ok m := ⟨_, rfl⟩

end Dtf
