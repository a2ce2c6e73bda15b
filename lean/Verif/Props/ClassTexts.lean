import Verif.Props.Creation
/-!
# Property C68: texts of a definition are not run as code
-/
namespace Dtf
open Spec

namespace Spec

/-- The definition with another description. -/
def describedAs (t : Option String) : Defn → Defn
  | .prim h k s u => .prim { h with description := t } k s u
  | .uuid h s u => .uuid { h with description := t } s u
  | .padding h a => .padding { h with description := t } a
  | .seq h i e => .seq { h with description := t } i e
  | .struct h ms => .struct { h with description := t } ms
  | .union h ms => .union { h with description := t } ms
  | .constant h v => .constant { h with description := t } v
  | .enumeration h vs => .enumeration { h with description := t } vs
  | .format h a b => .format { h with description := t } a b
  | .family h a b => .family { h with description := t } a b
  | .group h a b c d => .group { h with description := t } a b c d
  | .member h a b c d => .member { h with description := t } a b c d

/-- The text `source` of a class is made of its first line and a literal with three
quotes, which is followed by the text `code`. -/
def ReadsAs (nm : String) (source code : List Char) : Prop :=
  ∃ doc, source = "class ".toList ++ nm.toList ++ "(object):\n  \"\"\"".toList ++ doc ++
    "\"\"\"".toList ++ code ∧ Stays 0 doc ∧ ∀ c, doc.getLast? = some c → c ≠ '"' ∧ c ≠ '\\'

/-- The same members, but for their descriptions. -/
def Redescribed (ms ms' : List Defn) : Prop := All2 (fun d d' => ∃ t, d' = describedAs t d) ms ms'

end Spec

theorem describedAs_name (t : Option String) (d : Defn) : (describedAs t d).name = d.name := by
  cases d <;> rfl

theorem redescribed_names {ms ms' : List Defn} (h : Redescribed ms ms') :
    ms'.map Defn.name = ms.map Defn.name := by
  induction h with
  | nil => rfl
  | cons h _ ih =>
    obtain ⟨t, rfl⟩ := h
    rw [List.map_cons, List.map_cons, ih, describedAs_name]

theorem described_again {t : Option String} {d : Defn} (h : Described d) : Described (describedAs t d) := by
  cases d with
  | member h' d c dt vs => cases d <;> exact h
  | _ => exact h

theorem redescribed_described {ms ms' : List Defn} (h : Redescribed ms ms')
    (hd : ∀ d ∈ ms, Described d) : ∀ d ∈ ms', Described d := by
  induction h with
  | nil => exact fun _ h => by cases h
  | cons h _ ih =>
    obtain ⟨t, rfl⟩ := h
    intro d hm
    rcases List.mem_cons.mp hm with rfl | hm
    · exact described_again (hd _ (List.mem_cons_self ..))
    · exact ih (fun d hd' => hd d (List.mem_cons_of_mem _ hd')) d hm

/-- If the class of a structure is created, then the only text run by Python, apart from
a literal, depends on the names of the structure and its members. -/
theorem C68_code_partial (E : Env) (nm : String) (names : List String) :
    ∃ code, ∀ ds ms b, ms.map Defn.name = names → createClass E nm ds ms = .ok b →
      ∃ source, classText nm ds ms = some source ∧ ReadsAs nm source code := by
  refine ⟨classCode nm names, fun ds ms b hn hc => ?_⟩
  obtain ⟨-, hd, -, -, hi⟩ := createClass_ok hc
  obtain ⟨doc, hdoc⟩ := classDoc_iff (nm := nm) (ds := ds).mpr hd
  refine ⟨_, by unfold classText; rw [hdoc]; rfl, doc, by rw [hn], ?_, ?_⟩
  · have hr := (readDoc_class (E := E) (code := []) hdoc).1.mpr hi
    obtain ⟨xs, rfl, -⟩ := classDoc_pieces hdoc
    rw [readDoc_eq (by decide) (by decide)] at hr
    split at hr
    · cases hr
    split at hr
    · cases hr
    · rename_i h
      exact staysB_iff.mp (by simpa using h)
  · obtain ⟨xs, rfl, -⟩ := classDoc_pieces hdoc
    intro c hc
    rw [List.getLast?_append] at hc
    cases hc
    exact ⟨by decide, by decide⟩

/-- Inert texts do not matter: with other descriptions the class is created as before. -/
theorem C68_descriptions_partial (E : Env) (nm : String) (ds ds' : Option String) (ms ms' : List Defn)
    (b : Bool) (hm : Redescribed ms ms') (hc : createClass E nm ds ms = .ok b)
    (hi : ∀ t, Documented nm ds' ms' t → Inert E t.toList) : createClass E nm ds' ms' = .ok b := by
  obtain ⟨hv, hd, -, -, -⟩ := createClass_ok hc
  have hn := redescribed_names hm
  obtain ⟨doc', hdoc'⟩ := classDoc_iff (nm := nm) (ds := ds').mpr (redescribed_described hm hd)
  unfold createClass at hc ⊢
  simp only [hn, validateClass_iff.mpr hv, hdoc'] at hc ⊢
  split at hc
  · cases hc
  split at hc
  · cases hc
  rw [readDoc_plain hdoc', (readDoc_class hdoc').1.mpr hi]
  exact hc

/-- A class is created only if all texts of the structure are inert. -/
theorem C68_inert_partial (E : Env) (hd : Hdr) (ms : List Defn) (m : DMap)
    (hm : createMap E (.struct hd ms) = .ok m) :
    ∀ t, Documented hd.name hd.description ms t → Inert E t.toList := by
  obtain ⟨io, infos, maps, l, hc, -⟩ := createAs_struct hm
  exact (createClass_ok hc).2.2.2.2

/-- Texts without quotes, backslashes and null characters are inert. -/
theorem C68_plain_partial (E : Env) (t : List Char) (h : ∀ c ∈ t, c ≠ '"' ∧ c ≠ '\\' ∧ c ≠ '\x00') :
    Inert E t := by
  refine plain_inert ?_
  unfold plainText
  rw [List.all_eq_true]
  intro c hc
  obtain ⟨h1, h2, h3⟩ := h c hc
  simp [h1, h2, h3]

/-- A structure of one byte with this description. -/
def docDescribed (t : String) : Yaml := doc [("name", .str "t"), ("type", .str "structure"),
  ("description", .str t), ("members", .list [doc [("name", .str "a"), ("data_type", .str "u8")]])]

def exDescribed (t : String) : Defn :=
  .struct { name := "t", description := some t } [.member { name := "a" } exU8r none (some "u8") none]

/-- Descriptions: a path, and one that ends the literal it is put into. -/
def textPath : String := "Below C:\\Users."
def textCode : String := "t\"\"\"; x = object; \"\"\""

theorem createMap_syntax {r : Except Err DMap}
    (h : (match r with | .error .syntax => true | _ => false) = true) : r = .error .syntax := by
  split at h
  · rfl
  · cases h

theorem path_read : (readFileObject exEnvR {} { docs := [docU8, docDescribed textPath] }).1 = .ok () := rfl
theorem path_get : (readFileObject exEnvR {} { docs := [docU8, docDescribed textPath] }).2.getByName exEnvR "t" =
    some (exDescribed textPath) := rfl
theorem path_map : createMap exEnvR (exDescribed textPath) = .error .syntax :=
  createMap_syntax (by decide +kernel)
theorem path_legal : escapesOk exEnvR (textPath.toList ++ ['.']) = false := by decide +kernel

theorem code_read : (readFileObject exEnvR {} { docs := [docU8, docDescribed textCode] }).1 = .ok () := rfl
theorem code_get : (readFileObject exEnvR {} { docs := [docU8, docDescribed textCode] }).2.getByName exEnvR "t" =
    some (exDescribed textCode) := rfl
theorem code_stays : staysB 0 (textCode.toList ++ ['.']) = false := by decide +kernel

/-- The text of the class after the literal `"""t"""`. -/
def textRest : List Char := ("\"\"\".\n\n  Attributes:\n    a (int): a.\n  \"\"\"\n\n  def __init__(self, a=None):\n" ++
  "    \"\"\"Initializes an instance of t.\"\"\"\n    super(t, self).__init__()\n    self.a = a\n").toList

theorem code_text : classText "t" (some textCode) [.member { name := "a" } exU8r none (some "u8") none] =
    some ("class ".toList ++ "t".toList ++ "(object):\n  \"\"\"".toList ++ ['t'] ++ "\"\"\"".toList ++
      ("; x = object; ".toList ++ textRest)) := by decide +kernel

theorem code_reads : ReadsAs "t" ("class ".toList ++ "t".toList ++ "(object):\n  \"\"\"".toList ++ ['t'] ++
    "\"\"\"".toList ++ ("; x = object; ".toList ++ textRest)) ("; x = object; ".toList ++ textRest) := by
  refine ⟨['t'], by rfl, .char (by decide) (by decide) .nil, ?_⟩
  intro c hc
  cases hc
  exact ⟨by decide, by decide⟩

/-- The file is read, but a description with a path makes map creation raise
SyntaxError. -/
theorem C68_path_refuted :
    (readFileObject exEnvR {} { docs := [docU8, docDescribed textPath] }).1 = .ok () ∧
    (readFileObject exEnvR {} { docs := [docU8, docDescribed textPath] }).2.getByName exEnvR "t" =
      some (exDescribed textPath) ∧
    createMap exEnvR (exDescribed textPath) = .error .syntax ∧
    ¬ Legal exEnvR (textPath.toList ++ ['.']) :=
  ⟨path_read, path_get, path_map, fun h => by have := escapesOk_iff.mpr h; rw [path_legal] at this; cases this⟩

/-- The file is read, and a part of the description is run as code when the class is
made: it gives the class an attribute `x`. -/
theorem C68_code_refuted :
    (readFileObject exEnvR {} { docs := [docU8, docDescribed textCode] }).1 = .ok () ∧
    (readFileObject exEnvR {} { docs := [docU8, docDescribed textCode] }).2.getByName exEnvR "t" =
      some (exDescribed textCode) ∧
    (∃ source code, exDescribed textCode = .struct { name := "t", description := some textCode }
        [.member { name := "a" } exU8r none (some "u8") none] ∧
      classText "t" (some textCode) [.member { name := "a" } exU8r none (some "u8") none] = some source ∧
      ReadsAs "t" source ("; x = object; ".toList ++ code)) ∧
    ¬ Stays 0 (textCode.toList ++ ['.']) := by
  refine ⟨code_read, code_get, ⟨_, _, rfl, code_text, code_reads⟩, fun h => ?_⟩
  have := staysB_iff.mpr h
  rw [code_stays] at this
  cases this

theorem createClass_some {r : Except Err Bool}
    (h : (match r with | .ok _ => true | _ => false) = true) : ∃ b, r = .ok b := by
  cases r with
  | ok b => exact ⟨b, rfl⟩
  | error x => cases h

/-- A description with quotes and a backslash that is inert, and its class. -/
example : Inert exEnvR ("A \"word\" and \\n \"\"".toList) :=
  inertB_iff.mp (by decide +kernel)

example : ∃ b, createClass exEnvR "t" (some "A \"word\" and \\n \"\"")
    [.member { name := "a" } exU8r none (some "u8") none] = .ok b :=
  createClass_some (by decide +kernel)

end Dtf
