import Verif.Relabel
import Verif.Reword
import Verif.Props.Orders
import Verif.Props.ClassTexts
/-!
# Property C81: documentation and the names of types do not matter

`Relabelled d d'`: the definitions differ only in descriptions, aliases, the names of
data types other than structures, and in which members are given by the name of their type.
-/
namespace Dtf
open Spec

/-- **C81** Definitions that differ only in descriptions, aliases, the names of data types
other than structures, and in which members are given by the name of their type, are the same
to a user. -/
theorem C81_same (E : Env) (d d' : Defn) (hd : d.Every Told) (hd' : d'.Every Told) (h : Relabelled d d') :
    Interchangeable E d d' :=
  interchangeable_of h.size.symm (createOwn_relabelled (createAs_relabelled E d) h hd hd')

/-- Giving the type of a member a name of its own, and the member by this name, changes nothing
to a user: `d` is the type as given with the member, `d'` the type of another name. -/
theorem C81_named (E : Env) (h h' : Hdr) (before after : List Defn) (d d' : Defn) (type : String)
    (hi : Inlinable d = true) (hn : h'.name = d.name) (hd : Relabelled d d')
    (ht : (Defn.struct h (before ++ d :: after)).Every Told)
    (ht' : (Defn.struct h (before ++ .member h' d' none (some type) none :: after)).Every Told) :
    Interchangeable E (.struct h (before ++ d :: after))
      (.struct h (before ++ .member h' d' none (some type) none :: after)) := by
  refine C81_same E _ _ ht ht' (.struct rfl rfl ?_)
  clear ht ht'
  have hrefl : ∀ ms : List Defn, SameNamed ms ms := by
    intro ms
    induction ms with
    | nil => exact .nil
    | cons m ms ih => exact .cons rfl (relabelled_bare rfl) ih
  induction before with
  | nil => exact .named h' type hn.symm hi hd (hrefl after)
  | cons m ms ih => exact .cons rfl (relabelled_bare rfl) ih

/-! ### An example -/

/-- A structure of a number, a list of numbers and a structure of two numbers; the argument
is put before the names of all types but structures, and into all descriptions. -/
def exLabels (a : String) : Defn :=
  .struct { name := "T", description := some a }
    [.member { name := "a", description := some a } (.prim { name := a ++ "1" } (.integer true) (.bytes 1) "bytes")
      none (some (a ++ "1")) none,
     .member { name := "b" } (.seq { name := a ++ "list" }
      { kind := .sequence, elementDataType := some (a ++ "1"), numElements := some 2 }
      (.prim { name := a ++ "1", aliases := [a] } (.integer true) (.bytes 1) "bytes")) none (some (a ++ "list")) none,
     .member { name := "c" } (.struct { name := "P", description := some a }
      [.member { name := "x" } (.prim { name := a ++ "2", order := .little } (.integer true) (.bytes 2) "bytes") none
        (some (a ++ "2")) none]) none (some (a ++ "P")) none]

theorem exLabels_relabelled (a b : String) : Relabelled (exLabels a) (exLabels b) :=
  .struct rfl rfl (.cons rfl (.member _ _ (.prim _ _ _ rfl) rfl) (.cons rfl
    (.member _ _ (.seq { kind := .sequence, elementDataType := some (a ++ "1"), numElements := some 2 }
      (some (b ++ "1")) rfl rfl (.prim _ _ _ rfl)) rfl)
    (.cons rfl (.member _ _ (.struct rfl rfl (.cons rfl (.member _ _ (.prim _ _ _ rfl) rfl) .nil)) rfl) .nil)))

instance (s : String) : Decidable (Quiet s) := by unfold Quiet; infer_instance

theorem exLabels_told {a : String} (h : a = "u" ∨ a = "number") : (exLabels a).Every Told := by
  have key : ∀ s ∈ [a, a ++ "1", a ++ "2", a ++ "P", "T", "P", "a", "b", "c", "x", ""], Quiet s := by
    rcases h with rfl | rfl <;> decide +kernel
  have hne : a ++ "1" ≠ a ++ "list" ∧ a ++ "1" ≠ "P" ∧ a ++ "list" ≠ "P" := by
    rcases h with rfl | rfl <;> decide +kernel
  have hhead : ∀ s ∈ [a ++ "1", a ++ "list", a ++ "2", "P"], s.toList.head? ≠ some '_' := by
    rcases h with rfl | rfl <;> decide +kernel
  simp only [List.mem_cons, List.not_mem_nil, or_false, forall_eq_or_imp, forall_eq] at key hhead
  obtain ⟨k1, k2, k3, k4, k5, k6, k7, k8, k9, k10, k11⟩ := key
  obtain ⟨g1, g2, g3, g4⟩ := hhead
  simp only [exLabels, Defn.Every, everyDefn, Told, and_true, true_and]
  refine ⟨⟨⟨?_, ?_⟩, k5, k1, ?_⟩, ⟨⟨?_, ?_⟩, k6, k1, ?_⟩⟩
  · intro x hx y hy
    simp only [List.mem_cons, List.not_mem_nil, or_false] at hx hy
    rcases hx with rfl | rfl | rfl <;> rcases hy with rfl | rfl | rfl <;>
      simp [Defn.target, Defn.name, Defn.hdr, hne, hne.1.symm, hne.2.1.symm, hne.2.2.symm]
  · intro x hx
    simp only [List.mem_cons, List.not_mem_nil, or_false] at hx
    rcases hx with rfl | rfl | rfl <;> assumption
  · intro m hm
    simp only [List.mem_cons, List.not_mem_nil, or_false] at hm
    rcases hm with rfl | rfl | rfl <;> simp_all [Defn.name, Defn.hdr, typeTexts]
  · intro x hx y hy
    simp only [List.mem_cons, List.not_mem_nil, or_false] at hx hy
    subst hx; subst hy; intro; rfl
  · intro x hx
    simp only [List.mem_cons, List.not_mem_nil, or_false] at hx
    subst hx; assumption
  · intro m hm
    simp only [List.mem_cons, List.not_mem_nil, or_false] at hm
    subst hm; simp_all [Defn.name, Defn.hdr, typeTexts]

/-- Both definitions map five bytes to the same values. -/
example : Interchangeable exEnv (exLabels "u") (exLabels "number") ∧
    ∃ m m', createMap exEnv (exLabels "u") = .ok m ∧ createMap exEnv (exLabels "number") = .ok m' ∧
      (mapStream exEnv m [1, 2, 3, 4, 0] 0 0 {}).1 = .ok (.struct "T" [("a", .int 1),
        ("b", .tuple [.int 2, .int 3]), ("c", .struct "P" [("x", .int 4)])]) :=
  ⟨C81_same _ _ _ (exLabels_told (.inl rfl)) (exLabels_told (.inr rfl)) (exLabels_relabelled _ _), _, _, rfl, rfl, rfl⟩

/-- A number, and as many bytes: the type of the bytes is given with the member. -/
def exInlined : Defn :=
  .struct { name := "T" }
    [.member { name := "n" } (.prim { name := "uint8" } (.integer false) (.bytes 1) "bytes") none (some "uint8") none,
     .seq { name := "data" } { kind := .stream, elementDataType := some "byte", dataSizeExpr := some "n" } (.prim { name := "byte" } (.integer false) (.bytes 1) "bytes")]

/-- The same with a name for the type of the bytes. -/
def exByName : Defn :=
  .struct { name := "T" }
    [.member { name := "n" } (.prim { name := "uint8" } (.integer false) (.bytes 1) "bytes") none (some "uint8") none,
     .member { name := "data" } (.seq { name := "blob" } { kind := .stream, elementDataType := some "byte", dataSizeExpr := some "n" }
      (.prim { name := "byte" } (.integer false) (.bytes 1) "bytes"))
      none (some "blob") none]

theorem exInlined_told : exInlined.Every Told ∧ exByName.Every Told := by
  have key : ∀ s ∈ ["uint8", "byte", "T", "n", "data", "blob", ""], Quiet s := by decide +kernel
  have hne : "uint8" ≠ "data" ∧ "uint8" ≠ "blob" := by decide +kernel
  have hhead : ∀ s ∈ ["uint8", "data", "blob"], s.toList.head? ≠ some '_' := by decide +kernel
  simp only [List.mem_cons, List.not_mem_nil, or_false, forall_eq_or_imp, forall_eq] at key hhead
  obtain ⟨k1, k2, k3, k4, k5, k6, k7⟩ := key
  obtain ⟨g1, g2, g3⟩ := hhead
  simp only [exInlined, exByName, Defn.Every, everyDefn, Told, and_true]
  refine ⟨⟨⟨?_, ?_⟩, k3, k7, ?_⟩, ⟨⟨?_, ?_⟩, k3, k7, ?_⟩⟩
  · intro x hx y hy
    simp only [List.mem_cons, List.not_mem_nil, or_false] at hx hy
    rcases hx with rfl | rfl <;> rcases hy with rfl | rfl <;>
      simp [Defn.target, Defn.name, Defn.hdr]
  · intro x hx
    simp only [List.mem_cons, List.not_mem_nil, or_false] at hx
    rcases hx with rfl | rfl <;> assumption
  · intro m hm
    simp only [List.mem_cons, List.not_mem_nil, or_false] at hm
    rcases hm with rfl | rfl <;> simp_all [Defn.name, Defn.hdr, typeTexts]
  · intro x hx y hy
    simp only [List.mem_cons, List.not_mem_nil, or_false] at hx hy
    rcases hx with rfl | rfl <;> rcases hy with rfl | rfl <;>
      simp [Defn.target, Defn.name, Defn.hdr]
  · intro x hx
    simp only [List.mem_cons, List.not_mem_nil, or_false] at hx
    rcases hx with rfl | rfl <;> assumption
  · intro m hm
    simp only [List.mem_cons, List.not_mem_nil, or_false] at hm
    rcases hm with rfl | rfl <;> simp_all [Defn.name, Defn.hdr, typeTexts]

example : Interchangeable exEnv exInlined exByName :=
  C81_named exEnv { name := "T" } { name := "data" } [_] [] _ _ "blob" rfl rfl
    (.seq { kind := .stream, elementDataType := some "byte", dataSizeExpr := some "n" } (some "byte") rfl rfl
      (.prim _ _ _ rfl))
    exInlined_told.1 exInlined_told.2

/-! ### The conditions are needed -/

/-- A group with the given structure. -/
def exKeyed (m : Defn) : Defn :=
  .group { name := "g" } (.struct { name := "b" } [m]) "k" none [.struct { name := "s" } [m]]

/-- The identifier of the members of a group must be given the same way: without values, a
member given with its type makes map creation raise an AttributeError, a member given by the
name of its type a FormatError. -/
theorem C81_identifier : createMap exEnv (exKeyed (.prim { name := "k" } (.integer false) (.bytes 1) "bytes")) =
      .error .attribute ∧
    createMap exEnv (exKeyed (.member { name := "k" } (.prim { name := "u" } (.integer false) (.bytes 1) "bytes") none
      (some "u") none)) = .error .format :=
  ⟨rfl, rfl⟩

/-- A structure of a 1-byte number and a 2-byte number, the types of which have the given
names. -/
def exTwoTypes (a b : String) (description : Option String) (nm : String) : Defn :=
  .struct { name := nm, description := description }
    [.member { name := "x" } (.prim { name := a, order := .little } (.integer true) (.bytes 1) "bytes") none (some a) none,
     .member { name := "y" } (.uuid { name := b, order := .big } (.bytes 16) "bytes") none (some b) none]

/-- Types of one structure that have the same name are taken for the same, see C37. -/
theorem C81_types : Relabelled (exTwoTypes "a" "b" none "T") (exTwoTypes "a" "a" none "T") ∧
    ¬ Interchangeable exEnv (exTwoTypes "a" "b" none "T") (exTwoTypes "a" "a" none "T") := by
  refine ⟨.struct rfl rfl (.cons rfl (.member _ _ (.prim _ _ _ rfl) rfl) (.cons rfl (.member _ _ (.uuid _ _ rfl) rfl)
    .nil)), ?_⟩
  obtain ⟨m, m', hm, hm', h1, h2⟩ : ∃ m m', createMap exEnv (exTwoTypes "a" "b" none "T") = .ok m ∧
      createMap exEnv (exTwoTypes "a" "a" none "T") = .ok m' ∧
      (mapStream exEnv m [1, 2] 0 0 {}).1 = .error .tooSmall ∧
      (mapStream exEnv m' [1, 2] 0 0 {}).1 = .ok (.struct "T" [("x", .int 1), ("y", .int 2)]) :=
    ⟨_, _, rfl, rfl, rfl, rfl⟩
  intro h
  rw [(h.maps _ _ hm hm').1, h2] at h1
  cases h1

/-- The name of a structure is that of its values. -/
theorem C81_structure : ¬ Interchangeable exEnv (exTwoTypes "a" "b" none "T") (exTwoTypes "a" "b" none "U") := by
  obtain ⟨m, m', hm, hm', h1, h2⟩ : ∃ m m', createMap exEnv (exTwoTypes "a" "b" none "T") = .ok m ∧
      createMap exEnv (exTwoTypes "a" "b" none "U") = .ok m' ∧
      createValues m [.int 1] [] = .ok (.struct "T" [("x", .int 1), ("y", .pyNone)]) ∧
      createValues m' [.int 1] [] = .ok (.struct "U" [("x", .int 1), ("y", .pyNone)]) :=
    ⟨_, _, rfl, rfl, rfl, rfl⟩
  intro h
  rw [(h.maps _ _ hm hm').2.2.2, h2] at h1
  simp at h1

/-- A description with a path makes map creation fail, see C68. -/
theorem C81_quiet : Relabelled (exDescribed "t") (exDescribed textPath) ∧
    ¬ Interchangeable exEnvR (exDescribed "t") (exDescribed textPath) := by
  refine ⟨.struct rfl rfl (.cons rfl (.member _ _ (.prim _ _ _ rfl) rfl) .nil), ?_⟩
  intro h
  have := (h.error _).mpr path_map
  rw [show createMap exEnvR (exDescribed "t") = .ok _ from rfl] at this
  cases this

end Dtf
