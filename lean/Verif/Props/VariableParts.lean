import Verif.VariableParts
import Verif.Props.Variable
/-!
C77: reading types of a definition file by size hints, from end to end.
-/
namespace Dtf
open Spec

theorem blank_given {ns : Namespace} (h : Blank ns) (n : String) : givenNumber (withBuiltins ns) n = none := by
  unfold givenNumber withBuiltins nsSet
  rcases h with rfl | ⟨cls, names, rfl⟩
  · simp only [List.any_nil, Bool.false_eq_true, if_false, List.nil_append, List.lookup]
    generalize (n == "__builtins__") = b
    cases b <;> rfl
  · simp only [List.any_cons, List.any_nil, Bool.or_false, List.map_cons, List.map_nil, List.cons_append, List.nil_append]
    generalize (cls == "__builtins__") = a
    cases a with
    | true =>
      simp only [if_true, List.lookup]
      generalize (n == "__builtins__") = b
      cases b <;> rfl
    | false =>
      simp only [Bool.false_eq_true, if_false, List.lookup]
      generalize (n == "__builtins__") = b
      generalize (n == cls) = c
      cases b <;> cases c <;> rfl

theorem blank_lookup (names : List String) (f : String) :
    (names.map fun n => (n, Val.pyNone)).lookup f = none ∨ (names.map fun n => (n, Val.pyNone)).lookup f = some .pyNone := by
  induction names with
  | nil => exact .inl rfl
  | cons n names ih =>
    rw [List.map_cons, List.lookup_cons]
    split
    · exact .inr rfl
    · exact ih

theorem blank_field {ns : Namespace} (h : Blank ns) (r f : String) : fieldNumber (withBuiltins ns) r f = none := by
  unfold fieldNumber numberField
  split
  · rename_i cls' attrs hl
    rcases h with rfl | ⟨cls, names, rfl⟩
    · rw [withBuiltins, nsSet] at hl
      simp only [List.any_nil, Bool.false_eq_true, if_false, List.nil_append, List.lookup_cons, List.lookup_nil] at hl
      split at hl <;> cases hl
    · have : attrs = names.map fun n => (n, Val.pyNone) := by
        unfold withBuiltins nsSet at hl
        by_cases hc : cls = "__builtins__"
        · simp [hc, List.lookup] at hl
          split at hl <;> cases hl
        · simp [hc, List.lookup] at hl
          split at hl
          · cases hl; rfl
          · split at hl <;> cases hl
      rw [this]
      rcases blank_lookup names f with h | h <;> rw [h]
  · rfl

theorem blank_value {ns : Namespace} (h : Blank ns) {e : Expr} (hn : e.NeedsNames) : e.value (withBuiltins ns) = none := by
  induction e with
  | number n => exact hn.elim
  | given n => exact blank_given h n
  | field r f => exact blank_field h r f
  | plus a b iha ihb | minus a b iha ihb | times a b iha ihb | bits a b iha ihb =>
    rw [Expr.value]
    rcases hn with hn | hn
    · rw [iha hn]
    · rw [ihb hn]
      rcases a.value _ <;> rfl
  | over a n iha => rw [Expr.value, iha hn]
  | choose a r c d b iha ihc ihd ihb =>
    have hcd : c.NeedsNames ∨ d.NeedsNames → (a.choose r c d b).value (withBuiltins ns) = none := by
      rw [Expr.value]
      rintro (h | h)
      · rw [ihc h]
      · rw [ihd h]
        rcases c.value _ <;> rfl
    have hor : ∀ {p q r s : Prop}, (p ∧ q) ∨ (r ∧ s) → p ∨ r := fun h => h.imp And.left And.left
    rcases hn with hn | hn
    · rw [Expr.value, iha hn.1, ihb hn.2]
      split
      · split <;> rfl
      · rfl
    · cases r with
      | lt | le => exact hcd hn
      | eq | ne => exact hcd (hor hn.2)

/-- Python with these expressions is strict. -/
theorem strict_exists : Strict arithEnv := by
  intro e he hn ns hb v hv
  replace hv : (readText e.text).bind (Tree.eval (withBuiltins ns)) = some v := hv
  rw [readText_expr he.1] at hv
  simp only [Option.bind_some, Tree.eval, blank_value hb hn, Option.map_none] at hv
  cases hv

/-! ### C77 -/

/-- A program that has the first `n` bytes of its input, maps them with a type of the file
and, as long as they are too few, reads as many bytes as GetSizeHint asks for, ends with the
value the type means; every hint exceeds the number of bytes tried before it, and none
exceeds the number of bytes the value takes. The types are those of `VTy.ByHints`. -/
theorem C77_retry (E : Env) (A : Arithmetic E) (S : Strict E) (ds : List VDecl) (ts : List VTy)
    (h : fileTypes ds = some ts) (hn : (ds.map (E.lower ·.name)).Nodup) (hu : ∀ d ∈ ds, d.Usable E) :
    ∃ reg, fabric E (some { docs := ds.map VDecl.doc }) = .ok reg ∧
      ∀ t ∈ ts, t.Settled (bareOf ds) → t.height ≤ 11 → t.ByHints → ∃ m, reg.createDataTypeMap E t.name = .ok m ∧
        ∀ bs ns v rest, (ns.map (·.1)).Nodup → t.Scoped (given ns) → t.read E.decode bs.length ns bs = .done v rest →
          ((getSizeHint E m { values := ns }).1 = .ok none ∨
            ∃ k : Nat, (getSizeHint E m { values := ns }).1 = .ok (some (k : Int)) ∧ k ≤ bs.length - rest.length) ∧
          ∀ n ≤ bs.length - rest.length, ∃ hints : List Nat, Retries E m bs ns n hints v ∧
            (n :: hints).Pairwise (· < ·) ∧ ∀ k ∈ hints, k ≤ bs.length - rest.length := by
  have hnm := vtypes_nodup h hn
  obtain ⟨-, hok⟩ := vfile_library A ds h (by simpa using hnm) hu (bareOf_iff hn) (by simp) (by simp)
  obtain ⟨-, hlook⟩ := vfile_read A h hn hu
  obtain ⟨reg, hreg, hmap⟩ := C71_fabric E A ds ts h hn hu
  have hreg' := fabric_some (vfile_read A h hn hu).1
  rw [hreg] at hreg'
  cases hreg'
  refine ⟨_, hreg, ?_⟩
  intro t ht hset hh hr
  obtain ⟨m, hm, hread⟩ := hmap t ht hset hh
  have hm' : createMap E (openDefn (bareOf ds) t) = .ok m := by
    unfold Registry.createDataTypeMap at hm
    rw [hlook t ht] at hm
    exact hm
  refine ⟨m, hm, ?_⟩
  intro bs ns v rest hd hs hv
  have h1 := hread bs 0 { values := ns } (Ctx.clean_fresh ns) (Nat.zero_le _) hd hs
  rw [List.drop_zero] at h1
  rw [hv] at h1
  obtain ⟨h2, N, h3, h4, rfl⟩ := h1
  have := C29_retry_partial E _ (byHints_hinted A S (bareOf ds) (hok t ht).1 hset hr) m hm' bs ns v N h2 h3
  rw [show bs.length - (bs.drop (0 + N)).length = N by rw [List.length_drop]; omega]
  exact this

/-- Leaves and lists of numbers, told apart by their first byte, and points with padding. -/
def exPDecls : List VDecl :=
  [⟨"u8", .scalar (some true) (.integer false) 1⟩, ⟨"u16", .scalar none (.integer false) 2⟩,
    ⟨"head", .record true [.field "kind" none [] "u8"]⟩,
    ⟨"leaf", .record true [.field "kind" none [1] "u8", .field "x" none [] "u16"]⟩,
    ⟨"pair", .record true [.field "x" none [] "u16", .field "y" none [] "u8"]⟩,
    ⟨"pairs", .array "pair" (.minus (.field "list" "count") (.number 1))⟩,
    ⟨"list", .record true [.field "kind" none [2, 3] "u8", .field "count" none [] "u8", .field "pairs" none [] "pairs"]⟩,
    ⟨"item", .group "head" "kind" none ["leaf", "list"]⟩,
    ⟨"name", .text "ascii" "u8" (.upto [0])⟩,
    ⟨"point", .record true [.field "name" none [] "name", .padding "gap" 4, .field "x" none [] "u16"]⟩]

def exPPair : Ty := .record "pair" true (.cons "x" (.scalar "u16" true (.integer false) 2)
  (.cons "y" (.scalar "u8" true (.integer false) 1) .nil))

def exPItem : VTy := .group "item" exGHead "kind"
  (.cons (.record "leaf" true (.cons "kind" none [1] exGU8 (.cons "x" none [] (.fixed (.scalar "u16" true (.integer false) 2)) .nil)))
  (.cons (.record "list" true (.cons "kind" none [2, 3] exGU8 (.cons "count" none [] exGU8
    (.cons "pairs" none [] (.array "pairs" (.fixed exPPair) (.minus (.field "list" "count") (.number 1))) .nil)))) .nil))

def exPPoint : VTy := .record "point" true (.cons "name" none [] exVName (.padding "gap" 4
  (.cons "x" none [] (.fixed (.scalar "u16" true (.integer false) 2)) .nil)))

example : (fileTypes exPDecls).bind (·[7]?) = some exPItem ∧ (fileTypes exPDecls).bind (·[9]?) = some exPPoint := ⟨rfl, rfl⟩

theorem exPDecls_usable : ∀ d ∈ exPDecls, d.Usable arithEnv := by
  have hl : Spec.Usable arithEnv "list" := exV_usable (by decide +kernel) (by decide +kernel) (by decide +kernel) (by decide)
  intro d hd
  simp only [exPDecls, List.mem_cons, List.not_mem_nil, or_false] at hd
  rcases hd with rfl | rfl | rfl | rfl | rfl | rfl | rfl | rfl | rfl | rfl
  · exact ⟨by decide, by decide, .inl rfl⟩
  · exact ⟨by decide, by decide, .inr (.inl rfl)⟩
  · refine ⟨by decide, by decide, validateClass_iff.mp rfl, by decide, by decide, ?_, ?_⟩
    · intro f hf n c vs t ht
      rw [List.mem_singleton.mp hf] at ht
      cases ht
    · intro f hf n a ht
      rw [List.mem_singleton.mp hf] at ht
      cases ht
  · refine ⟨by decide, by decide, validateClass_iff.mp rfl, by decide, by decide, ?_, ?_⟩
    · intro f hf n c vs t ht
      simp only [List.mem_cons, List.not_mem_nil, or_false] at hf
      rcases hf with rfl | rfl <;> cases ht
    · intro f hf n a ht
      simp only [List.mem_cons, List.not_mem_nil, or_false] at hf
      rcases hf with rfl | rfl <;> cases ht
  · refine ⟨by decide, by decide, validateClass_iff.mp rfl, by decide, by decide, ?_, ?_⟩
    · intro f hf n c vs t ht
      simp only [List.mem_cons, List.not_mem_nil, or_false] at hf
      rcases hf with rfl | rfl <;> cases ht
    · intro f hf n a ht
      simp only [List.mem_cons, List.not_mem_nil, or_false] at hf
      rcases hf with rfl | rfl <;> cases ht
  · exact ⟨by decide, by decide, expr_accepted ⟨⟨hl, exV_count⟩, trivial⟩, fun n h => nomatch h⟩
  · refine ⟨by decide, by decide, validateClass_iff.mp rfl, by decide, by decide, ?_, ?_⟩
    · intro f hf n c vs t ht
      simp only [List.mem_cons, List.not_mem_nil, or_false] at hf
      rcases hf with rfl | rfl | rfl <;> cases ht
    · intro f hf n a ht
      simp only [List.mem_cons, List.not_mem_nil, or_false] at hf
      rcases hf with rfl | rfl | rfl <;> cases ht
  · exact ⟨by decide, by decide, by decide⟩
  · exact ⟨by decide, by decide, by decide, by decide, by decide⟩
  · refine ⟨by decide, by decide, validateClass_iff.mp rfl, by decide, by decide, ?_, ?_⟩
    · intro f hf n c vs t ht
      simp only [List.mem_cons, List.not_mem_nil, or_false] at hf
      rcases hf with rfl | rfl | rfl <;> cases ht
    · intro f hf n a ht
      simp only [List.mem_cons, List.not_mem_nil, or_false] at hf
      rcases hf with rfl | rfl | rfl <;> cases ht
      refine ⟨by decide, by decide +kernel, ?_⟩
      intro g hg m c vs t ht
      simp only [List.mem_cons, List.not_mem_nil, or_false] at hg
      rcases hg with rfl | rfl | rfl <;> cases ht <;> decide

theorem exP_read : exPItem.read exEnv.decode 9 [] [2, 3, 0, 1, 7, 1, 0, 8, 9] =
    .done (.struct "list" [("kind", .int 2), ("count", .int 3), ("pairs", .tuple [.struct "pair" [("x", .int 1), ("y", .int 7)],
      .struct "pair" [("x", .int 256), ("y", .int 8)]])]) [9] := rfl

theorem exP_point : exPPoint.read exEnv.decode 6 [] [97, 0, 7, 7, 1, 2] =
    .done (.struct "point" [("name", .str [97]), ("gap", .bytes [7, 7]), ("x", .int 258)]) [] := rfl

theorem exP_scoped : exPItem.Scoped (given []) ∧ exPPoint.Scoped (given []) := by
  simp [exPItem, exPPair, exPPoint, exVName, exGHead, exGU8, VTy.Scoped, VFields.Scoped, VMembers.Scoped, given, seen,
    VTy.IsNumber, Len.Within, Expr.Within]

theorem exP_byHints : exPItem.ByHints ∧ exPPoint.ByHints := by
  refine ⟨⟨?_, 1, rfl, ?_⟩, ?_⟩
  · rw [exGHead, VTy.Retriable]; trivial
  · simp [VMembers.RetriableFrom, VTy.Retriable, VFields.Retriable, VTy.least, VFields.least, Ty.size, exGU8, VTy.span,
      Expr.Decided, Expr.NeedsNames]
  · simp [exPPoint, VTy.ByHints, VFields.RetriableBesidesPadding, VTy.Retriable, Len.Retriable, exVName]

/-- A choice that has no value as long as the field has none, and one that has. -/
example : (Expr.choose (.number 0) .eq (.field "part" "size") (.number 0) (.minus (.field "part" "size") (.number 1))).Decided ∧
    ¬ (Expr.choose (.number 0) .eq (.field "part" "size") (.number 0) (.number 1)).Decided := by
  simp [Expr.Decided, Expr.NeedsNames, Expr.HasName]

theorem exP_settled : exPItem.Settled ["u16"] ∧ exPPoint.Settled ["u16"] := by
  simp [exPItem, exPPair, exPPoint, exVName, exGHead, exGU8, VTy.Settled, VFields.Settled, VMembers.Settled, Ty.Settled,
    Fields.Settled, Even, VFields.scalars, Fields.scalars, VTy.Inherits, Ty.Inherits]

/-- Starting with nothing, the fabric of the file reads the list with hints that end with
eight bytes, and the point with hints that end with six. -/
example : ∃ reg m m', fabric arithEnv (some { docs := exPDecls.map VDecl.doc }) = .ok reg ∧
    reg.createDataTypeMap arithEnv "item" = .ok m ∧ reg.createDataTypeMap arithEnv "point" = .ok m' ∧
      (∃ hints, Retries arithEnv m [2, 3, 0, 1, 7, 1, 0, 8, 9] [] 0 hints
        (.struct "list" [("kind", .int 2), ("count", .int 3), ("pairs", .tuple [.struct "pair" [("x", .int 1), ("y", .int 7)],
          .struct "pair" [("x", .int 256), ("y", .int 8)]])]) ∧ ∀ k ∈ hints, k ≤ 8) ∧
      ∃ hints, Retries arithEnv m' [97, 0, 7, 7, 1, 2] [] 0 hints
        (.struct "point" [("name", .str [97]), ("gap", .bytes [7, 7]), ("x", .int 258)]) ∧ ∀ k ∈ hints, k ≤ 6 := by
  obtain ⟨reg, hf, h⟩ := C77_retry arithEnv arithmetic_exists strict_exists exPDecls _ rfl (by decide) exPDecls_usable
  obtain ⟨m, hm, hr⟩ := h exPItem (List.mem_of_getElem? (i := 7) rfl) exP_settled.1 (by decide) exP_byHints.1
  obtain ⟨m', hm', hr'⟩ := h exPPoint (List.mem_of_getElem? (i := 9) rfl) exP_settled.2 (by decide) exP_byHints.2
  obtain ⟨hints, h1, -, h2⟩ := (hr [2, 3, 0, 1, 7, 1, 0, 8, 9] [] _ _ (by decide) exP_scoped.1 exP_read).2 0
    (Nat.zero_le _)
  obtain ⟨hints', h1', -, h2'⟩ := (hr' [97, 0, 7, 7, 1, 2] [] _ _ (by decide) exP_scoped.2 exP_point).2 0 (Nat.zero_le _)
  exact ⟨reg, m, m', hf, hm, hm', ⟨hints, h1, h2⟩, hints', h1', h2'⟩

end Dtf
