import Verif.Props.SequenceLinear
import Verif.Props.Structures
import Verif.Props.Classes
/-!
A small language of types of fixed size, what its declarations mean, and the proof
that the maps of their definitions read what they mean. `Verif/Props/Fabric.lean`
connects it to definition files.
-/
namespace Dtf

namespace Spec

/-- Scalar types. -/
inductive Atom
  | integer (signed : Bool)
  | boolean
  | double
deriving DecidableEq

mutual
/-- A type with the names under which it and its parts are declared. Scalars, UUIDs and
records have a byte order, `big` if the most significant byte comes first. -/
inductive Ty
  | scalar (name : String) (big : Bool) (kind : Atom) (size : Nat)
  | uuid (name : String) (big : Bool)
  | stream (name : String) (element : Ty) (size : Nat)
  | sequence (name : String) (element : Ty) (count : Nat)
  | record (name : String) (big : Bool) (fields : Fields)
/-- The fields of a record. -/
inductive Fields
  | nil
  | cons (name : String) (type : Ty) (rest : Fields)
end

def Ty.name : Ty → String
  | .scalar n _ _ _ | .uuid n _ | .stream n _ _ | .sequence n _ _ | .record n _ _ => n

/-- The byte order of a type; blocks and sequences have that of their elements. -/
def Ty.big : Ty → Bool
  | .scalar _ b _ _ | .uuid _ b | .record _ b _ => b
  | .stream _ e _ | .sequence _ e _ => e.big
termination_by structural t => t

def Fields.names : Fields → List String
  | .nil => []
  | .cons n _ fs => n :: fs.names

def Fields.types : Fields → List Ty
  | .nil => []
  | .cons _ t fs => t :: fs.types

/-- The number stored in bytes, most significant byte first if `big`. -/
def numberIn (big : Bool) (bs : Bytes) : Nat := number (if big then bs.reverse else bs)

/-- The value of a scalar of the given bytes: a number in two's complement or plain
binary notation, false for zero and true for everything else, or the bits of a
double. -/
def Atom.value (big : Bool) (k : Atom) (bs : Bytes) : Val :=
  match k with
  | .integer false => .int (numberIn big bs)
  | .integer true =>
    .int (if 2 * numberIn big bs < 256 ^ bs.length then (numberIn big bs : Int)
      else (numberIn big bs : Int) - 256 ^ bs.length)
  | .boolean => .bool (decide (numberIn big bs ≠ 0))
  | .double => .float (numberIn big bs)

/-- A UUID is stored as 4, 2, 2 and 8 bytes, the first three in the byte order. -/
def uuidValue (big : Bool) (bs : Bytes) : Bytes :=
  if big then bs
  else (bs.take 4).reverse ++ ((bs.drop 4).take 2).reverse ++ ((bs.drop 6).take 2).reverse ++ bs.drop 8

/-- Take `n` bytes. -/
def grab (n : Nat) (f : Bytes → Val) (bs : Bytes) : Option (Val × Bytes) :=
  if n ≤ bs.length then some (f (bs.take n), bs.drop n) else none

/-- Read one value after the other. -/
def times (read : Bytes → Option (Val × Bytes)) : Nat → Bytes → Option (List Val × Bytes)
  | 0, bs => some ([], bs)
  | n + 1, bs =>
    match read bs with
    | none => none
    | some (v, bs) =>
      match times read n bs with
      | none => none
      | some (vs, bs) => some (v :: vs, bs)

mutual
/-- What a type means: the value at the start of the bytes and the bytes left, or
nothing if there are too few bytes. -/
def Ty.read (t : Ty) (bs : Bytes) : Option (Val × Bytes) :=
  match t with
  | .scalar _ big k n => grab n (k.value big) bs
  | .uuid _ big => grab 16 (fun b => .uuid (uuidValue big b)) bs
  | .stream _ _ n => grab n .bytes bs
  | .sequence _ e n =>
    match times e.read n bs with
    | none => none
    | some (vs, bs) => some (.tuple vs, bs)
  | .record name _ fs =>
    match fs.read bs with
    | none => none
    | some (attrs, bs) => some (.struct name attrs, bs)
termination_by structural t
/-- The fields follow each other. -/
def Fields.read (fs : Fields) (bs : Bytes) : Option (List (String × Val) × Bytes) :=
  match fs with
  | .nil => some ([], bs)
  | .cons n t fs =>
    match t.read bs with
    | none => none
    | some (v, bs) =>
      match fs.read bs with
      | none => none
      | some (attrs, bs) => some ((n, v) :: attrs, bs)
termination_by structural fs
end

mutual
/-- How deep sequences and records are nested. -/
def Ty.height : Ty → Nat
  | .scalar _ _ _ _ | .uuid _ _ | .stream _ _ _ => 0
  | .sequence _ e _ => e.height + 1
  | .record _ _ fs => fs.height + 1
termination_by structural t => t
def Fields.height : Fields → Nat
  | .nil => 0
  | .cons _ t fs => max t.height fs.height
termination_by structural fs => fs
end

end Spec
open Spec

/-! ### Sizes -/

mutual
def Spec.Ty.size : Ty → Nat
  | .scalar _ _ _ n => n
  | .uuid _ _ => 16
  | .stream _ _ n => n
  | .sequence _ e n => e.size * n
  | .record _ _ fs => fs.size
termination_by structural t => t
def Spec.Fields.size : Fields → Nat
  | .nil => 0
  | .cons _ t fs => t.size + fs.size
termination_by structural fs => fs
end

/-- A reader that takes `n` bytes. -/
def Takes {α : Type} (read : Bytes → Option (α × Bytes)) (n : Nat) : Prop :=
  ∀ bs, if n ≤ bs.length then ∃ v, read bs = some (v, bs.drop n) else read bs = none

theorem grab_takes (n : Nat) (f : Bytes → Val) : Takes (grab n f) n := by
  intro bs
  unfold grab
  split
  · exact ⟨_, rfl⟩
  · rfl

theorem times_takes {read : Bytes → Option (Val × Bytes)} {n : Nat} (h : Takes read n) (k : Nat) :
    Takes (times read k) (n * k) := by
  induction k with
  | zero => intro bs; simp [times]
  | succ k ih =>
    intro bs
    have h1 := h bs
    rw [Nat.mul_succ]
    unfold times
    by_cases hl : n ≤ bs.length
    · rw [if_pos hl] at h1
      obtain ⟨v, hv⟩ := h1
      have h2 := ih (bs.drop n)
      rw [List.length_drop] at h2
      by_cases hl' : n * k + n ≤ bs.length
      · rw [if_pos (by omega)] at h2 ⊢
        obtain ⟨vs, hvs⟩ := h2
        simp only [hv, hvs]
        exact ⟨_, by rw [List.drop_drop, Nat.add_comm n]⟩
      · rw [if_neg (by omega)] at h2 ⊢
        simp only [hv, h2]
    · rw [if_neg hl] at h1
      rw [if_neg (by omega)]
      simp only [h1]

mutual
theorem ty_takes (t : Ty) : Takes t.read t.size := by
  cases t with
  | scalar n b k s => simp only [Ty.size]; exact fun bs => by rw [Ty.read]; exact grab_takes _ _ bs
  | uuid n b => simp only [Ty.size]; exact fun bs => by rw [Ty.read]; exact grab_takes _ _ bs
  | stream n e s => simp only [Ty.size]; exact fun bs => by rw [Ty.read]; exact grab_takes _ _ bs
  | sequence n e k =>
    intro bs
    have := times_takes (ty_takes e) k bs
    rw [Ty.read, Ty.size]
    split
    · rename_i hl
      rw [if_pos hl] at this
      obtain ⟨v, hv⟩ := this
      rw [hv]
      exact ⟨_, rfl⟩
    · rename_i hl
      rw [if_neg hl] at this
      rw [this]
  | record n b fs =>
    intro bs
    have := fields_takes fs bs
    rw [Ty.read, Ty.size]
    split
    · rename_i hl
      rw [if_pos hl] at this
      obtain ⟨v, hv⟩ := this
      rw [hv]
      exact ⟨_, rfl⟩
    · rename_i hl
      rw [if_neg hl] at this
      rw [this]
theorem fields_takes (fs : Fields) : Takes fs.read fs.size := by
  cases fs with
  | nil => intro bs; simp [Fields.read, Fields.size]
  | cons n t fs =>
    intro bs
    have h1 := ty_takes t bs
    have h2 := fields_takes fs (bs.drop t.size)
    rw [List.length_drop] at h2
    rw [Fields.read, Fields.size]
    by_cases hl : t.size ≤ bs.length
    · rw [if_pos hl] at h1
      obtain ⟨v, hv⟩ := h1
      by_cases hl' : t.size + fs.size ≤ bs.length
      · rw [if_pos (by omega)] at h2 ⊢
        obtain ⟨vs, hvs⟩ := h2
        simp only [hv, hvs]
        exact ⟨_, by rw [List.drop_drop]⟩
      · rw [if_neg (by omega)] at h2 ⊢
        simp only [hv, h2]
    · rw [if_neg hl] at h1
      rw [if_neg (by omega)]
      simp only [h1]
end

/-! ### Definitions -/

/-- The byte order. -/
def orderOf (big : Bool) : Order := if big then .big else .little

def scalarKind : Atom → PrimKind
  | .integer signed => .integer (!signed)
  | .boolean => .boolean (some 0) none
  | .double => .floatingPoint

mutual
/-- The definition the reader makes of a type. -/
def tyDefn : Ty → Defn
  | .scalar n big k s => .prim { name := n, order := orderOf big } (scalarKind k) (.bytes s) "bytes"
  | .uuid n big => .uuid { name := n, order := orderOf big } (.bytes 16) "bytes"
  | .stream n e s =>
    .seq { name := n, order := orderOf e.big }
      { kind := .stream, elementDataType := some e.name, dataSize := some (s : Int) } (tyDefn e)
  | .sequence n e k =>
    .seq { name := n, order := orderOf e.big }
      { kind := .sequence, elementDataType := some e.name, numElements := some (k : Int) } (tyDefn e)
  | .record n big fs => .struct { name := n, order := orderOf big } (fieldDefns fs)
termination_by structural t => t
def fieldDefns : Fields → List Defn
  | .nil => []
  | .cons n t fs =>
    .member { name := n, order := orderOf t.big } (tyDefn t) none (some t.name) none :: fieldDefns fs
termination_by structural fs => fs
end

/-- The sizes of scalars. -/
def Spec.Atom.Size (s : Nat) : Atom → Prop
  | .integer _ => s = 1 ∨ s = 2 ∨ s = 4 ∨ s = 8
  | .boolean => s = 1 ∨ s = 2 ∨ s = 4
  | .double => s = 8

/-- A name without quotes, backslashes and null characters. -/
def Unquoted (n : String) : Prop := ∀ c ∈ n.toList, c ≠ '"' ∧ c ≠ '\\' ∧ c ≠ '\x00'

/-- A name of a type: it does not begin with an underscore. -/
def Nameable (n : String) : Prop := n.toList.head? ≠ some '_' ∧ Unquoted n

instance (n : String) : Decidable (Unquoted n) := inferInstanceAs (Decidable (∀ c ∈ n.toList, _))
instance (n : String) : Decidable (Nameable n) := inferInstanceAs (Decidable (_ ∧ _))

mutual
/-- What is needed of a type for its definition to be read and mapped. -/
def TyOk (E : Env) : Ty → Prop
  | .scalar n _ k s => Nameable n ∧ k.Size s
  | .uuid n _ => Nameable n
  | .stream n e s => Nameable n ∧ 0 < s ∧ (∃ n b k s, e = .scalar n b k s) ∧ TyOk E e
  | .sequence n e k => Nameable n ∧ 0 < k ∧ TyOk E e
  | .record n _ fs => Nameable n ∧ ValidNames E n fs.names ∧
    (∀ x ∈ n :: fs.names, x ≠ "super" ∧ E.pyIdent x = true ∧ Unquoted x) ∧ (∀ x ∈ fs.names, x ≠ n ∧ x ≠ "self") ∧
    (∀ t ∈ fs.types, ∀ u ∈ fs.types, t.name = u.name → t = u) ∧ FieldsOk E fs
termination_by structural t => t
def FieldsOk (E : Env) : Fields → Prop
  | .nil => True
  | .cons _ t fs => TyOk E t ∧ FieldsOk E fs
termination_by structural fs => fs
end

theorem orderOf_ne (big : Bool) : orderOf big ≠ .native := by cases big <;> simp [orderOf]

theorem tyDefn_name (t : Ty) : (tyDefn t).name = t.name := by
  cases t <;> simp [tyDefn, Defn.name, Defn.hdr, Ty.name]

theorem tyDefn_order (t : Ty) : (tyDefn t).order? = some (orderOf t.big) := by
  cases t <;> simp [tyDefn, Defn.order?, Ty.big]

theorem fieldDefns_names : ∀ fs : Fields, (fieldDefns fs).map Defn.name = fs.names
  | .nil => by simp [fieldDefns, Fields.names]
  | .cons n t fs => by
    simp only [fieldDefns, Fields.names, List.map_cons, fieldDefns_names fs]
    rfl

theorem tyOk_nameable {E : Env} {t : Ty} (h : TyOk E t) : Nameable t.name := by
  cases t <;> rw [TyOk] at h
  · exact h.1
  · exact h
  · exact h.1
  · exact h.1
  · exact h.1

theorem tyOk_name {E : Env} {t : Ty} (h : TyOk E t) : t.name.toList.head? ≠ some '_' :=
  (tyOk_nameable h).1

mutual
theorem ty_pos {E : Env} (t : Ty) (h : TyOk E t) : 0 < t.size := by
  cases t with
  | scalar n b k s =>
    rw [TyOk] at h
    rw [Ty.size]
    rcases k with _ | _ | _ <;> simp only [Atom.Size] at h <;> omega
  | uuid n b => rw [Ty.size]; omega
  | stream n e s => rw [TyOk] at h; rw [Ty.size]; exact h.2.1
  | sequence n e k =>
    rw [TyOk] at h
    rw [Ty.size]
    exact Nat.mul_pos (ty_pos e h.2.2) h.2.1
  | record n b fs =>
    rw [TyOk] at h
    rw [Ty.size]
    refine fields_pos fs h.2.2.2.2.2 ?_
    rintro rfl
    exact h.2.1.nonempty (by simp [Fields.names])
theorem fields_pos {E : Env} (fs : Fields) (h : FieldsOk E fs) (hn : fs ≠ .nil) : 0 < fs.size := by
  cases fs with
  | nil => exact absurd rfl hn
  | cons n t fs =>
    rw [FieldsOk] at h
    rw [Fields.size]
    have := ty_pos t h.1
    omega
end

mutual
theorem ty_byteSize {E : Env} (t : Ty) (h : TyOk E t) :
    (tyDefn t).byteSize = some (t.size : Int) := by
  cases t with
  | scalar n b k s => simp [tyDefn, Defn.byteSize, fixedByteSize, Ty.size]
  | uuid n b => simp [tyDefn, Defn.byteSize, fixedByteSize, Ty.size]
  | stream n e s =>
    rw [TyOk] at h
    have : s ≠ 0 := by omega
    simp [tyDefn, Defn.byteSize, truthyInt, Ty.size, this]
  | sequence n e k =>
    rw [TyOk] at h
    have h1 : (k : Int) ≠ 0 := by omega
    have h2 := ty_pos e h.2.2
    have h3 : (e.size : Int) ≠ 0 := by omega
    rw [tyDefn, Defn.byteSize]
    simp only [truthyInt, ty_byteSize e h.2.2, if_neg h3, bne_iff_ne, ne_eq, h1, not_false_eq_true,
      if_true, Option.map_some, Bool.false_eq_true, if_false, Ty.size]
    simp
  | record n b fs =>
    rw [TyOk] at h
    rw [tyDefn, Ty.size]
    have := fields_byteSize fs h.2.2.2.2.2 0
    cases fs with
    | nil => exact absurd rfl h.2.1.nonempty
    | cons _ _ _ =>
      rw [fieldDefns] at this ⊢
      rw [Defn.byteSize, this]
      simp
theorem fields_byteSize {E : Env} (fs : Fields) (h : FieldsOk E fs) (total : Int) :
    structSize total (fieldDefns fs) = some (total + fs.size) := by
  cases fs with
  | nil => simp [fieldDefns, structSize, Fields.size]
  | cons n t fs =>
    rw [FieldsOk] at h
    rw [fieldDefns, structSize.eq_def]
    simp only [Defn.byteSize, truthyStr, Bool.false_eq_true, if_false, ty_byteSize t h.1,
      fields_byteSize fs h.2, Fields.size]
    congr 1
    simp
    omega
end

end Dtf
