import Verif.Rename
import Verif.Arithmetic
/-!
Expressions after members got other names: the conditions of `Spec.Rewritten` can be met.
-/
namespace Dtf

namespace Spec

/-- The expression with other names for the fields of records. -/
def Expr.renamed (f : String → String) : Expr → Expr
  | .number n => .number n
  | .given n => .given n
  | .field r n => .field r (f n)
  | .plus a b => .plus (a.renamed f) (b.renamed f)
  | .minus a b => .minus (a.renamed f) (b.renamed f)
  | .times a b => .times (a.renamed f) (b.renamed f)
  | .over a n => .over (a.renamed f) n
  | .bits a b => .bits (a.renamed f) (b.renamed f)
  | .choose a r c d b => .choose (a.renamed f) r (c.renamed f) (d.renamed f) (b.renamed f)

/-- The condition with other names for the fields of records. -/
def Test.renamed (f : String → String) : Test → Test
  | .compare r a b => .compare r (a.renamed f) (b.renamed f)
  | .both t u => .both (t.renamed f) (u.renamed f)
  | .either t u => .either (t.renamed f) (u.renamed f)
  | .negation t => .negation (t.renamed f)

end Spec
open Spec

theorem lookup_renamedAttrs {f : String → String} (hf : ∀ a b, f a = f b → a = b) (as : List (String × Val)) (n : String) :
    (renamedAttrs f as).lookup (f n) = (as.lookup n).map (renamed f) := by
  induction as with
  | nil => rfl
  | cons a as ih =>
    obtain ⟨k, v⟩ := a
    rw [renamedAttrs, renamedAttr, List.lookup_cons, List.lookup_cons, beq_injective hf]
    cases n == k with
    | true => rfl
    | false => exact ih

theorem lookup_renamedValues (f : String → String) (s : Scope) (n : String) :
    (renamedValues f s).lookup n = (s.lookup n).map (renamed f) := by
  induction s with
  | nil => rfl
  | cons a s ih =>
    obtain ⟨k, v⟩ := a
    rw [show renamedValues f ((k, v) :: s) = (k, renamed f v) :: renamedValues f s from rfl, List.lookup_cons,
      List.lookup_cons]
    cases n == k with
    | true => rfl
    | false => exact ih

section
variable {f : String → String} (hf : ∀ a b, f a = f b → a = b)
include hf

theorem value_renamed (s : Scope) (e : Expr) : (e.renamed f).value (renamedValues f s) = e.value s := by
  induction e with
  | number n => rfl
  | given n =>
    simp only [Expr.renamed, Expr.value, givenNumber, lookup_renamedValues]
    cases s.lookup n with
    | none => rfl
    | some v => cases v <;> rfl
  | field r n =>
    simp only [Expr.renamed, Expr.value, fieldNumber, lookup_renamedValues]
    cases s.lookup r with
    | none => rfl
    | some v =>
      cases v with
      | struct cls as =>
        simp only [Option.map_some, renamed, numberField, lookup_renamedAttrs hf]
        cases as.lookup n with
        | none => rfl
        | some v => cases v <;> rfl
      | _ => rfl
  | plus a b iha ihb => simp only [Expr.renamed, Expr.value, iha, ihb]
  | minus a b iha ihb => simp only [Expr.renamed, Expr.value, iha, ihb]
  | times a b iha ihb => simp only [Expr.renamed, Expr.value, iha, ihb]
  | over a n iha => simp only [Expr.renamed, Expr.value, iha]
  | bits a b iha ihb => simp only [Expr.renamed, Expr.value, iha, ihb]
  | choose a r c d b iha ihc ihd ihb => simp only [Expr.renamed, Expr.value, iha, ihb, ihc, ihd]

theorem holds_renamed (s : Scope) (t : Test) : (t.renamed f).holds (renamedValues f s) = t.holds s := by
  induction t with
  | compare r a b => simp only [Test.renamed, Test.holds, value_renamed hf]
  | both t u iht ihu => simp only [Test.renamed, Test.holds, iht, ihu]
  | either t u iht ihu => simp only [Test.renamed, Test.holds, iht, ihu]
  | negation t ih => simp only [Test.renamed, Test.holds, ih]

end

/-- The renaming of members together with that of the expressions of `arithEnv`. -/
def arithRenaming (f : String → String) : Renaming where
  member := f
  expr s := match readText s with
    | some (.num e) => (e.renamed f).text
    | some (.test t) => (t.renamed f).text
    | none => s

theorem readText_empty : readText "" = none := by decide +kernel

/-- All expressions can be rewritten. -/
theorem follows_expr {f : String → String} (hf : ∀ a b, f a = f b → a = b) {e : Expr} (h : e.Named arithEnv)
    (h' : (e.renamed f).Named arithEnv) : Rewritten arithEnv (arithRenaming f) e.text := by
  have h1 := readText_expr h
  have h2 := readText_expr h'
  have h3 : (arithRenaming f).expr e.text = (e.renamed f).text := by
    simp only [arithRenaming, h1]
  rw [Rewritten, h3]
  constructor
  · constructor
    · intro h; rw [h, readText_empty] at h2; cases h2
    · intro h; rw [h, readText_empty] at h1; cases h1
  · intro ns
    show (readText _).bind (Tree.eval _) = ((readText _).bind (Tree.eval ns)).map _
    rw [h1, h2]
    simp only [Option.bind_some, Tree.eval]
    rw [show (arithRenaming f).member = f from rfl, value_renamed hf]
    cases e.value ns <;> rfl

/-- All conditions can be rewritten. -/
theorem follows_test {f : String → String} (hf : ∀ a b, f a = f b → a = b) {t : Test} (h : t.Named arithEnv)
    (h' : (t.renamed f).Named arithEnv) : Rewritten arithEnv (arithRenaming f) t.text := by
  have h1 := readText_test h
  have h2 := readText_test h'
  have h3 : (arithRenaming f).expr t.text = (t.renamed f).text := by
    simp only [arithRenaming, h1]
  rw [Rewritten, h3]
  constructor
  · constructor
    · intro h; rw [h, readText_empty] at h2; cases h2
    · intro h; rw [h, readText_empty] at h1; cases h1
  · intro ns
    show (readText _).bind (Tree.eval _) = ((readText _).bind (Tree.eval ns)).map _
    rw [h1, h2]
    simp only [Option.bind_some, Tree.eval]
    rw [show (arithRenaming f).member = f from rfl, holds_renamed hf]
    cases t.holds ns <;> rfl

end Dtf
