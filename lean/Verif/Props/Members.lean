import Verif.Props.Definitions
/-!
# Property C69: members are found by their names
-/
namespace Dtf
open Spec

namespace Spec

/-- Among the members added in this order, `d` is the first of its name. -/
def FirstNamed (d : Defn) (ds : List Defn) : Prop :=
  ∃ before after, ds = before ++ d :: after ∧ ∀ e ∈ before, e.name ≠ d.name

/-- The members given to AddMemberDefinition of a family or group, in order. -/
def addedTo : List LayoutOp → List Defn
  | [] => []
  | .addMember d :: ops => d :: addedTo ops
  | .setBase _ :: ops => addedTo ops

/-- The base after these calls on an object with this base. -/
def lastBase (base : Defn) : List LayoutOp → Defn
  | [] => base
  | .addMember _ :: ops => lastBase base ops
  | .setBase d :: ops => lastBase d ops

end Spec

theorem keepFirst_snoc (ds : List Defn) (d : Defn) :
    keepFirst (ds ++ [d]) =
      if d.name ∈ (keepFirst ds).map Defn.name then keepFirst ds else keepFirst ds ++ [d] := by
  simp only [keepFirst, List.foldl_append, List.foldl_cons, List.foldl_nil]
  rfl

/-- Lists can be taken apart from the end. -/
theorem snoc_ind {P : List Defn → Prop} (h0 : P []) (h1 : ∀ l a, P l → P (l ++ [a])) : ∀ l, P l := by
  intro l
  rw [← List.reverse_reverse l]
  induction l.reverse with
  | nil => exact h0
  | cons a l ih => rw [List.reverse_cons]; exact h1 _ _ ih

theorem keepFirst_names (ds : List Defn) (n : String) :
    n ∈ (keepFirst ds).map Defn.name ↔ n ∈ ds.map Defn.name := by
  induction ds using snoc_ind with
  | h0 => rfl
  | h1 l a ih =>
    rw [keepFirst_snoc]
    split
    · rename_i h
      rw [ih, List.map_append, List.mem_append]
      constructor
      · exact .inl
      · rintro (h' | h')
        · exact h'
        · simp only [List.map_cons, List.map_nil, List.mem_singleton] at h'
          exact ih.mp (h' ▸ h)
    · simp only [List.map_append, List.mem_append, ih]

theorem keepFirst_nodup (ds : List Defn) : ((keepFirst ds).map Defn.name).Nodup := by
  induction ds using snoc_ind with
  | h0 => exact List.nodup_nil
  | h1 l a ih =>
    rw [keepFirst_snoc]
    split
    · exact ih
    · rename_i h
      rw [List.map_append, List.nodup_append]
      refine ⟨ih, by simp, fun x hx y hy => ?_⟩
      simp only [List.map_cons, List.map_nil, List.mem_singleton] at hy
      subst hy
      exact fun he => h (he ▸ hx)

theorem keepFirst_mem (ds : List Defn) (d : Defn) : d ∈ keepFirst ds ↔ FirstNamed d ds := by
  induction ds using snoc_ind with
  | h0 =>
    constructor
    · intro h; cases h
    · rintro ⟨b, a, h, -⟩
      cases b <;> cases h
  | h1 l a ih =>
    have key : FirstNamed d (l ++ [a]) ↔ FirstNamed d l ∨ d = a ∧ ∀ e ∈ l, e.name ≠ d.name := by
      constructor
      · rintro ⟨b, af, h, hb⟩
        rcases List.eq_nil_or_concat af with rfl | ⟨af', x, rfl⟩
        · have := List.append_inj' h rfl
          obtain ⟨rfl, h2⟩ := this
          cases h2
          exact .inr ⟨rfl, hb⟩
        · have h' : l ++ [a] = (b ++ d :: af') ++ [x] := by simpa using h
          obtain ⟨rfl, -⟩ := List.append_inj' h' rfl
          exact .inl ⟨b, af', rfl, hb⟩
      · rintro (⟨b, af, rfl, hb⟩ | ⟨rfl, h⟩)
        · exact ⟨b, af ++ [a], by simp, hb⟩
        · exact ⟨l, [], rfl, h⟩
    rw [keepFirst_snoc, key, ← ih]
    split
    · rename_i h
      constructor
      · exact .inl
      · rintro (h' | ⟨rfl, h'⟩)
        · exact h'
        · rw [keepFirst_names] at h
          obtain ⟨e, he, hn⟩ := List.mem_map.mp h
          exact absurd hn (h' e he)
    · rename_i h
      rw [List.mem_append, List.mem_singleton]
      constructor
      · rintro (h' | rfl)
        · exact .inl h'
        · refine .inr ⟨rfl, fun e he hn => h ?_⟩
          rw [keepFirst_names, ← hn]
          exact List.mem_map_of_mem he
      · rintro (h' | ⟨h', -⟩)
        · exact .inl h'
        · exact .inr h'

/-- If names are not repeated, looking for a name gives the member that has it. -/
theorem find_name {ms : List Defn} (h : (ms.map Defn.name).Nodup) (n : String) (d : Defn) :
    ms.find? (·.name == n) = some d ↔ d ∈ ms ∧ d.name = n := by
  induction ms with
  | nil => simp
  | cons a ms ih =>
    rw [List.map_cons, List.nodup_cons] at h
    rw [List.find?_cons]
    split
    · rename_i he
      have he : a.name = n := by simpa using he
      constructor
      · intro hs
        cases hs
        exact ⟨List.mem_cons_self .., he⟩
      · rintro ⟨hm, hn⟩
        rcases List.mem_cons.mp hm with rfl | hm
        · rfl
        · exact absurd (List.mem_map.mpr ⟨d, hm, hn.trans he.symm⟩) h.1
    · rename_i he
      have he : a.name ≠ n := by simpa using he
      rw [ih h.2]
      constructor
      · rintro ⟨hm, hn⟩
        exact ⟨List.mem_cons_of_mem _ hm, hn⟩
      · rintro ⟨hm, hn⟩
        rcases List.mem_cons.mp hm with rfl | hm
        · exact absurd hn he
        · exact ⟨hm, hn⟩

theorem run_members (u : Bool) (ops : List BuildOp) :
    (Builder.run u ops).members = keepFirst (added ops) := foldl_members _ ops

/-- **C69a** After any history of calls on a structure or union, GetMemberDefinitionByName
gives the first member added with this name, and None if there was none. -/
theorem C69_by_name (u : Bool) (ops : List BuildOp) (n : String) :
    (∀ d, (Builder.run u ops).memberByName n = some d ↔ FirstNamed d (added ops) ∧ d.name = n) ∧
    ((Builder.run u ops).memberByName n = none ↔ ∀ d ∈ added ops, d.name ≠ n) := by
  have key : ∀ d, (Builder.run u ops).memberByName n = some d ↔
      FirstNamed d (added ops) ∧ d.name = n := by
    intro d
    rw [Builder.memberByName, run_members, find_name (keepFirst_nodup _), keepFirst_mem]
  refine ⟨key, ?_⟩
  rw [Builder.memberByName, run_members, List.find?_eq_none]
  constructor
  · intro h d hd hn
    have : n ∈ (keepFirst (added ops)).map Defn.name :=
      (keepFirst_names _ _).mpr (List.mem_map.mpr ⟨d, hd, hn⟩)
    obtain ⟨e, he, hn'⟩ := List.mem_map.mp this
    exact h e he (by simpa using hn')
  · intro h d hd hn
    have hm := (keepFirst_mem _ _).mp hd
    obtain ⟨b, a, he, -⟩ := hm
    exact h d (by rw [he]; simp) (by simpa using hn)

/-- **C69b** No two members have the same name, and the members are those added first
with their names. -/
theorem C69_members (u : Bool) (ops : List BuildOp) :
    ((Builder.run u ops).members.map Defn.name).Nodup ∧
    ∀ d, d ∈ (Builder.run u ops).members ↔ FirstNamed d (added ops) := by
  rw [run_members]
  exact ⟨keepFirst_nodup _, keepFirst_mem _⟩

/-! ### Families and groups -/

theorem LayoutBuilder.addMember_eq (b : LayoutBuilder) (d : Defn) :
    b.addMember d = if d.name ∈ b.members.map Defn.name then (.error .key, b)
      else (.ok (), { b with members := b.members ++ [d] }) := by
  unfold LayoutBuilder.addMember
  by_cases h : d.name ∈ b.members.map Defn.name
  · rw [if_pos h, if_pos]
    obtain ⟨x, hx, he⟩ := List.mem_map.mp h
    exact List.any_eq_true.mpr ⟨x, hx, by simp [he]⟩
  · rw [if_neg h, if_neg]
    intro hc
    obtain ⟨x, hx, he⟩ := List.any_eq_true.mp hc
    exact h (List.mem_map.mpr ⟨x, hx, by simpa using he⟩)

theorem layout_run (b : LayoutBuilder) (ops : List LayoutOp) :
    ops.foldl LayoutBuilder.step b =
      { base := lastBase b.base ops, order := b.order, default := b.default, identifier := b.identifier,
        members := (addedTo ops).foldl
          (fun acc d => if d.name ∈ acc.map Defn.name then acc else acc ++ [d]) b.members } := by
  induction ops generalizing b with
  | nil => rfl
  | cons op ops ih =>
    rw [List.foldl_cons, ih]
    cases op with
    | addMember d =>
      simp only [LayoutBuilder.step, LayoutBuilder.addMember_eq, lastBase, addedTo, List.foldl_cons]
      split <;> rfl
    | setBase d => rfl

/-- **C69c** After any history of calls on a family or group, the members are those added
first with their names, in the order they were added, no two with the same name; the
base is the one set last; byte order, default and identifier are those the object was
made with. -/
theorem C69_layout (b : LayoutBuilder) (h0 : b.members = []) (ops : List LayoutOp) :
    ((ops.foldl LayoutBuilder.step b).members.map Defn.name).Nodup ∧
    (∀ d, d ∈ (ops.foldl LayoutBuilder.step b).members ↔ FirstNamed d (addedTo ops)) ∧
    (ops.foldl LayoutBuilder.step b).members.Sublist (addedTo ops) ∧
    (ops.foldl LayoutBuilder.step b).base = lastBase b.base ops ∧
    (ops.foldl LayoutBuilder.step b).order = b.order ∧
    (ops.foldl LayoutBuilder.step b).default = b.default ∧
    (ops.foldl LayoutBuilder.step b).identifier = b.identifier := by
  rw [layout_run, h0]
  refine ⟨keepFirst_nodup _, keepFirst_mem _, ?_, rfl, rfl, rfl, rfl⟩
  show (keepFirst (addedTo ops)).Sublist _
  induction addedTo ops using snoc_ind with
  | h0 => exact .slnil
  | h1 l a ih =>
    rw [keepFirst_snoc]
    split
    · exact ih.trans (List.sublist_append_left ..)
    · exact ih.append (List.Sublist.refl _)

/-- **C69d** Adding a member of a name that is taken raises KeyError and changes nothing;
any other member is added. -/
theorem C69_layout_duplicate (b : LayoutBuilder) (d : Defn) :
    (d.name ∈ b.members.map Defn.name → b.addMember d = (.error .key, b)) ∧
    (d.name ∉ b.members.map Defn.name → (b.addMember d).1 = .ok () ∧
      (b.addMember d).2 = { b with members := b.members ++ [d] }) := by
  rw [LayoutBuilder.addMember_eq]
  exact ⟨fun h => if_pos h, fun h => by rw [if_neg h]; exact ⟨rfl, rfl⟩⟩

/-- **C69e** A new group has no members and the byte order of its base, or native byte
order if the base has none. -/
theorem C69_group (base : Defn) (identifier : String) (default : Option Defn) :
    (LayoutBuilder.group base identifier default).members = [] ∧
    (∀ o, base.order? = some o → (LayoutBuilder.group base identifier default).order = o) ∧
    (base.order? = none → (LayoutBuilder.group base identifier default).order = .native) := by
  refine ⟨rfl, fun o h => ?_, fun h => ?_⟩ <;> simp [LayoutBuilder.group, Defn.orderOrNative, h]

/-- A structure and a family, each with a name given twice. -/
example :
    let a : Defn := .prim { name := "a" } (.integer true) (.bytes 1) "bytes"
    let a' : Defn := .prim { name := "a" } (.integer true) (.bytes 4) "bytes"
    let b : Defn := .prim { name := "b" } (.integer true) (.bytes 2) "bytes"
    ((Builder.run false [.addMember a, .addMember b, .addMember a']).memberByName "a").map Defn.byteSize =
      some (some 1) ∧
    ([LayoutOp.addMember a, .setBase b, .addMember a', .addMember b].foldl LayoutBuilder.step
      (.family a)).members.map Defn.byteSize = [some 1, some 2] := by decide

end Dtf
