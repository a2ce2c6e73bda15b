import Verif.Location
import Verif.Props.Reader
/-!
# Property C76: the text of a FormatError names the definition
-/
namespace Dtf

namespace Spec

/-- The value of a key. -/
def valueAt (es : List (Key × Yaml)) (k : String) : Option Yaml :=
  (es.find? (·.1 == .str k)).map (·.2)

/-- The name a document or member gives itself; an empty name is none. -/
def ownName : Yaml → Option String
  | .map es =>
    match valueAt es "name" with
    | some (.str s) => if s = "" then none else some s
    | _ => none
  | _ => none

/-- `m` is one of the members listed in the document `d`. -/
def Lists (d m : Yaml) : Prop :=
  ∃ es l, d = .map es ∧ valueAt es "members" = some (.list l) ∧ m ∈ l

/-- The names of the types of data, docs/sources/Data type definitions. -/
def knownTypes : List String :=
  ["boolean", "character", "constant", "enumeration", "floating-point", "format", "integer",
    "padding", "sequence", "stream", "string", "structure", "structure-family",
    "structure-group", "union", "uuid"]

/-- The member is given a type by a text that is the name of none. -/
def TypeUnknown (m : Yaml) : Prop :=
  ∃ es s, m = .map es ∧ valueAt es "type" = some (.str s) ∧
    s ∉ knownTypes

end Spec
open Spec

theorem bindFault {α β : Type} {r : Except ReadFault α} {f : α → Except ReadFault β} {x : ReadFault} :
    (r >>= f) = .error x ↔ r = .error x ∨ ∃ a, r = .ok a ∧ f a = .error x := by
  rcases r with e | a
  · constructor
    · intro h; cases h; exact .inl rfl
    · rintro (h | ⟨a, h, _⟩)
      · cases h; rfl
      · cases h
  · constructor
    · intro h; exact .inr ⟨a, rfl, h⟩
    · rintro (h | ⟨b, h, h2⟩)
      · cases h
      · cases h; exact h2

theorem withName_reader {α : Type} {n k : Option String} {r : Except Err α}
    (h : withName n r = .error (.reader k)) : k = n := by
  rcases r with e | a
  · cases e <;> simp [withName] at h
    exact h.symm
  · cases h

theorem withName_reader' {α : Type} {n k : Option String} {r : Except Err α}
    (h : withName n r = .error (.reader k)) : k = n ∧ r = .error .reader := by
  refine ⟨withName_reader h, ?_⟩
  rcases r with e | a
  · cases e <;> simp [withName] at h
    rfl
  · cases h

theorem withName_ok {α : Type} {n : Option String} {r : Except Err α} {a : α}
    (h : withName n r = .ok a) : r = .ok a := by
  rcases r with e | b
  · cases e <;> cases h
  · cases h; rfl

theorem guardFault {α : Type} {c : Prop} [Decidable c] {n k : Option String}
    {r : Except ReadFault α} (h : (if c then .error (.reader n) else r) = .error (.reader k)) :
    k = n ∨ r = .error (.reader k) := by
  split at h
  · cases h; exact .inl rfl
  · exact .inr h

theorem addMembersAt_reader {rm : Yaml → Except ReadFault Defn} {n k : Option String}
    {ms : List Yaml} {b : Builder} (h : addMembersAt rm n b ms = .error (.reader k)) :
    k = n ∨ ∃ m ∈ ms, rm m = .error (.reader k) := by
  induction ms generalizing b with
  | nil => cases h
  | cons m ms ih =>
    have rest : ∀ {b}, addMembersAt rm n b ms = .error (.reader k) →
        k = n ∨ ∃ x ∈ m :: ms, rm x = .error (.reader k) := fun h => by
      rcases ih h with h | ⟨x, hx, h⟩
      · exact .inl h
      · exact .inr ⟨x, List.mem_cons_of_mem _ hx, h⟩
    rw [addMembersAt] at h
    rcases bindFault.mp h with h | ⟨sect, -, h⟩
    · exact .inl (withName_reader h)
    · split at h
      · rcases bindFault.mp h with h | ⟨s, -, h⟩
        · exact .inl (withName_reader h)
        · exact rest h
      · rcases bindFault.mp h with h | ⟨d, -, h⟩
        · exact .inr ⟨m, List.mem_cons_self, h⟩
        · generalize b.addMember d = r at h
          rcases r with ⟨_ | _, b⟩
          · simp only [Except.error.injEq] at h
            split at h
            · cases h
            · cases h; exact .inl rfl
          · exact rest h

theorem readWithMembersAt_reader {rm : Yaml → Except ReadFault Defn} {u : Bool} {d : Yaml}
    {n : String} {k : Option String} (h : readWithMembersAt rm u d n = .error (.reader k)) :
    k = nameArg n ∨ ∃ members items m, d.get "members" = .ok members ∧ members.iter = .ok items ∧
      m ∈ items ∧ rm m = .error (.reader k) := by
  rw [readWithMembersAt] at h
  rcases bindFault.mp h with h | ⟨members, hm, h⟩
  · exact .inl (withName_reader h)
  split at h
  · cases h; exact .inl rfl
  rcases bindFault.mp h with h | ⟨_, -, h⟩
  · exact .inl (withName_reader h)
  rcases bindFault.mp h with h | ⟨_, -, h⟩
  · exact .inl (withName_reader h)
  rcases bindFault.mp h with h | ⟨items, hi, h⟩
  · exact .inl (withName_reader h)
  rcases bindFault.mp h with h | ⟨_, -, h⟩
  · rcases addMembersAt_reader h with h | ⟨m, hm2, h⟩
    · exact .inl h
    · exact .inr ⟨members, items, m, withName_ok hm, withName_ok hi, hm2, h⟩
  · cases h

theorem readTypedAt_reader {E : Env} {reg : Registry}
    {rm : Option String → Bool → Yaml → Except ReadFault Defn} {t : TypeInd} {im : Bool} {d : Yaml}
    {n : String} {k : Option String} (h : readTypedAt E reg rm t im d n = .error (.reader k)) :
    k = nameArg n ∨ ∃ c members items m, d.get "members" = .ok members ∧ members.iter = .ok items ∧
      m ∈ items ∧ rm (nameArg n) c m = .error (.reader k) := by
  have key : ∀ {c u}, readWithMembersAt (rm (nameArg n) c) u d n = .error (.reader k) →
      k = nameArg n ∨ ∃ c members items m, d.get "members" = .ok members ∧
        members.iter = .ok items ∧ m ∈ items ∧ rm (nameArg n) c m = .error (.reader k) :=
    fun {c u} h => (readWithMembersAt_reader h).imp id fun ⟨a, b, m, h⟩ => ⟨c, a, b, m, h⟩
  cases t <;> simp only [readTypedAt] at h
  case «structure» =>
    split at h
    · cases h; exact .inl rfl
    · exact key h
  case union => exact key h
  all_goals exact .inl (withName_reader h)

theorem rename_reader {α : Type} {n k : Option String} {r : Except ReadFault α}
    (h : rename n r = .error (.reader k)) : k = n := by
  rcases r with (_ | e) | a <;> cases h
  rfl

theorem get_isMap {d v : Yaml} {k : String} (h : d.get k = .ok v) : ∃ es, d = .map es := by
  cases d <;> first | exact ⟨_, rfl⟩ | cases h

theorem get_str {es : List (Key × Yaml)} {k : String} {s : String}
    (h : Yaml.get (.map es) k = .ok (.str s)) :
    valueAt es k = some (.str s) := by
  simp only [Yaml.get, Yaml.getD, Except.ok.injEq, ← valueAt.eq_1] at h
  cases hf : valueAt es k with
  | none => rw [hf] at h; cases h
  | some v => rw [hf] at h; simp only [Option.getD_some] at h; rw [h]

theorem get_null {es : List (Key × Yaml)} {k : String}
    (h : Yaml.get (.map es) k = .ok .null) :
    valueAt es k = none ∨
      valueAt es k = some .null := by
  simp only [Yaml.get, Yaml.getD, Except.ok.injEq, ← valueAt.eq_1] at h
  cases hf : valueAt es k with
  | none => exact .inl rfl
  | some v => rw [hf] at h; simp only [Option.getD_some] at h; rw [h]; exact .inr rfl

theorem callback_unknown {ty : Yaml} (h : callback ty = .error .reader) :
    ∃ s, ty = .str s ∧ s ∉ knownTypes := by
  unfold callback at h
  split at h
  · cases h
  · split at h
    · rename_i s _
      refine ⟨s, rfl, fun hm => ?_⟩
      split at h
      · cases h
      · rename_i hs
        revert hs
        simp only [knownTypes, List.mem_cons, List.not_mem_nil, or_false] at hm
        rcases hm with rfl | rfl | rfl | rfl | rfl | rfl | rfl | rfl | rfl | rfl | rfl | rfl | rfl |
          rfl | rfl | rfl <;> decide
    all_goals cases h

theorem memberName_own {es : List (Key × Yaml)} {name : Yaml} {n : String}
    (hg : Yaml.get (.map es) "name" = .ok name) (h : memberName name = .ok n) :
    nameArg n = ownName (.map es) := by
  cases name <;> simp only [memberName, Except.ok.injEq] at h <;> try (cases h)
  · rcases get_null hg with h | h <;> simp [ownName, h, nameArg]
  · split at h
    · cases h
    · rename_i hs
      cases h
      simp only [beq_iff_eq] at hs
      simp [ownName, get_str hg, nameArg, hs]

theorem readMemberAt_reader {E : Env} {reg : Registry} {fuel : Nat} {owner k : Option String}
    {c : Bool} {m : Yaml} (h : readMemberAt E reg fuel owner c m = .error (.reader k)) :
    k = owner ∨ TypeUnknown m ∧ k = ownName m := by
  cases fuel with
  | zero => cases h
  | succ fuel =>
    rw [readMemberAt] at h
    split at h
    · cases h; exact .inl rfl
    rcases bindFault.mp h with h | ⟨name, hn, h⟩
    · exact .inl (withName_reader h)
    rcases bindFault.mp h with h | ⟨ty, ht, h⟩
    · exact .inl (withName_reader h)
    rcases guardFault h with h | h
    · exact .inl h
    rcases bindFault.mp h with h | ⟨nm, hnm, h⟩
    · exact .inl (withName_reader h)
    rcases bindFault.mp h with h | ⟨_, -, h⟩
    · exact .inl (withName_reader h)
    split at h
    · cases h; exact .inl rfl
    split at h
    · cases h; exact .inl rfl
    rcases bindFault.mp h with h | ⟨_, -, h⟩
    · exact .inl (withName_reader h)
    split at h
    · cases h; exact .inl rfl
    rcases bindFault.mp h with h | ⟨_, -, h⟩
    · exact .inl (withName_reader h)
    rcases bindFault.mp h with h | ⟨_, -, h⟩
    · exact .inl (withName_reader h)
    split at h
    · cases h; exact .inl rfl
    rcases bindFault.mp h with h | ⟨_, -, h⟩
    · exact .inl (withName_reader h)
    split at h
    · rcases bindFault.mp h with h | ⟨_, -, h⟩
      · obtain ⟨hk, hc⟩ := withName_reader' h
        obtain ⟨s, rfl, hs⟩ := callback_unknown hc
        have hn := withName_ok hn
        have ht := withName_ok ht
        obtain ⟨es, rfl⟩ := get_isMap ht
        exact .inr ⟨⟨es, s, rfl, get_str ht, hs⟩, hk.trans (memberName_own hn (withName_ok hnm))⟩
      rcases bindFault.mp h with h | ⟨_, -, h⟩
      · exact .inl (rename_reader h)
      rcases bindFault.mp h with h | ⟨_, -, h⟩
      · exact .inl (withName_reader h)
      split at h <;> cases h
    · rcases bindFault.mp h with h | ⟨_, -, h⟩
      · exact .inl (withName_reader h)
      rcases bindFault.mp h with h | ⟨_, -, h⟩
      · exact .inl (withName_reader h)
      rcases bindFault.mp h with h | ⟨_, -, h⟩
      · exact .inl (withName_reader h)
      rcases bindFault.mp h with h | ⟨_, -, h⟩
      · exact .inl (withName_reader h)
      rcases bindFault.mp h with h | ⟨_, -, h⟩
      · exact .inl (withName_reader h)
      rcases bindFault.mp h with h | ⟨_, -, h⟩
      · exact .inl (withName_reader h)
      rcases bindFault.mp h with h | ⟨_, -, h⟩
      · exact .inl (withName_reader h)
      rcases bindFault.mp h with h | ⟨_, -, h⟩
      · exact .inl (withName_reader h)
      cases h

theorem readDefinitionAt_reader {E : Env} {reg : Registry} {d : Yaml} {k : Option String}
    (h : readDefinitionAt E reg d = .error (.reader k)) :
    k = ownName d ∨ ∃ m, Lists d m ∧ TypeUnknown m ∧ k = ownName m := by
  rw [readDefinitionAt] at h
  split at h
  · rename_i ht
    cases h
    left
    cases d <;> simp [Yaml.truthy] at ht <;> simp [ownName, valueAt]
    simp [ht]
  rcases bindFault.mp h with h | ⟨name, hn, h⟩
  · obtain ⟨rfl, h⟩ := withName_reader' h
    cases d <;> cases h
  have hn := withName_ok hn
  obtain ⟨es, rfl⟩ := get_isMap hn
  split at h
  · rename_i ht
    cases h
    left
    simp only [Yaml.get, Yaml.getD, Except.ok.injEq, ← valueAt.eq_1] at hn
    simp only [ownName]
    cases hv : valueAt es "name" with
    | none => rfl
    | some v =>
      rw [hv, Option.getD_some] at hn
      subst hn
      cases v <;> simp [Yaml.truthy] at ht <;> try rfl
      simp [ht]
  rename_i htr
  rcases bindFault.mp h with h | ⟨nm, hnm, h4⟩
  · obtain ⟨-, h⟩ := withName_reader' h
    cases name <;> cases h
  have hnm := text_ok (withName_ok hnm)
  subst hnm
  have hs : nm ≠ "" := by
    intro hs; subst hs; exact htr rfl
  have hown : some nm = ownName (.map es) := by simp [ownName, get_str hn, hs]
  have harg : nameArg nm = some nm := by simp [nameArg, hs]
  rcases bindFault.mp h4 with h | ⟨ty, ht, h⟩
  · exact .inl ((withName_reader h).trans hown)
  split at h
  · cases h; exact .inl hown
  rcases bindFault.mp h with h | ⟨t, -, h⟩
  · exact .inl ((withName_reader h).trans hown)
  rcases readTypedAt_reader h with h | ⟨c, members, items, m, hm, hi, hmem, h⟩
  · exact .inl (by rw [h, harg, hown])
  · rcases readMemberAt_reader h with h | ⟨hu, hk⟩
    · exact .inl (by rw [h, harg, hown])
    · refine .inr ⟨m, ⟨es, items, rfl, ?_, hmem⟩, hu, hk⟩
      obtain ⟨ms, s, rfl, -⟩ := hu
      simp only [Yaml.get, Yaml.getD, Except.ok.injEq, ← valueAt.eq_1] at hm
      cases hv : valueAt es "members" with
      | none => rw [hv] at hm; subst hm; cases hi
      | some v =>
        rw [hv, Option.getD_some] at hm
        subst hm
        cases v <;> simp only [Yaml.iter, Except.ok.injEq, reduceCtorEq] at hi
        case list => rw [hi]
        all_goals
          subst hi
          obtain ⟨x, -, hx⟩ := List.mem_map.mp hmem
          revert hx
        · intro hx; cases hx
        · intro hx; cases hx
        · intro hx
          rcases x with ⟨_ | _, _⟩ <;> cases hx

/-! ### The functions of `Location` are those of `Reader` -/

theorem readDocsAt_forget (E : Env) (reg : Registry) (last : Option String) (ds : List Yaml) :
    (forget (readDocsAt E reg last ds).1).map (fun _ => ()) = (readDocs E reg ds).1 ∧
      (readDocsAt E reg last ds).2 = (readDocs E reg ds).2 := by
  induction ds generalizing reg last with
  | nil => exact ⟨rfl, rfl⟩
  | cons d ds ih =>
    unfold readDocsAt readDocs
    rw [← readDefinitionAt_forget]
    cases readDefinitionAt E reg d with
    | error e => exact ⟨rfl, rfl⟩
    | ok x =>
      simp only [forget_ok]
      generalize reg.register E x = r
      rcases r with ⟨e | u, r⟩
      · exact ⟨rfl, rfl⟩
      · exact ih r (some x.name)

/-- A DefinitionReaderError is never without its name. -/
def KeepsName {α : Type} (r : Except ReadFault α) : Prop := r ≠ .error (.other .reader)

theorem KeepsName.ok {α : Type} (a : α) : KeepsName (.ok a) := by intro h; cases h

theorem KeepsName.err {α : Type} (n : Option String) :
    KeepsName (.error (.reader n) : Except ReadFault α) := by intro h; cases h

theorem KeepsName.withName {α : Type} (n : Option String) (r : Except Err α) :
    KeepsName (withName n r) := by
  intro h
  rcases r with e | a
  · cases e <;> cases h
  · cases h

theorem KeepsName.rename {α : Type} (n : Option String) {r : Except ReadFault α}
    (h : KeepsName r) : KeepsName (rename n r) := by
  intro h2
  rcases r with (_ | e) | a
  · cases h2
  · exact h h2
  · cases h2

theorem KeepsName.bind {α β : Type} {r : Except ReadFault α} {f : α → Except ReadFault β}
    (h : KeepsName r) (hf : ∀ a, KeepsName (f a)) : KeepsName (r >>= f) := by
  intro h2
  rcases bindFault.mp h2 with h3 | ⟨a, -, h3⟩
  · exact h h3
  · exact hf a h3

theorem KeepsName.ite {α : Type} {c : Prop} [Decidable c] {a b : Except ReadFault α}
    (ha : KeepsName a) (hb : KeepsName b) : KeepsName (if c then a else b) := by
  split
  · exact ha
  · exact hb

theorem addMembersAt_keeps {rm : Yaml → Except ReadFault Defn} (h : ∀ m, KeepsName (rm m))
    (n : Option String) (b : Builder) (ms : List Yaml) : KeepsName (addMembersAt rm n b ms) := by
  induction ms generalizing b with
  | nil => exact .ok _
  | cons m ms ih =>
    unfold addMembersAt
    refine .bind (.withName _ _) fun sect => .ite (.bind (.withName _ _) fun _ => ih _)
      (.bind (h m) fun d => ?_)
    generalize b.addMember d = q
    rcases q with ⟨_ | _, q⟩
    · intro h
      simp only [Except.error.injEq] at h
      split at h <;> cases h
    · exact ih q

theorem readWithMembersAt_keeps {rm : Yaml → Except ReadFault Defn} (h : ∀ m, KeepsName (rm m))
    (u : Bool) (d : Yaml) (n : String) : KeepsName (readWithMembersAt rm u d n) :=
  .bind (.withName _ _) fun _ => .ite (.err _) (.bind (.withName _ _) fun _ =>
    .bind (.withName _ _) fun _ => .bind (.withName _ _) fun _ =>
    .bind (addMembersAt_keeps h _ _ _) fun _ => .ok _)

theorem readTypedAt_keeps {E : Env} {reg : Registry}
    {rm : Option String → Bool → Yaml → Except ReadFault Defn} (h : ∀ o c m, KeepsName (rm o c m))
    (t : TypeInd) (im : Bool) (d : Yaml) (n : String) :
    KeepsName (readTypedAt E reg rm t im d n) := by
  cases t <;> simp only [readTypedAt]
  case «structure» => exact .ite (.err _) (readWithMembersAt_keeps (h _ _) _ _ _)
  case union => exact readWithMembersAt_keeps (h _ _) _ _ _
  all_goals exact .withName _ _

theorem readMemberAt_keeps (E : Env) (reg : Registry) (f : Nat) (o : Option String) (c : Bool)
    (m : Yaml) : KeepsName (readMemberAt E reg f o c m) := by
  induction f generalizing o c m with
  | zero => intro h; cases h
  | succ f ih =>
    unfold readMemberAt
    exact .ite (.err _) (.bind (.withName _ _) fun _ => .bind (.withName _ _) fun _ =>
      .ite (.err _) (.bind (.withName _ _) fun _ => .bind (.withName _ _) fun _ =>
      .ite (.err _) (.ite (.err _) (.bind (.withName _ _) fun _ =>
      .ite (.err _) (.bind (.withName _ _) fun _ => .bind (.withName _ _) fun _ =>
      .ite (.err _) (.bind (.withName _ _) fun _ =>
      .ite (.bind (.withName _ _) fun _ =>
        .bind (.rename _ (readTypedAt_keeps ih _ _ _ _)) fun _ =>
        .bind (.withName _ _) fun _ => .ite (.ok _) (.ok _))
      (.bind (.withName _ _) fun _ => .bind (.withName _ _) fun _ => .bind (.withName _ _) fun _ =>
       .bind (.withName _ _) fun _ => .bind (.withName _ _) fun _ => .bind (.withName _ _) fun _ =>
       .bind (.withName _ _) fun _ => .bind (.withName _ _) fun _ => .ok _)))))))

theorem readDefinitionAt_keeps (E : Env) (reg : Registry) (d : Yaml) :
    KeepsName (readDefinitionAt E reg d) :=
  .ite (.err _) (.bind (.withName _ _) fun _ => .ite (.err _) (.bind (.withName _ _) fun _ =>
    .bind (.withName _ _) fun _ => .ite (.err _) (.bind (.withName _ _) fun _ =>
    readTypedAt_keeps (readMemberAt_keeps E reg _) _ _ _ _)))

theorem readDocs_key {E : Env} {ds : List Yaml} {reg r : Registry} {e : Err}
    (h : readDocsAt E reg none ds = (.error (.other e), r)) : asFormat e = e := by
  have : ∀ (ds : List Yaml) (reg : Registry) (last : Option String),
      readDocsAt E reg last ds = (.error (.other e), r) → asFormat e = e := by
    intro ds
    induction ds with
    | nil => intro reg last h; cases h
    | cons d ds ih =>
      intro reg last h
      unfold readDocsAt at h
      cases hd : readDefinitionAt E reg d with
      | error f =>
        rw [hd] at h
        cases h
        have h2 := readDefinitionAt_keeps E r d
        rw [KeepsName, hd] at h2
        cases e <;> first | rfl | exact absurd rfl h2
      | ok x =>
        rw [hd] at h
        simp only at h
        generalize hr : reg.register E x = q at h
        rcases q with ⟨f | u, q⟩
        · cases h
          rcases register_pair hr with ⟨h, -⟩ | ⟨h, -⟩ <;> cases h
          rfl
        · exact ih _ _ h
  exact this _ _ _ h

/-- Without the texts. -/
def FileFault.forget : Except FileFault Unit → Except Err Unit
  | .ok () => .ok ()
  | .error e => .error e.err

/-- **C76**, the functions with texts: what they return and the registry afterwards
are those of ReadFileObject as it is described without texts. -/
theorem C76_same (E : Env) (reg : Registry) (f : YamlFile) :
    FileFault.forget (readFileAt E reg f).1 = (readFileObject E reg f).1 ∧
      (readFileAt E reg f).2 = (readFileObject E reg f).2 := by
  obtain ⟨h1, h2⟩ := readDocsAt_forget E reg none f.docs
  unfold readFileAt readFileObject
  cases hq : readDocsAt E reg none f.docs with
  | mk res r =>
    rw [hq] at h1 h2
    cases hp : readDocs E reg f.docs with
    | mk res' r' =>
      rw [hp] at h1 h2
      simp only at h1 h2
      subst h1 h2
      cases res with
      | ok last => cases f.ending <;> exact ⟨rfl, rfl⟩
      | error e =>
        refine ⟨?_, rfl⟩
        cases e with
        | reader n => rfl
        | other e =>
          show Except.error e = Except.error (asFormat e)
          rw [readDocs_key hq]

/-! ### C76 -/

namespace Spec

/-- The definition named at the start of the text of a FormatError. -/
def Says (start : String) (name : Option String) : Prop :=
  (∃ n, name = some n ∧ start = "in: " ++ n) ∨ (name = none ∧ start = "in: <NAMELESS>")

end Spec

theorem says_inText (n : Option String) : Says (inText n) n := by
  cases n with
  | none => exact .inr ⟨rfl, rfl⟩
  | some n => exact .inl ⟨n, rfl, rfl⟩

theorem readDocsAt_loaded (E : Env) (ds : List Yaml) (reg : Registry) (last : Option String) :
    (∃ pre d post xs e, ds = pre ++ d :: post ∧ Loaded E reg pre xs (readDocsAt E reg last ds).2 ∧
      (readDocsAt E reg last ds).1 = .error e ∧
      (readDefinitionAt E (readDocsAt E reg last ds).2 d = .error e ∨ e = .other .key)) ∨
    ∃ xs, Loaded E reg ds xs (readDocsAt E reg last ds).2 ∧
      (readDocsAt E reg last ds).1 = .ok (((last.toList ++ xs.map Defn.name)).getLast?) := by
  induction ds generalizing reg last with
  | nil => exact .inr ⟨[], .nil _, by cases last <;> rfl⟩
  | cons d ds ih =>
    unfold readDocsAt
    cases hd : readDefinitionAt E reg d with
    | error e => exact .inl ⟨[], d, ds, [], e, rfl, .nil _, rfl, .inl hd⟩
    | ok x =>
      have hx : readDefinition E reg d = .ok x := by rw [← readDefinitionAt_forget, hd]; rfl
      simp only
      generalize hr : reg.register E x = q
      rcases q with ⟨e | u, q⟩
      · rcases register_pair hr with ⟨h, -⟩ | ⟨h, rfl⟩ <;> cases h
        exact .inl ⟨[], d, ds, [], _, rfl, .nil _, rfl, .inr rfl⟩
      · rcases ih q (some x.name) with ⟨pre, d', post, xs, e, rfl, h1, h2, h3⟩ | ⟨xs, h1, h2⟩
        · exact .inl ⟨d :: pre, d', post, x :: xs, e, rfl, .cons hx hr h1, h2, h3⟩
        · refine .inr ⟨x :: xs, .cons hx hr h1, h2.trans ?_⟩
          cases last <;> simp [List.getLast?_cons]

/-- **C76**: when a file is refused with a FormatError, its text names the first
document that cannot be read, or one of its members whose type is the name of none.
For an error of the scanner it is the definition read last. -/
theorem C76_members (E : Env) (reg reg' : Registry) (f : YamlFile) (start : String)
    (h : readFileAt E reg f = (.error (.format start), reg')) :
    (∃ pre d post xs, f.docs = pre ++ d :: post ∧ Loaded E reg pre xs reg' ∧
      readDefinition E reg' d = .error .reader ∧
      (Says start (ownName d) ∨ ∃ m, Lists d m ∧ TypeUnknown m ∧ Says start (ownName m))) ∨
    ∃ xs, Loaded E reg f.docs xs reg' ∧ f.ending = .scanner ∧
      ((xs = [] ∧ start = "at start") ∨ ∃ ys x, xs = ys ++ [x] ∧ start = "after: " ++ x.name) := by
  unfold readFileAt at h
  rcases readDocsAt_loaded E f.docs reg none with ⟨pre, d, post, xs, e, h1, h2, h3, h4⟩ | ⟨xs, h1, h2⟩
  · generalize readDocsAt E reg none f.docs = q at *
    rcases q with ⟨res, r⟩
    simp only at h2 h3 h4
    subst h3
    simp only [Prod.mk.injEq, Except.error.injEq] at h
    obtain ⟨h, rfl⟩ := h
    cases e with
    | other e => cases h
    | reader n =>
      cases h
      rcases h4 with h4 | h4
      · refine .inl ⟨pre, d, post, xs, h1, h2, ?_, ?_⟩
        · rw [← readDefinitionAt_forget, h4]; rfl
        · rcases readDefinitionAt_reader h4 with rfl | ⟨m, hm, hu, rfl⟩
          · exact .inl (says_inText _)
          · exact .inr ⟨m, hm, hu, says_inText _⟩
      · cases h4
  · generalize readDocsAt E reg none f.docs = q at *
    rcases q with ⟨res, r⟩
    simp only at h1 h2
    subst h2
    simp only at h
    split at h
    · cases h
    · rename_i hend
      simp only [Prod.mk.injEq, Except.error.injEq, FileFault.format.injEq] at h
      obtain ⟨rfl, rfl⟩ := h
      refine .inr ⟨xs, h1, hend, ?_⟩
      rcases List.eq_nil_or_concat xs with rfl | ⟨ys, x, rfl⟩
      · exact .inl ⟨rfl, rfl⟩
      · exact .inr ⟨ys, x, by simp, by simp [afterText]⟩
    · cases h

/-- **C76**, for files all of whose members have known types: the text of a
FormatError names the first document that cannot be read, or the definition read
last when the scanner fails. -/
theorem C76_location_partial (E : Env) (reg reg' : Registry) (f : YamlFile) (start : String)
    (hk : ∀ d ∈ f.docs, ∀ m, Lists d m → ¬ TypeUnknown m)
    (h : readFileAt E reg f = (.error (.format start), reg')) :
    (∃ pre d post xs, f.docs = pre ++ d :: post ∧ Loaded E reg pre xs reg' ∧
      readDefinition E reg' d = .error .reader ∧ Says start (ownName d)) ∨
    ∃ xs, Loaded E reg f.docs xs reg' ∧ f.ending = .scanner ∧
      ((xs = [] ∧ start = "at start") ∨ ∃ ys x, xs = ys ++ [x] ∧ start = "after: " ++ x.name) := by
  rcases C76_members E reg reg' f start h with ⟨pre, d, post, xs, h1, h2, h3, h4⟩ | h
  · refine .inl ⟨pre, d, post, xs, h1, h2, h3, ?_⟩
    rcases h4 with h4 | ⟨m, hm, hu, -⟩
    · exact h4
    · exact absurd hu (hk d (by rw [h1]; simp) m hm)
  · exact .inr h

/-- A member whose type is misspelt. -/
def exMisspelt : Yaml :=
  .map [(.str "name", .str "size"), (.str "type", .str "integr")]

/-- A structure with that member. -/
def exMisspeltDoc : Yaml :=
  .map [(.str "name", .str "header"), (.str "type", .str "structure"),
    (.str "members", .list [exMisspelt])]

/-- **C76** does not hold for all files: the error in `header` is said to be in
`size`, which is no definition. -/
theorem C76_refuted (E : Env) :
    readFileAt E {} { docs := [exMisspeltDoc] } = (.error (.format "in: size"), {}) ∧
      ownName exMisspeltDoc = some "header" := ⟨by rfl, by rfl⟩

/-- A file meeting the hypotheses of `C76_location_partial`: the second document has
no size that is supported. -/
def exBadSize : YamlFile :=
  { docs := [
    .map [(.str "name", .str "flag"), (.str "type", .str "boolean"),
      (.str "attributes", .map [(.str "size", .int 1), (.str "true_value", .int 1)])],
    .map [(.str "name", .str "wide"), (.str "type", .str "integer"),
      (.str "attributes", .map [(.str "size", .int 3)])]] }

example : (readFileAt exEnvR {} exBadSize).1 = .error (.format "in: wide") := by rfl

example : ∀ d ∈ exBadSize.docs, ∀ m, Lists d m → ¬ TypeUnknown m := by
  rintro d hd m ⟨es, l, hes, hl, _⟩
  simp only [exBadSize, List.mem_cons, List.not_mem_nil, or_false] at hd
  rcases hd with rfl | rfl <;> cases hes <;> simp [valueAt] at hl

/-- The same file cut off after the first document, by an error of the scanner. -/
def exCut : YamlFile := { docs := exBadSize.docs.take 1, ending := .scanner }

example : (readFileAt exEnvR {} exCut).1 = .error (.format "after: flag") := by rfl

end Dtf
