import Verif.Reorder
import Verif.Location
import Verif.Validator
import Verif.Props.Mapping
/-!
# Property C118: the order of keys does not matter
-/
namespace Dtf
open Spec

section
variable {E : Env} {reg : Registry} {d d' : Yaml}

theorem addMembersAt_reorder {rm : Yaml → Except ReadFault Defn} (hrm : ∀ y y', Reordered y y' → rm y' = rm y)
    (o : Option String) : ∀ {l l' : List Yaml}, ReorderedItems l l' → ∀ b, addMembersAt rm o b l' = addMembersAt rm o b l
  | _, _, .nil, _ => rfl
  | _, _, .cons hy t, b => by
    have ha := reordered_alike hy
    simp only [addMembersAt, ha.get (k := "section") (by decide), hrm _ _ hy, addMembersAt_reorder hrm o t]

theorem readWithMembersAt_reorder (h : Alike d d') {rm : Yaml → Except ReadFault Defn}
    (hrm : ∀ y y', Reordered y y' → rm y' = rm y) (u : Bool)
    (n : String) : readWithMembersAt rm u d' n = readWithMembersAt rm u d n := by
  unfold readWithMembersAt
  rw [readHdr_reorder h, readAttrs_reorder h]
  rcases h.listed (k := "members") (by decide) .null with ⟨e, h1, h2⟩ | ⟨a, a', h1, h2, ha⟩
  · simp only [Yaml.get, h1, h2]
  · simp only [Yaml.get, h1, h2, bind, Except.bind, withName, ha.truthy]
    rcases ha.iter with ⟨e, h3, h4⟩ | ⟨l, l', h3, h4, hl⟩
    · simp only [h3, h4]
    · simp only [h3, h4, addMembersAt_reorder hrm _ hl]

theorem readTypedAt_reorder (h : Alike d d') {rm : Option String → Bool → Yaml → Except ReadFault Defn}
    (hrm : ∀ o c y y', Reordered y y' → rm o c y' = rm o c y) (t : TypeInd) (m : Bool) (n : String) :
    readTypedAt E reg rm t m d' n = readTypedAt E reg rm t m d n := by
  have hr := readTyped_reorder (E := E) (reg := reg) h (rm := fun _ _ => .error .other) (fun _ _ _ _ => rfl) t m n
  cases t with
  | «structure» => simp only [readTypedAt, readWithMembersAt_reorder h (hrm _ true)]
  | union => exact readWithMembersAt_reorder h (hrm _ false) _ _
  | _ => simp only [readTypedAt, hr]

theorem readMemberAt_reorder : ∀ (fuel : Nat) (o : Option String) (c : Bool) (y y' : Yaml), Reordered y y' →
    readMemberAt E reg fuel o c y' = readMemberAt E reg fuel o c y
  | 0, _, _, _, _, _ => rfl
  | fuel + 1, o, c, y, y', hy => by
    have h := reordered_alike hy
    have ht := fun t m n => readTypedAt_reorder (E := E) (reg := reg) (rm := readMemberAt E reg fuel) h
      (readMemberAt_reorder fuel) t m n
    simp only [readMemberAt, h.truthy, h.get (k := "name") (by decide), h.get (k := "type") (by decide),
      h.get (k := "data_type") (by decide), h.get (k := "condition") (by decide), h.get (k := "value") (by decide),
      h.get (k := "aliases") (by decide), h.get (k := "description") (by decide), h.keys, ht]
    rcases h.listed (k := "values") (by decide) .null with ⟨e, h1, h2⟩ | ⟨a, a', h1, h2, ha⟩
    · simp only [Yaml.get, h1, h2]
    · simp only [Yaml.get, h1, h2, bind, Except.bind, withName, ha.isNone, fun v => supportedValues_reorder v ha]

theorem readDefinitionAt_reorder {y y' : Yaml} (hy : Reordered y y') :
    readDefinitionAt E reg y' = readDefinitionAt E reg y := by
  have h := reordered_alike hy
  unfold readDefinitionAt
  rw [depth_reorder hy, h.truthy, h.get (k := "name") (by decide), h.get (k := "type") (by decide)]
  simp only [readTypedAt_reorder h (readMemberAt_reorder _)]

theorem readDocsAt_reorder : ∀ {l l' : List Yaml}, ReorderedItems l l' → ∀ reg last,
    readDocsAt E reg last l' = readDocsAt E reg last l
  | _, _, .nil, _, _ => rfl
  | _, _, .cons h t, reg, last => by
    simp only [readDocsAt, readDefinitionAt_reorder h, readDocsAt_reorder t]

end

/-- **C118** Two definition files that differ only in the order in which keys are written are read alike: the
reader succeeds for both or raises the same error for both, and the registry is the same afterwards. -/
theorem C118_file (E : Env) (reg : Registry) (f f' : YamlFile) (hd : ReorderedItems f.docs f'.docs)
    (he : f'.ending = f.ending) : readFileObject E reg f' = readFileObject E reg f := by
  unfold readFileObject
  rw [readDocs_reorder hd, he]

/-- **C118** The error also names the same definition. -/
theorem C118_message (E : Env) (reg : Registry) (f f' : YamlFile) (hd : ReorderedItems f.docs f'.docs)
    (he : f'.ending = f.ending) : readFileAt E reg f' = readFileAt E reg f := by
  unfold readFileAt
  rw [readDocsAt_reorder hd, he]

/-- **C118** So the types of both are the same, and the validator says the same of both. -/
theorem C118_fabric (E : Env) (f f' : YamlFile) (hd : ReorderedItems f.docs f'.docs) (he : f'.ending = f.ending) :
    fabric E (some f') = fabric E (some f) ∧ checkFile E (.file (some f')) = checkFile E (.file (some f)) := by
  have h := C118_file E {} f f' hd he
  exact ⟨by rw [fabric, h, fabric], by rw [checkFile, h, checkFile]⟩

/-- An integer and a structure of it. -/
def exKeys : List Yaml :=
  [.map [(.str "name", .str "uint8"), (.str "type", .str "integer"),
      (.str "attributes", .map [(.str "format", .str "unsigned"), (.str "size", .int 1)])],
    .map [(.str "name", .str "pair"), (.str "type", .str "structure"),
      (.str "members", .list [.map [(.str "name", .str "a"), (.str "data_type", .str "uint8")],
        .map [(.str "name", .str "b"), (.str "data_type", .str "uint8")]])]]

/-- The same with all keys in another order. -/
def exKeys' : List Yaml :=
  [.map [(.str "attributes", .map [(.str "size", .int 1), (.str "format", .str "unsigned")]),
      (.str "type", .str "integer"), (.str "name", .str "uint8")],
    .map [(.str "type", .str "structure"),
      (.str "members", .list [.map [(.str "data_type", .str "uint8"), (.str "name", .str "a")],
        .map [(.str "data_type", .str "uint8"), (.str "name", .str "b")]]), (.str "name", .str "pair")]]

/-- They meet the condition, and have the types one expects. -/
example : ReorderedItems exKeys exKeys' ∧ (readFileObject exEnv {} { docs := exKeys }).1 = .ok () ∧
    ((readFileObject exEnv {} { docs := exKeys' }).2.getByName exEnv "pair").map (·.byteSize) = some (some 2) := by
  refine ⟨?_, rfl, rfl⟩
  have hswap : ∀ (a b : Key × Yaml), a.1 ≠ b.1 → Reordered (.map [a, b]) (.map [b, a]) := fun a b h =>
    .mapping (by simpa using h) (.cons (.same _) (.cons (.same _) .nil)) (.swap _ _ _)
  refine .cons (.mapping (by decide) (.cons (.same _) (.cons (.same _) (.cons (.attributes (hswap _ _ (by decide))) .nil)))
    ?_) (.cons (.mapping (by decide) (.cons (.same _) (.cons (.same _) (.cons (.items (by decide)
      (.cons (hswap _ _ (by decide)) (.cons (hswap _ _ (by decide)) .nil))) .nil))) ?_) .nil)
  · exact List.reverse_perm [_, _, _] |>.symm
  · exact ((List.Perm.swap _ _ _).trans ((List.Perm.swap _ _ _).cons _)) 

/-- The order of members is not one of keys: it does matter. -/
theorem C118_members : ∃ ms ms' : List Yaml, ms.Perm ms' ∧
    (readFileObject exEnv {} { docs := exKeys.take 1 ++ [.map [(.str "name", .str "pair"), (.str "type", .str "structure"),
      (.str "members", .list ms)]] }).2 ≠
    (readFileObject exEnv {} { docs := exKeys.take 1 ++ [.map [(.str "name", .str "pair"), (.str "type", .str "structure"),
      (.str "members", .list ms')]] }).2 := by
  refine ⟨[.map [(.str "name", .str "a"), (.str "data_type", .str "uint8")],
    .map [(.str "name", .str "b"), (.str "data_type", .str "uint8")]], _, .swap _ _ _, fun h => ?_⟩
  have := congrArg (fun r => (r.getByName exEnv "pair").map fun d => d.members?.map (·.map Defn.name)) h
  revert this
  decide

end Dtf
