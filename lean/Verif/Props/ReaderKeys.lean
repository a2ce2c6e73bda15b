import Verif.Props.References
/-!
# Property C43: unknown keys
-/
namespace Dtf

namespace Spec

/-- The keys every data type definition supports. -/
def commonKeys : List String := ["aliases", "description", "name", "type", "urls"]

/-- The keys of a definition of the given type, from the format specification
(docs/sources/Format-specification.md). -/
def definitionKeys : String → List String
  | "boolean" | "character" | "floating-point" | "integer" | "uuid" => "attributes" :: commonKeys
  | "constant" => "value" :: commonKeys
  | "enumeration" => "values" :: commonKeys
  | "format" => ["attributes", "layout", "metadata"] ++ commonKeys
  | "sequence" | "stream" =>
    ["element_data_type", "elements_data_size", "elements_terminator", "number_of_elements"]
      ++ commonKeys
  | "string" =>
    ["element_data_type", "elements_data_size", "elements_terminator", "encoding",
      "number_of_elements"] ++ commonKeys
  | "structure" | "union" => ["attributes", "members"] ++ commonKeys
  | "structure-family" => ["base", "members"] ++ commonKeys
  | "structure-group" => ["base", "default", "identifier", "members"] ++ commonKeys
  | _ => commonKeys

/-- The keys every member definition supports. -/
def commonMemberKeys : List String :=
  ["aliases", "condition", "data_type", "description", "name", "type", "value", "values"]

/-- The keys of a member definition with the given type. -/
def memberKeys : Yaml → List String
  | .str "padding" => "alignment_size" :: commonMemberKeys
  | .str "sequence" | .str "stream" =>
    ["element_data_type", "elements_data_size", "elements_terminator", "number_of_elements"]
      ++ commonMemberKeys
  | .str "string" =>
    ["element_data_type", "elements_data_size", "elements_terminator", "encoding",
      "number_of_elements"] ++ commonMemberKeys
  | .str "union" => definitionKeys "union"
  | _ => commonMemberKeys

/-- The attributes of a definition of the given type. -/
def attributeKeys : String → List String
  | "boolean" => ["byte_order", "false_value", "size", "true_value", "units"]
  | "character" | "floating-point" | "uuid" => ["byte_order", "size", "units"]
  | "integer" => ["byte_order", "format", "size", "units"]
  | "format" | "structure" | "union" => ["byte_order"]
  | _ => []

/-- A key that is not in the list, of a mapping. -/
def UnknownKey (supported : List String) (es : List (Key × Yaml)) : Prop :=
  ∃ e ∈ es, ∀ s ∈ supported, e.1 ≠ .str s

/-- A member definition with an unknown key or attribute, or with a member that
has one. -/
inductive UnknownInMember : List (Key × Yaml) → Prop
  | key {es : List (Key × Yaml)} (h : UnknownKey (memberKeys (entry es "type")) es) :
      UnknownInMember es
  | attr {es as : List (Key × Yaml)} {ty : String} (ht : entry es "type" = .str ty)
      (ha : entry es "attributes" = .map as) (h : UnknownKey (attributeKeys ty) as) :
      UnknownInMember es
  | member {es ms : List (Key × Yaml)} {items : List Yaml} (ht : entry es "type" = .str "union")
      (hi : entry es "members" = .list items) (hm : .map ms ∈ items)
      (hs : (entry ms "section").truthy = false) (h : UnknownInMember ms) : UnknownInMember es

/-- A document with an unknown key or attribute, in the definition, one of its
members or an element of its layout. -/
inductive Unknown : Yaml → Prop
  | key {es : List (Key × Yaml)} {ty : String} (ht : entry es "type" = .str ty)
      (h : UnknownKey (definitionKeys ty) es) : Unknown (.map es)
  | attr {es as : List (Key × Yaml)} {ty : String} (ht : entry es "type" = .str ty)
      (ha : entry es "attributes" = .map as) (h : UnknownKey (attributeKeys ty) as) :
      Unknown (.map es)
  | member {es ms : List (Key × Yaml)} {items : List Yaml}
      (ht : entry es "type" = .str "structure" ∨ entry es "type" = .str "union")
      (hi : entry es "members" = .list items) (hm : .map ms ∈ items)
      (hs : (entry ms "section").truthy = false) (h : UnknownInMember ms) : Unknown (.map es)
  | layout {es ls : List (Key × Yaml)} {items : List Yaml} (ht : entry es "type" = .str "format")
      (hi : entry es "layout" = .list items) (hm : .map ls ∈ items)
      (h : UnknownKey ["data_type", "offset"] ls) : Unknown (.map es)

end Spec
open Spec

theorem keysIn_known {sup sup' : List String} {es : List (Key × Yaml)}
    (h : KeysIn sup (.map es)) (hs : ∀ s ∈ sup, s ∈ sup') : ¬ UnknownKey sup' es := by
  rintro ⟨e, he, hu⟩
  obtain ⟨es', h1, h2⟩ := h
  cases h1
  obtain ⟨s, h3, h4⟩ := h2 e he
  exact hu s (hs s h3) h4

theorem attrs_known {sup sup' : List String} {es as : List (Key × Yaml)} {o : Option Order}
    (h : AttrsRead sup es o) (ha : entry es "attributes" = .map as) (hs : ∀ s ∈ sup, s ∈ sup') :
    ¬ UnknownKey sup' as := by
  cases h with
  | absent h =>
    rw [ha] at h
    have : as = [] := by simpa [Yaml.truthy] using h
    subst this
    rintro ⟨e, he, _⟩
    cases he
  | present ht hm hk ho =>
    rw [ha] at hm
    cases hm
    exact keysIn_known hk hs

/-- The text of a type indicator. -/
def TypeInd.text : TypeInd → String
  | .boolean => "boolean"
  | .character => "character"
  | .constant => "constant"
  | .enumeration => "enumeration"
  | .floatingPoint => "floating-point"
  | .format => "format"
  | .integer => "integer"
  | .padding => "padding"
  | .sequence => "sequence"
  | .stream => "stream"
  | .string => "string"
  | .structure => "structure"
  | .family => "structure-family"
  | .group => "structure-group"
  | .union => "union"
  | .uuid => "uuid"

theorem ofString_inv {ty : String} {t : TypeInd} (h : TypeInd.ofString ty = some t) :
    ty = t.text := by
  unfold TypeInd.ofString at h
  split at h <;> cases h <;> rfl

/-- The keys of a mapping that was read as definition or member. -/
theorem readTyped_keys {E : Env} {reg : Registry} {rm : Bool → Yaml → Except Err Defn}
    {ty : String} {t : TypeInd} {mem : Bool} {es : List (Key × Yaml)} {name : String} {x : Defn}
    (ht : TypeInd.ofString ty = some t)
    (hr : readTyped E reg rm t mem (.map es) name = .ok x) :
    ¬ UnknownKey (if mem then memberKeys (.str ty) else definitionKeys ty) es ∧
      ∀ as, entry es "attributes" = .map as → ¬ UnknownKey (attributeKeys ty) as := by
  have hty := ofString_inv ht
  have hfix : ∀ {attrs dflt init sizes h s u},
      readFixed E attrs dflt init sizes mem (.map es) name = .ok (h, s, u) →
      (∀ s ∈ valuesMember, s ∈ memberKeys (.str ty)) →
      (∀ s ∈ valuesStorage, s ∈ definitionKeys ty) →
      (∀ s ∈ attrs, s ∈ attributeKeys ty) →
      ¬ UnknownKey (if mem then memberKeys (.str ty) else definitionKeys ty) es ∧
      ∀ as, entry es "attributes" = .map as → ¬ UnknownKey (attributeKeys ty) as := by
    intro attrs dflt init sizes h s u hf h1 h2 h3
    obtain ⟨es', h0, o, he, hh, ho, -, -⟩ := readFixed_ok hf
    cases he
    refine ⟨?_, fun as has => attrs_known ho has h3⟩
    cases mem
    · exact keysIn_known hh.keys h2
    · exact keysIn_known hh.keys h1
  have hnoattr : ∀ {sup : List String}, KeysIn sup (.map es) → "attributes" ∉ sup →
      ∀ as, entry es "attributes" = .map as → ¬ UnknownKey (attributeKeys ty) as := by
    intro sup hk hn as has
    have := entry_mem (es := es) (k := "attributes") (by rw [has]; simp)
    obtain ⟨es', h1, h2⟩ := hk
    cases h1
    obtain ⟨s, hs, he⟩ := h2 _ this
    cases he
    exact absurd hs hn
  have hel : ∀ {m sup h i e}, ElementsRead E reg (if mem then m else sup) es name h i e →
      (∀ s ∈ m, s ∈ memberKeys (.str ty)) → (∀ s ∈ sup, s ∈ definitionKeys ty) →
      "attributes" ∉ m → "attributes" ∉ sup →
      ¬ UnknownKey (if mem then memberKeys (.str ty) else definitionKeys ty) es ∧
      ∀ as, entry es "attributes" = .map as → ¬ UnknownKey (attributeKeys ty) as := by
    intro m sup h i e he h1 h2 h3 h4
    obtain ⟨h0, hh, _⟩ := he.hdr
    cases mem
    · exact ⟨keysIn_known hh.keys h2, hnoattr hh.keys h4⟩
    · exact ⟨keysIn_known hh.keys h1, hnoattr hh.keys h3⟩
  cases t with
  | boolean =>
    subst hty
    simp only [readTyped, readBoolean, bind_ok, Except.ok.injEq] at hr
    obtain ⟨⟨h, s, u⟩, hf, rfl⟩ := hr
    exact hfix hf (by decide) (by decide) (by decide)
  | character =>
    subst hty
    simp only [readTyped, readCharacter, bind_ok, Except.ok.injEq] at hr
    obtain ⟨⟨h, s, u⟩, hf, rfl⟩ := hr
    exact hfix hf (by decide) (by decide) (by decide)
  | floatingPoint =>
    subst hty
    simp only [readTyped, readFloat, bind_ok, Except.ok.injEq] at hr
    obtain ⟨⟨h, s, u⟩, hf, rfl⟩ := hr
    exact hfix hf (by decide) (by decide) (by decide)
  | uuid =>
    subst hty
    simp only [readTyped, readUuid, bind_ok, Except.ok.injEq] at hr
    obtain ⟨⟨h, s, u⟩, hf, rfl⟩ := hr
    exact hfix hf (by decide) (by decide) (by decide)
  | integer =>
    subst hty
    simp only [readTyped, readInteger, bind_ok] at hr
    obtain ⟨⟨h, s, u⟩, hf, -⟩ := hr
    exact hfix hf (by decide) (by decide) (by decide)
  | constant =>
    subst hty
    simp only [readTyped] at hr
    obtain ⟨rfl, es', h, he, hh, -, -⟩ := readConstant_ok hr
    exact ⟨keysIn_known hh.keys (by decide), hnoattr hh.keys (by decide)⟩
  | enumeration =>
    subst hty
    simp only [readTyped] at hr
    obtain ⟨rfl, es', h, items, cs, he, hh, -⟩ := readEnumeration_ok hr
    exact ⟨keysIn_known hh.keys (by decide), hnoattr hh.keys (by decide)⟩
  | format =>
    subst hty
    simp only [readTyped] at hr
    obtain ⟨rfl, es', h, items, l, o, he, hh, -, -, ho, -⟩ := readFormat_ok hr
    cases he
    exact ⟨keysIn_known hh.keys (by decide), fun as has => attrs_known ho has (by decide)⟩
  | padding =>
    subst hty
    simp only [readTyped] at hr
    obtain ⟨rfl, es', h, a, he, hh, -⟩ := readPadding_ok hr
    exact ⟨keysIn_known hh.keys (by decide), hnoattr hh.keys (by decide)⟩
  | sequence =>
    subst hty
    simp only [readTyped, readSequence] at hr
    obtain ⟨es', h, i, e, he, -, -, hel'⟩ := readElements_ok hr
    cases he
    exact hel hel' (by decide) (by decide) (by decide) (by decide)
  | stream =>
    subst hty
    simp only [readTyped, readStream] at hr
    obtain ⟨es', h, i, e, he, -, -, hel'⟩ := readElements_ok hr
    cases he
    exact hel hel' (by decide) (by decide) (by decide) (by decide)
  | string =>
    subst hty
    simp only [readTyped] at hr
    obtain ⟨es', h, i, e, enc, he, -, -, -, -, hel'⟩ := readString_ok hr
    cases he
    exact hel hel' (by decide) (by decide) (by decide) (by decide)
  | «structure» =>
    subst hty
    simp only [readTyped, guard_ok, Bool.not_eq_true] at hr
    obtain ⟨rfl, hr⟩ := hr
    obtain ⟨es', h, h0, o, items, ds, he, hh, ho, -⟩ := readWithMembers_ok hr
    cases he
    exact ⟨keysIn_known hh.keys (by decide), fun as has => attrs_known ho has (by decide)⟩
  | union =>
    subst hty
    simp only [readTyped] at hr
    obtain ⟨es', h, h0, o, items, ds, he, hh, ho, -⟩ := readWithMembers_ok hr
    cases he
    refine ⟨?_, fun as has => attrs_known ho has (by decide)⟩
    cases mem
    · exact keysIn_known hh.keys (by decide)
    · exact keysIn_known hh.keys (by decide)
  | family =>
    subst hty
    simp only [readTyped] at hr
    obtain ⟨rfl, es', h, b, base, items, ds, he, hh, -⟩ := readFamily_ok hr
    exact ⟨keysIn_known hh.keys (by decide), hnoattr hh.keys (by decide)⟩
  | group =>
    subst hty
    simp only [readTyped] at hr
    obtain ⟨rfl, es', h, h0, b, base, i, df, items, ds, he, hh, -⟩ := readGroup_ok hr
    exact ⟨keysIn_known hh.keys (by decide), hnoattr hh.keys (by decide)⟩

theorem membersRead_of_mem {rm : Yaml → Except Err Defn} {ms : List Yaml} {ds : List Defn}
    (h : MembersRead rm ms ds) {es : List (Key × Yaml)} (hm : .map es ∈ ms)
    (hs : (entry es "section").truthy = false) : ∃ x, rm (.map es) = .ok x := by
  induction h with
  | nil => cases hm
  | sect hs' h ih =>
    rcases List.mem_cons.mp hm with h | hm
    · cases h; rw [hs] at hs'; cases hs'
    · exact ih hm
  | member hs' hd h ih =>
    rcases List.mem_cons.mp hm with h | hm
    · cases h; exact ⟨_, hd⟩
    · exact ih hm

theorem withMembers_read {rm : Yaml → Except Err Defn} {u : Bool} {es ms : List (Key × Yaml)}
    {name : String} {x : Defn} {items : List Yaml}
    (hr : readWithMembers rm u (.map es) name = .ok x) (hi : entry es "members" = .list items)
    (hm : .map ms ∈ items) (hs : (entry ms "section").truthy = false) :
    ∃ y, rm (.map ms) = .ok y := by
  obtain ⟨es', h, h0, o, items', ds, he, -, -, -, -, hi', hmr, -, -⟩ := readWithMembers_ok hr
  cases he
  rw [hi] at hi'
  cases hi'
  exact membersRead_of_mem hmr hm hs

theorem member_known {E : Env} {reg : Registry} {es : List (Key × Yaml)} (h : UnknownInMember es)
    (fuel : Nat) (c : Bool) (x : Defn) : readMember E reg fuel c (.map es) ≠ .ok x := by
  intro hr
  induction h generalizing fuel c x with
  | @key es h =>
    cases fuel with
    | zero => cases hr
    | succ fuel =>
      obtain ⟨es', he, hrd⟩ := readMember_ok hr
      cases he
      obtain ⟨nm, -, -, sv, cond, -, -, hx⟩ := hrd.name
      rcases hx with ⟨ty, t, inner, hty, ht, -, hin, -⟩ | ⟨dt, inner, hd, -, hty, -, hk, -, -⟩
      · rw [hty] at h
        exact (readTyped_keys ht hin).1 h
      · rw [hty] at h
        exact keysIn_known hk (by decide) h
  | @attr es as ty ht ha h =>
    cases fuel with
    | zero => cases hr
    | succ fuel =>
      obtain ⟨es', he, hrd⟩ := readMember_ok hr
      cases he
      obtain ⟨nm, -, -, sv, cond, -, -, hx⟩ := hrd.name
      rcases hx with ⟨ty', t, inner, hty, ht', -, hin, -⟩ | ⟨dt, inner, hd, -, hty, -, hk, -, -⟩
      · rw [ht] at hty
        cases hty
        exact (readTyped_keys ht' hin).2 as ha h
      · rw [ht] at hty
        cases hty
  | @member es ms items ht hi hm hs h ih =>
    cases fuel with
    | zero => cases hr
    | succ fuel =>
      obtain ⟨es', he, hrd⟩ := readMember_ok hr
      cases he
      obtain ⟨nm, -, -, sv, cond, -, -, hx⟩ := hrd.name
      rcases hx with ⟨ty', t, inner, hty, ht', -, hin, -⟩ | ⟨dt, inner, hd, -, hty, -, hk, -, -⟩
      · rw [ht] at hty
        cases hty
        have : t = .union := by simpa [TypeInd.ofString] using ht'.symm
        subst this
        simp only [readTyped] at hin
        obtain ⟨y, hy⟩ := withMembers_read hin hi hm hs
        exact ih _ _ _ hy
      · rw [ht] at hty
        cases hty

/-- **C43** A document with a key or attribute that is not supported for its type,
in the definition itself, one of its members or an element of its layout, is
never read as a definition. -/
theorem C43_unknown_rejected (E : Env) (reg : Registry) (d : Yaml) (h : Unknown d) (x : Defn) :
    readDefinition E reg d ≠ .ok x := by
  intro hr
  obtain ⟨es, nm, ty, t, rfl, -, -, hty, ht, hr⟩ := readDefinition_ok hr
  cases h with
  | key ht' hk =>
    rw [hty] at ht'
    cases ht'
    exact (readTyped_keys ht hr).1 hk
  | attr ht' ha hk =>
    rw [hty] at ht'
    cases ht'
    exact (readTyped_keys ht hr).2 _ ha hk
  | member ht' hi hm hs hu =>
    rcases ht' with ht' | ht'
    · rw [hty] at ht'
      cases ht'
      have : t = .structure := by simpa [TypeInd.ofString] using ht.symm
      subst this
      simp only [readTyped, guard_ok] at hr
      obtain ⟨y, hy⟩ := withMembers_read hr.2 hi hm hs
      exact member_known hu _ _ _ hy
    · rw [hty] at ht'
      cases ht'
      have : t = .union := by simpa [TypeInd.ofString] using ht.symm
      subst this
      simp only [readTyped] at hr
      obtain ⟨y, hy⟩ := withMembers_read hr hi hm hs
      exact member_known hu _ _ _ hy
  | layout ht' hi hm hk =>
    rw [hty] at ht'
    cases ht'
    have : t = .format := by simpa [TypeInd.ofString] using ht.symm
    subst this
    simp only [readTyped] at hr
    obtain ⟨-, es', h, items, l, o, he, -, hi', hl, -⟩ := readFormat_ok hr
    cases he
    have : entryD es "layout" (.list []) = entry es "layout" := by
      unfold entry entryD at hi ⊢
      cases hf : es.find? (·.1 == .str "layout") with
      | none => rw [hf] at hi; cases hi
      | some p => rfl
    rw [this, hi] at hi'
    cases hi'
    have hl' : ∀ {ys : List Yaml} {l}, LayoutRead ys l → ∀ ls, Yaml.map ls ∈ ys →
        ¬ UnknownKey ["data_type", "offset"] ls := by
      intro ys l hl
      induction hl with
      | nil => intro ls h; cases h
      | cons hn he hk ho h ih =>
        intro ls hls
        rcases List.mem_cons.mp hls with h | hls
        · cases h; exact keysIn_known hk (by decide)
        · exact ih ls hls
    exact hl' hl _ hm hk

/-- A document with an unknown key in a member: an encoding for a stream. -/
example : Unknown (doc [("name", .str "t"), ("type", .str "structure"), ("members", .list [
    doc [("name", .str "a"), ("data_type", .str "u8")],
    doc [("name", .str "b"), ("type", .str "stream"), ("element_data_type", .str "u8"),
      ("elements_data_size", .int 4), ("encoding", .str "ascii")]])]) :=
  .member (.inl rfl) rfl (List.mem_cons_of_mem _ List.mem_cons_self) rfl
    (.key ⟨(.str "encoding", .str "ascii"), by simp, by decide⟩)

/-- An attribute that integers have but floating-points do not. -/
example : Unknown (doc [("name", .str "t"), ("type", .str "floating-point"),
    ("attributes", doc [("size", .int 4), ("format", .str "signed")])]) :=
  .attr rfl rfl ⟨(.str "format", .str "signed"), by simp, by decide⟩

namespace Spec

/-- The values of an enumeration agree on the keys that matter. -/
def SameEnumValues : List Yaml → List Yaml → Prop :=
  All2 fun v w => ∃ es fs, v = .map es ∧ w = .map fs ∧
    ∀ k ∈ ["aliases", "name", "number"], entry es k = entry fs k

end Spec

theorem addValues_same {vs ws : List Yaml} (h : SameEnumValues vs ws) (b : EnumBuilder) :
    addValues b vs = addValues b ws := by
  induction h generalizing b with
  | nil => rfl
  | cons h t ih =>
    obtain ⟨es, fs, rfl, rfl, he⟩ := h
    simp only [addValues, get_map, he "aliases" (by decide), he "name" (by decide),
      he "number" (by decide), ih]

/-- **C43** The keys of enumeration values are not checked: values that differ
only in other keys than `aliases`, `name` and `number` give the same definition. -/
theorem C43_enumeration_unchecked (E : Env) (reg : Registry) (name : String) (vs ws : List Yaml)
    (h : SameEnumValues vs ws) :
    readDefinition E reg (doc [("name", .str name), ("type", .str "enumeration"),
      ("values", .list vs)]) =
    readDefinition E reg (doc [("name", .str name), ("type", .str "enumeration"),
      ("values", .list ws)]) := by
  have he : ∀ vs : List Yaml, readDefinition E reg (doc [("name", .str name),
      ("type", .str "enumeration"), ("values", .list vs)]) =
      if name = "" then .error .reader else if vs = [] then .error .reader else
        (addValues {} vs).map fun b => .enumeration { name := name } b.values := by
    intro vs
    by_cases hn : name = ""
    · subst hn; rfl
    · cases vs with
      | nil =>
        simp [readDefinition, doc, Yaml.truthy, hn, entry, entryD, Yaml.text, callback,
          Yaml.hashable, TypeInd.ofString, readTyped, readEnumeration, bind, Except.bind]
      | cons v vs =>
        simp [readDefinition, doc, Yaml.truthy, hn, entry, entryD, Yaml.text, callback,
          Yaml.hashable, TypeInd.ofString, readTyped, readEnumeration, bind, Except.bind,
          Yaml.iter, readHdr, checkKeys, Yaml.keys, valuesEnumeration, valuesDataType, Yaml.names,
          Yaml.text?]
        generalize addValues {} (v :: vs) = r
        cases r <;> rfl
  rw [he vs, he ws, addValues_same h]
  have : (vs = []) = (ws = []) := by cases h <;> simp
  simp only [this]

end Dtf
