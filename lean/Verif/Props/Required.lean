import Verif.Props.Defaults
/-!
# Property C99: an accepted document has what the format specification requires
-/
namespace Dtf

namespace Spec

/-- The attributes required of a definition of the type, besides `name` and
`type` (docs/sources/Format-specification.md:199-271, 293, 385, 419, 493, 541). -/
def requiredKeys : String → List String
  | "sequence" | "stream" => ["element_data_type"]
  | "string" => ["element_data_type", "encoding"]
  | "structure" | "union" => ["members"]
  | "padding" => ["alignment_size"]
  | "constant" => ["value"]
  | "enumeration" => ["values"]
  | "format" => ["layout"]
  | "structure-family" => ["base", "members"]
  | "structure-group" => ["base", "identifier", "members"]
  | _ => []

/-- What is required of the attributes of a type. -/
structure TypeRequired (ty : String) (es : List (Key × Yaml)) : Prop where
  /-- The required attributes are set. -/
  keys : ∀ k ∈ requiredKeys ty, entry es k ≠ .null
  /-- At least one of the attributes on the elements is set; the terminator can be
  combined with one of the others. -/
  elements : ty ∈ ["sequence", "stream", "string"] →
    (entry es "elements_data_size" ≠ .null ∨ entry es "elements_terminator" ≠ .null ∨
      entry es "number_of_elements" ≠ .null) ∧
    (entry es "elements_data_size" = .null ∨ entry es "number_of_elements" = .null)
  /-- The supported alignments. -/
  alignment : ty = "padding" → entry es "alignment_size" ∈ [.int 2, .int 4, .int 8, .int 16]
  /-- Values of enumerations have a name and a number. -/
  values : ty = "enumeration" → ∀ l, Items (entry es "values") l → ∀ y ∈ l, ∃ vs, y = .map vs ∧
    entry vs "name" ≠ .null ∧ entry vs "number" ≠ .null

/-- What is required of a member of a structure or union
(docs/sources/Format-specification.md:312-332). A mapping with the key `section`
is no member. -/
inductive MemberRequired : Yaml → Prop
  | sect {es : List (Key × Yaml)} (h : ¬ NoValue (entry es "section")) : MemberRequired (.map es)
  | member {es : List (Key × Yaml)}
      (name : entry es "name" ≠ .null ∨ entry es "type" = .str "union")
      (one : (entry es "data_type" = .null ∧ entry es "type" ≠ .null) ∨
        (entry es "data_type" ≠ .null ∧ entry es "type" = .null))
      (value : entry es "value" = .null ∨ entry es "values" = .null)
      (type : ∀ ty, entry es "type" = .str ty →
        ty ∉ ["constant", "enumeration", "format", "structure"] ∧ TypeRequired ty es)
      (nested : entry es "type" = .str "union" → ∀ l, Items (entry es "members") l →
        ∀ m ∈ l, MemberRequired m) : MemberRequired (.map es)

end Spec
open Spec

theorem items_unique {y : Yaml} {l l' : List Yaml} (h : Items y l) (h' : Items y l') : l = l' := by
  have h1 := items_iff.mp h
  rw [items_iff.mp h'] at h1
  cases h1; rfl

theorem noValue_null {y : Yaml} (h : ¬ NoValue y) : y ≠ .null := by
  rintro rfl
  exact h .null

theorem str_null {y : Yaml} {s : String} (h : y = .str s) : y ≠ .null := by
  rw [h]; nofun

theorem all2_some {α β : Type} {R : α → β → Prop} {as : List α} {bs : List β} (h : All2 R as bs) {a : α}
    (ha : a ∈ as) : ∃ b, R a b := by
  induction h with
  | nil => cases ha
  | cons hr _ ih =>
    rcases List.mem_cons.mp ha with rfl | ha
    · exact ⟨_, hr⟩
    · exact ih ha

theorem elementRules_required {E : Env} {look : String → Option Defn} {es : List (Key × Yaml)} {i : SeqInfo}
    {e : Defn} (h : ElementRules E look es i e) : entry es "element_data_type" ≠ .null := by
  obtain ⟨n, hn, -⟩ := h.element
  exact str_null hn

/-- A definition that is no format has what its type requires. -/
theorem typed_required {E : Env} {look : String → Option Defn} {rm : Bool → Yaml → Defn → Prop}
    {mem : Bool} {name : String} {es : List (Key × Yaml)} {ty : String} {x : Defn}
    (h : OfType E look rm mem name es ty x) (hf : ty ≠ "format") : TypeRequired ty es := by
  have none : ∀ {ty}, requiredKeys ty = [] → ty ∉ ["sequence", "stream", "string"] → ty ≠ "padding" →
      ty ≠ "enumeration" → TypeRequired ty es := fun h1 h2 h3 h4 =>
    ⟨fun k hk => (by rw [h1] at hk; cases hk), fun h => absurd h h2, fun h => absurd h h3,
      fun h => absurd h h4⟩
  cases h with
  | primitive ha ho hh hk hs hu =>
    cases hk <;> exact none rfl (by decide) (by decide) (by decide)
  | uuid ha ho hh hs hu => exact none rfl (by decide) (by decide) (by decide)
  | @padding _ _ _ _ a hm hh ha hs =>
    refine ⟨?_, by simp, fun _ => ?_, by simp⟩
    · intro k hk
      cases List.mem_singleton.mp hk
      rw [ha]; nofun
    · rw [ha]
      simp only [List.mem_cons, List.not_mem_nil, or_false] at hs ⊢
      rcases hs with rfl | rfl | rfl | rfl <;> simp
  | sequence hk he hh =>
    refine ⟨?_, fun _ => ⟨he.some_rule, he.not_both⟩, by simp, by simp⟩
    intro k hk
    cases List.mem_singleton.mp hk
    exact elementRules_required he
  | stream hk he hh =>
    refine ⟨?_, fun _ => ⟨he.some_rule, he.not_both⟩, by simp, by simp⟩
    intro k hk
    cases List.mem_singleton.mp hk
    exact elementRules_required he
  | string hk hc hn he hh =>
    refine ⟨?_, fun _ => ⟨he.some_rule, he.not_both⟩, by simp, by simp⟩
    intro k hk
    simp only [requiredKeys, List.mem_cons, List.not_mem_nil, or_false] at hk
    rcases hk with rfl | rfl
    · exact elementRules_required he
    · exact str_null hc
  | «structure» hm ha ho hh ht hi hl hd =>
    refine ⟨?_, by simp, by simp, by simp⟩
    intro k hk
    cases List.mem_singleton.mp hk
    exact noValue_null ht
  | union ha ho hh ht hi hl hd =>
    refine ⟨?_, by simp, by simp, by simp⟩
    intro k hk
    cases List.mem_singleton.mp hk
    exact noValue_null ht
  | constant hm hh hv hl =>
    refine ⟨?_, by simp, by simp, by simp⟩
    intro k hk
    cases List.mem_singleton.mp hk
    exact hv
  | enumeration hm hh ht hi hv hd =>
    refine ⟨?_, by simp, by simp, fun _ l hl y hy => ?_⟩
    · intro k hk
      cases List.mem_singleton.mp hk
      exact noValue_null ht
    · cases items_unique hi hl
      obtain ⟨v, hv⟩ := all2_some hv hy
      cases hv with
      | mk hn he hnum hl hh ha => exact ⟨_, rfl, str_null hn, hnum⟩
  | format => exact absurd rfl hf
  | family hm hh hb hbt ht hi hl hd =>
    refine ⟨?_, by simp, by simp, by simp⟩
    intro k hk
    simp only [requiredKeys, List.mem_cons, List.not_mem_nil, or_false] at hk
    rcases hk with rfl | rfl
    · exact noValue_null hbt
    · exact noValue_null ht
  | group hm hh hb hbt hid hin hdf ht hi hl hd hx =>
    refine ⟨?_, by simp, by simp, by simp⟩
    intro k hk
    simp only [requiredKeys, List.mem_cons, List.not_mem_nil, or_false] at hk
    rcases hk with rfl | rfl | rfl
    · exact noValue_null hbt
    · exact str_null hid
    · exact noValue_null ht

theorem memberList_required {rm : Yaml → Defn → Prop} {l : List Yaml} {ds : List Defn}
    (h : MemberList rm l ds) (hr : ∀ m ∈ l, ∀ x, rm m x → MemberRequired m) : ∀ m ∈ l, MemberRequired m := by
  induction h with
  | nil => nofun
  | sect hs he h ih =>
    intro m hm
    rcases List.mem_cons.mp hm with rfl | hm
    · refine .sect ?_
      rw [hs]
      intro h
      cases h
      exact he rfl
    · exact ih (fun m hm => hr m (List.mem_cons_of_mem _ hm)) m hm
  | member hs hd h ih =>
    intro m hm
    rcases List.mem_cons.mp hm with rfl | hm
    · exact hr _ (List.mem_cons_self ..) _ hd
    · exact ih (fun m hm => hr m (List.mem_cons_of_mem _ hm)) m hm

theorem member_required {E : Env} {look : String → Option Defn} (n : Nat) : ∀ (c : Bool) (m : Yaml) (x : Defn),
    m.depth ≤ n → Member E look c m x → MemberRequired m := by
  induction n with
  | zero =>
    intro c m x hn
    have := depth_pos m
    omega
  | succ n ih =>
    intro c m x hn h
    cases h with
    | @typed _ es name ty inner cond sv hnm hty hdt hc hcc hv hk hi =>
      refine .member ?_ (.inl ⟨hdt, str_null hty⟩) (supportedBy_one hv) ?_ ?_
      · rcases hnm with ⟨h, -⟩ | ⟨-, -, rfl⟩
        · exact .inl (str_null h)
        · exact .inr hty
      · intro ty' hty'
        rw [hty] at hty'
        cases hty'
        have hmem : ty ∉ ["constant", "enumeration", "format", "structure"] := by
          generalize hb : true = b at hi
          cases hi with
          | primitive ha ho hh hk hs hu => cases hk <;> decide
          | «structure» hm => rw [hm] at hb; cases hb
          | constant hm => rw [hm] at hb; cases hb
          | enumeration hm => rw [hm] at hb; cases hb
          | format hm => rw [hm] at hb; cases hb
          | _ => decide
        refine ⟨hmem, typed_required hi ?_⟩
        rintro rfl
        exact hmem (by decide)
      · intro hu l hl
        rw [hty] at hu
        cases hu
        generalize hT : "union" = T at hi
        cases hi with
        | union ha ho hh ht hi hl' hd =>
          cases items_unique hi hl
          refine memberList_required hl' fun m hm x hx => ih _ m x ?_ hx
          have := members_depth (items_iff.mp hi) hm
          omega
        | primitive ha ho hh hk hs hu => cases hk <;> simp at hT
        | _ => simp at hT
    | @reference _ es name dt h inner cond sv hnm hty hdt hc hcc hv hk hi hh =>
      exact .member (.inl (str_null hnm.1)) (.inr ⟨str_null hdt, hty⟩) (supportedBy_one hv)
        (fun ty h => by rw [hty] at h; cases h) (fun h => by rw [hty] at h; cases h)

/-- **C99**: an accepted document has the attributes its type requires. Missing:
the layout of formats, see below. -/
theorem C99_required_partial (E : Env) (reg : Registry) (es : List (Key × Yaml)) (x : Defn)
    (hx : readDefinition E reg (.map es) = .ok x) :
    entry es "name" ≠ .null ∧ ∃ ty, entry es "type" = .str ty ∧ (ty ≠ "format" → TypeRequired ty es) := by
  obtain ⟨es', name, ty, he, hn, -, hty, -, h⟩ := (C54_document E reg _ x).mp hx
  cases he
  exact ⟨str_null hn, ty, hty, typed_required h⟩

/-- **C99**, the members of a structure or union. -/
theorem C99_members (E : Env) (reg : Registry) (es : List (Key × Yaml)) (x : Defn) (ty : String)
    (hty : entry es "type" = .str ty) (hu : ty ∈ ["structure", "union"])
    (hx : readDefinition E reg (.map es) = .ok x) :
    ∃ l, Items (entry es "members") l ∧ ∀ m ∈ l, MemberRequired m := by
  obtain ⟨es', name, ty', he, hn, -, hty', -, h⟩ := (C54_document E reg _ x).mp hx
  cases he
  rw [hty] at hty'
  cases hty'
  cases h with
  | «structure» hm ha ho hh ht hi hl hd =>
    exact ⟨_, hi, memberList_required hl fun m _ x hx => member_required _ _ m x (Nat.le_refl _) hx⟩
  | union ha ho hh ht hi hl hd =>
    exact ⟨_, hi, memberList_required hl fun m _ x hx => member_required _ _ m x (Nat.le_refl _) hx⟩
  | primitive ha ho hh hk hs hu' => cases hk <;> simp at hu
  | _ => simp at hu

/-- A structure with a section and a nameless union, whose two members are a
sequence of its own and a reference. -/
def exNested : List (Key × Yaml) := [(.str "name", .str "s"), (.str "type", .str "structure"),
  (.str "members", .list [doc [("section", .str "first")],
    doc [("type", .str "union"), ("members", .list [
      doc [("name", .str "a"), ("type", .str "sequence"), ("element_data_type", .str "u8"), ("number_of_elements", .int 2)],
      doc [("name", .str "b"), ("data_type", .str "u8")]])]])]

example : (readDefinition exEnvR ({ definitions := [("u8", exU8r)] } : Registry) (.map exNested)).toOption.isSome = true ∧
    entry exNested "type" = .str "structure" ∧
    ¬ MemberRequired (doc [("name", .str "a"), ("type", .str "sequence"), ("element_data_type", .str "u8")]) := by
  refine ⟨rfl, rfl, ?_⟩
  intro h
  cases h with
  | sect h => exact h .null
  | member name one value type nested =>
    rcases ((type "sequence" rfl).2.elements (by decide)).1 with h | h | h <;> exact h rfl

/-- The layout of a format is required (docs/sources/Format-specification.md:468),
and a format without one is accepted. -/
theorem C99_layout_refuted :
    let es : List (Key × Yaml) := [(.str "name", .str "f"), (.str "type", .str "format")]
    readDefinition exEnvR {} (.map es) = .ok (.format { name := "f" } none []) ∧ ¬ TypeRequired "format" es :=
  ⟨rfl, fun h => h.keys "layout" (by decide) rfl⟩

/-- Padding is only supported in structures (docs/sources/Format-specification.md:33),
and a union with padding is accepted. -/
theorem C99_padding_refuted :
    readDefinition exEnvR {} (doc [("name", .str "u"), ("type", .str "union"), ("members", .list [
      doc [("name", .str "p"), ("type", .str "padding"), ("alignment_size", .int 4)]])]) =
    .ok (.union { name := "u" } [.padding { name := "p" } (some 4)]) :=
  rfl

/-- A structure with one member. -/
def exMarked : Defn := .struct { name := "t" } [.member { name := "a" } exU8r none (some "u8") none]

/-- The base of a group must be a structure with the identifier as member
(docs/sources/Format-specification.md:543-546), and a group with an integer as base
is accepted. -/
theorem C99_group_refuted :
    readDefinition exEnvR { definitions := [("u8", exU8r), ("t", exMarked)] }
      (doc [("name", .str "g"), ("type", .str "structure-group"), ("base", .str "u8"),
        ("identifier", .str "a"), ("members", .list [.str "t"])]) =
    .ok (.group { name := "g", order := exU8r.orderOrNative } exU8r "a" none [exMarked]) :=
  rfl

end Dtf
