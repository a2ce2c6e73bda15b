import Verif.Props.ReaderKeys
/-!
# Property C45: errors of the reader
-/
namespace Dtf

namespace Spec

/-- Wherever the mapping has the key, the value satisfies `P`. -/
def Field (es : List (Key × Yaml)) (k : String) (P : Yaml → Prop) : Prop :=
  ∀ v, (Key.str k, v) ∈ es → P v

/-- The value types of the format specification. -/
def IsText (y : Yaml) : Prop := ∃ s, y = .str s
def IsInt (y : Yaml) : Prop := ∃ i, y = .int i
def IsIntOrText (y : Yaml) : Prop := IsInt y ∨ IsText y
def IsTexts (y : Yaml) : Prop := ∃ l, y = .list l ∧ ∀ v ∈ l, IsText v
def IsIntOrTexts (y : Yaml) : Prop := ∃ l, y = .list l ∧ ∀ v ∈ l, IsIntOrText v

/-- Text whose characters are all below a limit. -/
def Below (limit : Nat) (y : Yaml) : Prop := ∀ s, y = .str s → ∀ c ∈ s.toList, c.toNat < limit

def TextKeys (es : List (Key × Yaml)) : Prop := ∀ e ∈ es, ∃ s, e.1 = .str s

def IsAttributes (y : Yaml) : Prop :=
  ∃ as, y = .map as ∧ TextKeys as ∧ Field as "byte_order" IsText ∧ Field as "size" IsIntOrText ∧
    Field as "units" IsText ∧ Field as "format" IsText

/-- The keys definitions and members have in common. -/
structure TypedCommon (es : List (Key × Yaml)) : Prop where
  keys : TextKeys es
  aliases : Field es "aliases" IsTexts
  description : Field es "description" IsText
  name : Field es "name" IsText
  type : Field es "type" IsText
  attributes : Field es "attributes" IsAttributes
  element : Field es "element_data_type" IsText
  size : Field es "elements_data_size" IsIntOrText
  number : Field es "number_of_elements" IsIntOrText
  terminator : Field es "elements_terminator" IsIntOrText
  encoding : Field es "encoding" IsText

/-- An entry of a member list that is a member without a name. -/
def nameless : Yaml → Bool
  | .map es => !(entry es "section").truthy && !(entry es "name").truthy
  | _ => false

/-- A member list entry: a section or a member definition. -/
inductive TypedMember : Yaml → Prop
  | sect {es : List (Key × Yaml)} {s : String} (h : entry es "section" = .str s) (hs : s ≠ "") :
      TypedMember (.map es)
  | member {es : List (Key × Yaml)} (hs : entry es "section" = .null) (hc : TypedCommon es)
      (hn : Field es "name" (· ≠ .str ""))
      (hcond : Field es "condition" IsText) (hdt : Field es "data_type" IsText)
      (hv : Field es "value" IsIntOrText) (hvs : Field es "values" IsIntOrTexts)
      (ha : Field es "alignment_size" IsInt)
      (hl : Field es "members" fun y => ∃ l, y = .list l)
      (hm : ∀ l m, (Key.str "members", Yaml.list l) ∈ es → m ∈ l → TypedMember m) :
      TypedMember (.map es)

def IsEnumValue (y : Yaml) : Prop :=
  ∃ es, y = .map es ∧ Field es "aliases" IsTexts ∧ Field es "name" IsText ∧ Field es "number" IsInt

def IsLayoutElement (y : Yaml) : Prop :=
  ∃ es, y = .map es ∧ TextKeys es ∧ Field es "data_type" IsText ∧ Field es "offset" IsInt

/-- A document whose values have the types the format specification prescribes. -/
structure TypedDoc (es : List (Key × Yaml)) : Prop where
  common : TypedCommon es
  base : Field es "base" IsText
  dflt : Field es "default" IsText
  identifier : Field es "identifier" IsText
  layout : Field es "layout" fun y => ∃ l, y = .list l ∧ ∀ v ∈ l, IsLayoutElement v
  values : entry es "type" = .str "enumeration" →
    Field es "values" fun y => ∃ l, y = .list l ∧ ∀ v ∈ l, IsEnumValue v
  members : Field es "members" fun y => ∃ l, y = .list l ∧
    (entry es "type" = .str "structure" ∨ entry es "type" = .str "union" → ∀ m ∈ l, TypedMember m) ∧
    (entry es "type" = .str "structure-family" ∨ entry es "type" = .str "structure-group" →
      ∀ m ∈ l, IsText m)

/-- The document, or nothing. -/
def Typed (d : Yaml) : Prop := d = .null ∨ ∃ es, d = .map es ∧ TypedDoc es

/-- What the reader does not check (see the refutations): terminators are ASCII,
supported values Latin-1 and no member list has two members without a name. -/
structure Checked (d : Yaml) : Prop where
  terminator : ∀ es, Within (.map es) d → Field es "elements_terminator" (Below 128)
  value : ∀ es, Within (.map es) d → Field es "value" (Below 256)
  values : ∀ es, Within (.map es) d → Field es "values" fun y =>
    ∀ l, y = .list l → ∀ v ∈ l, Below 256 v
  nameless : ∀ es, Within (.map es) d → Field es "members" fun y =>
    ∀ l, y = .list l → (l.filter nameless).length ≤ 1

/-- The members a structure group names have members themselves. -/
def GroupChecked (E : Env) (reg : Registry) (d : Yaml) : Prop :=
  ∀ es l n y, d = .map es → entry es "type" = .str "structure-group" →
    entry es "members" = .list l → .str n ∈ l → reg.getByName E n = some y → y.members? ≠ none

end Spec
open Spec

/-- All errors are DefinitionReaderErrors. -/
def OnlyReader {α : Type} (r : Except Err α) : Prop := ∀ e, r = .error e → e = .reader

theorem OnlyReader.ok {α : Type} (a : α) : OnlyReader (.ok a) := by intro e h; cases h

theorem OnlyReader.err {α : Type} : OnlyReader (.error .reader : Except Err α) := by
  intro e h; cases h; rfl

theorem OnlyReader.bind {α β : Type} {r : Except Err α} {f : α → Except Err β} (h : OnlyReader r)
    (hf : ∀ a, r = .ok a → OnlyReader (f a)) : OnlyReader (r >>= f) := by
  intro e he
  cases r with
  | error x => cases he; exact h _ rfl
  | ok a => exact hf a rfl e he

theorem OnlyReader.ite {α : Type} {c : Prop} [Decidable c] {a b : Except Err α}
    (ha : c → OnlyReader a) (hb : ¬ c → OnlyReader b) : OnlyReader (if c then a else b) := by
  split
  · exact ha ‹_›
  · exact hb ‹_›

theorem OnlyReader.guard {α : Type} {c : Prop} [Decidable c] {a : Except Err α}
    (ha : ¬ c → OnlyReader a) : OnlyReader (if c then .error .reader else a) :=
  .ite (fun _ => .err) ha

theorem entry_or {es : List (Key × Yaml)} {k : String} {P : Yaml → Prop} (h : Field es k P) :
    entry es k = .null ∨ P (entry es k) := by
  by_cases hn : entry es k = .null
  · exact .inl hn
  · exact .inr (h _ (entry_mem hn))

theorem entryD_or {es : List (Key × Yaml)} {k : String} {P : Yaml → Prop} (h : Field es k P)
    (d : Yaml) : entryD es k d = d ∨ P (entryD es k d) := by
  unfold entryD
  cases hf : es.find? (·.1 == .str k) with
  | none => exact .inl rfl
  | some p =>
    right
    have h1 := List.mem_of_find?_eq_some hf
    have h2 := List.find?_some hf
    simp only [beq_iff_eq] at h2
    exact h p.2 (by rw [← h2]; exact h1)

theorem text_only {es : List (Key × Yaml)} {k : String} (h : Field es k IsText)
    (ht : (entry es k).truthy = true) : ∃ s, entry es k = .str s ∧ s ≠ "" := by
  rcases entry_or h with h | ⟨s, h⟩
  · rw [h] at ht; cases ht
  · refine ⟨s, h, ?_⟩
    rw [h] at ht
    simpa [Yaml.truthy] using ht

theorem checkKeys_only {sup : List String} {es : List (Key × Yaml)} (h : TextKeys es) :
    OnlyReader (checkKeys sup (.map es)) := by
  unfold checkKeys
  simp only [Yaml.keys]
  split
  · exact .ok _
  · split
    · rename_i hc
      simp only [List.any_eq_true] at hc
      obtain ⟨k, hk, hb⟩ := hc
      obtain ⟨e, he, rfl⟩ := List.mem_map.mp (List.mem_filter.mp hk).1
      obtain ⟨s, hs⟩ := h e he
      rw [hs] at hb
      cases hb
    · exact .err

theorem get_only {α : Type} {es : List (Key × Yaml)} {k : String} {f : Yaml → Except Err α}
    (h : OnlyReader (f (entry es k))) : OnlyReader ((Yaml.map es).get k >>= f) := h

theorem mapM_text {l : List Yaml} (h : ∀ v ∈ l, IsText v) : ∃ ss, l.mapM Yaml.text = .ok ss := by
  induction l with
  | nil => exact ⟨[], rfl⟩
  | cons v l ih =>
    obtain ⟨s, rfl⟩ := h v List.mem_cons_self
    obtain ⟨ss, hss⟩ := ih fun v hv => h v (List.mem_cons_of_mem _ hv)
    exact ⟨s :: ss, by simp [List.mapM_cons, Yaml.text, hss, bind, Except.bind, pure, Except.pure]⟩

theorem names_only {es : List (Key × Yaml)} {k : String} (h : Field es k IsTexts) :
    ∃ ss, (entry es k).names = .ok ss := by
  rcases entry_or h with h | ⟨l, h, hl⟩
  · exact ⟨[], by rw [h]; rfl⟩
  · rw [h]
    unfold Yaml.names
    split
    · exact ⟨[], rfl⟩
    · exact mapM_text hl

theorem text?_only {es : List (Key × Yaml)} {k : String} (h : Field es k IsText) :
    ∃ s, (entry es k).text? = .ok s := by
  rcases entry_or h with h | ⟨s, h⟩
  · exact ⟨none, by rw [h]; rfl⟩
  · exact ⟨some s, by rw [h]; rfl⟩

theorem readHdr_only {sup : List String} {es : List (Key × Yaml)} (h : TypedCommon es)
    (name : String) : OnlyReader (readHdr sup (.map es) name) := by
  unfold readHdr
  refine .bind (checkKeys_only h.keys) fun _ _ => get_only (get_only ?_)
  obtain ⟨as, ha⟩ := names_only h.aliases
  obtain ⟨d, hd⟩ := text?_only h.description
  rw [ha, hd]
  exact .ok _

theorem readOrder_only {as : List (Key × Yaml)} (h : Field as "byte_order" IsText) :
    OnlyReader (readOrder (.map as)) := by
  unfold readOrder
  rw [getD_map]
  obtain ⟨s, hs⟩ : ∃ s, entryD as "byte_order" (.str "native") = .str s := by
    rcases entryD_or h (.str "native") with h | ⟨s, h⟩
    · exact ⟨_, h⟩
    · exact ⟨s, h⟩
  rw [hs]
  simp only [bind, Except.bind, Yaml.hashable, Bool.not_true, Bool.false_eq_true, if_false]
  split
  · exact .ok _
  · exact .ok _
  · exact .ok _
  · exact .err

theorem readAttrs_only {sup : List String} {es : List (Key × Yaml)} (h : TypedCommon es) :
    OnlyReader (readAttrs sup (.map es)) := by
  unfold readAttrs
  refine get_only (.ite (fun ht => ?_) fun _ => .ok _)
  rcases entry_or h.attributes with h | ⟨as, h, hk, ho, -⟩
  · rw [h] at ht; cases ht
  · rw [h]
    exact .bind (checkKeys_only hk) fun _ _ => .bind (readOrder_only ho) fun _ _ => .ok _

theorem readStorage_only {attrs : List String} {m : Bool} {es : List (Key × Yaml)}
    (h : TypedCommon es) (name : String) : OnlyReader (readStorage attrs m (.map es) name) := by
  unfold readStorage
  exact .bind (readHdr_only h name) fun _ _ => .bind (readAttrs_only h) fun _ _ => .ok _

theorem readSize_only {E : Env} {sizes : List Nat} {y : Yaml} (h : IsIntOrText y) :
    OnlyReader (readSize E sizes y) := by
  rcases h with ⟨i, rfl⟩ | ⟨s, rfl⟩
  · unfold readSize
    simp only [Env.toInt]
    exact .guard fun _ => .ok _
  · by_cases hs : s = "native"
    · subst hs; exact .ok _
    · rw [readSize.eq_def]
      split
      · exact .ok _
      · simp only [Env.toInt]
        cases E.parseInt s with
        | none => exact .err
        | some i =>
          refine .guard fun hc => ?_
          exfalso
          simp only [Bool.not_eq_true', Bool.not_eq_false, List.any_eq_true] at hc
          obtain ⟨n, _, hn⟩ := hc
          simp [Yaml.lit, litEq, Lit.num?] at hn

theorem readFixed_only {E : Env} {attrs : List String} {dflt : Yaml} {init : Size} {sizes : List Nat}
    {m : Bool} {es : List (Key × Yaml)} (h : TypedCommon es) (hd : IsIntOrText dflt)
    (name : String) : OnlyReader (readFixed E attrs dflt init sizes m (.map es) name) := by
  unfold readFixed
  refine .bind (readStorage_only h name) fun _ _ => get_only (.ite (fun ht => ?_) fun _ => .ok _)
  rcases entry_or h.attributes with h | ⟨as, h, hk, ho, hs, hu, -⟩
  · rw [h] at ht; cases ht
  · rw [h]
    simp only [getD_map]
    refine OnlyReader.bind (r := .ok _) (.ok _) fun s' hs' => ?_
    cases hs'
    refine .bind (readSize_only ?_) fun _ _ => ?_
    · rcases entryD_or hs dflt with h | h
      · rw [h]; exact hd
      · exact h
    · refine OnlyReader.bind (r := .ok _) (.ok _) fun u' hu' => ?_
      cases hu'
      rcases entryD_or hu (.str "bytes") with h | ⟨s, h⟩
      · rw [h]; exact .ok _
      · rw [h]; exact .ok _

theorem getD_only {α : Type} {es : List (Key × Yaml)} {k : String} {x : Yaml}
    {f : Yaml → Except Err α} (h : OnlyReader (f (entryD es k x))) :
    OnlyReader ((Yaml.map es).getD k x >>= f) := h

theorem readInteger_only {E : Env} {m : Bool} {es : List (Key × Yaml)} (h : TypedCommon es)
    (name : String) : OnlyReader (readInteger E m (.map es) name) := by
  unfold readInteger
  refine .bind (readFixed_only h (.inr ⟨_, rfl⟩) name) fun ⟨_, _, _⟩ _ =>
    get_only (.ite (fun ht => ?_) fun _ => .ok _)
  rcases entry_or h.attributes with h | ⟨as, h, hk, ho, hs, hu, hf⟩
  · rw [h] at ht; cases ht
  · rw [h]
    refine .bind ?_ fun _ _ => .ok _
    unfold readSignedness
    refine getD_only ?_
    obtain ⟨s, hs⟩ : ∃ s, entryD as "format" (.str "signed") = .str s := by
      rcases entryD_or hf (.str "signed") with h | ⟨s, h⟩
      · exact ⟨_, h⟩
      · exact ⟨s, h⟩
    rw [hs]
    simp only [Yaml.hashable, Bool.not_true, Bool.false_eq_true, if_false]
    split
    · exact .ok _
    · exact .ok _
    · exact .err

theorem resolve_only {E : Env} {reg : Registry} (s : String) : OnlyReader (resolve E reg (.str s)) := by
  unfold resolve
  simp only
  cases reg.getByName E s with
  | some d => exact .ok _
  | none => exact .err

theorem readRule_only {E : Env} {y : Yaml} (h : y = .null ∨ IsIntOrText y) :
    OnlyReader (readRule E y) := by
  rcases h with rfl | ⟨i, rfl⟩ | ⟨s, rfl⟩
  · exact .ok _
  · exact .ok _
  · unfold readRule
    simp only [Yaml.isNone, Env.toInt]
    cases E.parseInt s <;> exact .ok _

theorem encodeBelow_ok {n : Nat} {s : String} (h : ∀ c ∈ s.toList, c.toNat < n) :
    ∃ b, encodeBelow n s = .ok b := by
  unfold encodeBelow
  rw [if_pos (by simpa [List.all_eq_true] using h)]
  exact ⟨_, rfl⟩

theorem readTerminator_only {y : Yaml} (h : y = .null ∨ IsIntOrText y) (hb : Below 128 y) :
    OnlyReader (readTerminator y) := by
  rcases h with rfl | ⟨i, rfl⟩ | ⟨s, rfl⟩
  · exact .ok _
  · exact .ok _
  · obtain ⟨b, hb⟩ := encodeBelow_ok (hb s rfl)
    unfold readTerminator
    simp only [hb]
    exact .ok _

theorem below_null {n : Nat} : Below n .null := fun _ h => by cases h

theorem below_entry {es : List (Key × Yaml)} {k : String} {n : Nat} (h : Field es k (Below n)) :
    Below n (entry es k) := by
  rcases entry_or h with h | h
  · rw [h]; exact below_null
  · exact h

theorem readElements_only {E : Env} {reg : Registry} {k : SeqKind} {sup : List String}
    {es : List (Key × Yaml)} (h : TypedCommon es) (hb : Field es "elements_terminator" (Below 128))
    (name : String) : OnlyReader (readElements E reg k sup (.map es) name) := by
  unfold readElements
  refine .bind (checkKeys_only h.keys) fun _ _ => get_only (.guard fun ht => ?_)
  obtain ⟨s, hs, _⟩ := text_only h.element (by simpa using ht)
  refine get_only (get_only (get_only (.guard fun _ => .guard fun _ => ?_)))
  rw [hs]
  refine .bind (resolve_only s) fun _ _ => .bind (readHdr_only h name) fun _ _ => ?_
  refine .bind (.ok _) fun _ _ => .bind (readRule_only (entry_or h.size)) fun ⟨_, _⟩ _ => ?_
  refine .bind (readRule_only (entry_or h.number)) fun ⟨_, _⟩ _ => ?_
  exact .bind (readTerminator_only (entry_or h.terminator) (below_entry hb)) fun _ _ => .ok _

theorem readString_only {E : Env} {reg : Registry} {m : Bool}
    {es : List (Key × Yaml)} (h : TypedCommon es) (hb : Field es "elements_terminator" (Below 128))
    (name : String) : OnlyReader (readString E reg m (.map es) name) := by
  unfold readString
  refine .bind (readElements_only h hb name) fun x _ => get_only (.guard fun ht => ?_)
  obtain ⟨s, hs, _⟩ := text_only h.encoding (by simpa using ht)
  rw [hs]
  refine .bind (.ok _) fun _ _ => ?_
  split <;> exact .ok _

theorem readPadding_only {E : Env} {m : Bool} {es : List (Key × Yaml)} (h : TypedCommon es)
    (ha : m = true → Field es "alignment_size" IsInt) (name : String) :
    OnlyReader (readPadding E m (.map es) name) := by
  unfold readPadding
  refine .guard fun hm => .bind (readHdr_only h name) fun _ _ => get_only (.guard fun ht => ?_)
  rcases entry_or (ha (by simpa using hm)) with h | ⟨i, h⟩
  · rw [h] at ht; simp [Yaml.truthy] at ht
  · rw [h]
    simp only [Env.toInt]
    exact .guard fun _ => .ok _

theorem readConstant_only {m : Bool} {es : List (Key × Yaml)} (h : TypedCommon es)
    (name : String) : OnlyReader (readConstant m (.map es) name) := by
  unfold readConstant
  exact .guard fun _ => get_only (.guard fun _ => .bind (readHdr_only h name) fun _ _ => .ok _)

theorem addValues_only {vs : List Yaml} (h : ∀ v ∈ vs, IsEnumValue v) (b : EnumBuilder) :
    OnlyReader (addValues b vs) := by
  induction vs generalizing b with
  | nil => exact .ok _
  | cons v vs ih =>
    obtain ⟨es, rfl, ha, hn, hnum⟩ := h v List.mem_cons_self
    unfold addValues
    refine get_only (get_only (get_only (.guard fun hc => ?_)))
    simp only [Bool.or_eq_true, Bool.not_eq_true', not_or, Bool.not_eq_false] at hc
    obtain ⟨s, hs, _⟩ := text_only hn hc.1
    obtain ⟨as, has⟩ := names_only ha
    rw [hs, has]
    have hi : ∃ i, entry es "number" = .int i := by
      rcases entry_or hnum with h | h
      · rw [h] at hc; simp [Yaml.isNone] at hc
      · exact h
    obtain ⟨i, hi⟩ := hi
    rw [hi]
    show OnlyReader (match b.addValue s (.int i) as with
      | (.error .key, _) => .error .reader
      | (.error e, _) => .error e
      | (.ok _, b) => addValues b vs)
    have hk : ∀ e, (b.addValue s (.int i) as).1 = .error e → e = .key := by
      intro e he
      unfold EnumBuilder.addValue at he
      split at he
      · cases he; rfl
      · split at he
        · rename_i hh; simp [Lit.isHashable] at hh
        · split at he
          · cases he; rfl
          · split at he
            · cases he; rfl
            · cases he
    generalize b.addValue s (.int i) as = r at hk
    rcases r with ⟨e | _, b'⟩
    · cases hk e rfl
      exact .err
    · exact ih (fun v hv => h v (List.mem_cons_of_mem _ hv)) b'

theorem readEnumeration_only {m : Bool} {es : List (Key × Yaml)} (h : TypedCommon es)
    (hv : m = false → Field es "values" fun y => ∃ l, y = .list l ∧ ∀ v ∈ l, IsEnumValue v)
    (name : String) : OnlyReader (readEnumeration m (.map es) name) := by
  unfold readEnumeration
  refine .guard fun hm => get_only (.guard fun ht => .bind (readHdr_only h name) fun _ _ => ?_)
  rcases entry_or (hv (by simpa using hm)) with h | ⟨l, h, hl⟩
  · rw [h] at ht; simp [Yaml.truthy] at ht
  · rw [h]
    exact .bind (.ok _) fun _ hi => by cases hi; exact .bind (addValues_only hl _) fun _ _ => .ok _

theorem readLayout_only {ys : List Yaml} (h : ∀ v ∈ ys, IsLayoutElement v) :
    OnlyReader (readLayout ys) := by
  induction ys with
  | nil => exact .ok _
  | cons v vs ih =>
    obtain ⟨es, rfl, hk, hd, ho⟩ := h v List.mem_cons_self
    unfold readLayout
    refine get_only (get_only (.guard fun hc => .bind (checkKeys_only hk) fun _ _ => ?_))
    obtain ⟨s, hs, _⟩ := text_only hd (by simpa using hc)
    rw [hs]
    refine .bind (.ok _) fun _ _ => .bind ?_ fun _ _ =>
      .bind (ih fun v hv => h v (List.mem_cons_of_mem _ hv)) fun _ _ => .ok _
    rcases entry_or ho with h | ⟨i, h⟩
    · rw [h]; exact .ok _
    · rw [h]; exact .ok _

theorem readFormat_only {m : Bool} {es : List (Key × Yaml)} (h : TypedCommon es)
    (hl : m = false → Field es "layout" fun y => ∃ l, y = .list l ∧ ∀ v ∈ l, IsLayoutElement v)
    (name : String) : OnlyReader (readFormat m (.map es) name) := by
  unfold readFormat
  refine .guard fun hm => .bind (readHdr_only h name) fun _ _ => getD_only ?_
  obtain ⟨l, he, hl⟩ : ∃ l, entryD es "layout" (.list []) = .list l ∧ ∀ v ∈ l, IsLayoutElement v := by
    rcases entryD_or (hl (by simpa using hm)) (.list []) with h | h
    · exact ⟨[], h, by simp⟩
    · exact h
  rw [he]
  exact .bind (.ok _) fun _ hi => by
    cases hi
    exact .bind (readLayout_only hl) fun _ _ => .bind (readAttrs_only h) fun _ _ => .ok _

theorem addFamily_only {E : Env} {reg : Registry} {ms : List Yaml} (h : ∀ m ∈ ms, IsText m)
    (acc : List Defn) : OnlyReader (addFamily E reg acc ms) := by
  induction ms generalizing acc with
  | nil => exact .ok _
  | cons m ms ih =>
    obtain ⟨s, rfl⟩ := h m List.mem_cons_self
    unfold addFamily
    exact .bind (resolve_only s) fun _ _ =>
      .guard fun _ => ih (fun m hm => h m (List.mem_cons_of_mem _ hm)) _

theorem addGroup_only {E : Env} {reg : Registry} {i : String} {ms : List Yaml}
    (h : ∀ m ∈ ms, ∃ s, m = .str s ∧ ∀ y, reg.getByName E s = some y → y.members? ≠ none)
    (acc : List Defn) : OnlyReader (addGroup E reg i acc ms) := by
  induction ms generalizing acc with
  | nil => exact .ok _
  | cons m ms ih =>
    obtain ⟨s, rfl, hs⟩ := h m List.mem_cons_self
    unfold addGroup
    refine .bind (resolve_only s) fun d hd => ?_
    obtain ⟨s', he, hg⟩ := resolve_ok hd
    cases he
    have := hs d hg
    cases hm : d.members? with
    | none => exact absurd hm this
    | some inner =>
      exact .guard fun _ => .guard fun _ => ih (fun m hm => h m (List.mem_cons_of_mem _ hm)) _

theorem readFamily_only {E : Env} {reg : Registry} {m : Bool} {es : List (Key × Yaml)}
    (h : TypedCommon es) (hb : m = false → Field es "base" IsText)
    (hm : m = false → Field es "members" fun y => ∃ l, y = .list l ∧ ∀ m ∈ l, IsText m)
    (name : String) : OnlyReader (readFamily E reg m (.map es) name) := by
  unfold readFamily
  refine .guard fun hmem => .bind (checkKeys_only h.keys) fun _ _ => get_only (.guard fun ht => ?_)
  have hmem : m = false := by simpa using hmem
  obtain ⟨s, hs, _⟩ := text_only (hb hmem) (by simpa using ht)
  rw [hs]
  refine .bind (resolve_only s) fun _ _ => .bind (readHdr_only h name) fun _ _ =>
    get_only (.guard fun ht => ?_)
  rcases entry_or (hm hmem) with h | ⟨l, h, hl⟩
  · rw [h] at ht; simp [Yaml.truthy] at ht
  · rw [h]
    exact .bind (.ok _) fun _ hi => by cases hi; exact .bind (addFamily_only hl _) fun _ _ => .ok _

theorem readGroup_only {E : Env} {reg : Registry} {m : Bool} {es : List (Key × Yaml)}
    (h : TypedCommon es) (hb : m = false → Field es "base" IsText)
    (hd : m = false → Field es "default" IsText) (hid : m = false → Field es "identifier" IsText)
    (hm : m = false → Field es "members" fun y => ∃ l, y = .list l ∧ ∀ m ∈ l, IsText m)
    (hg : m = false → ∀ l n y, entry es "members" = .list l → .str n ∈ l →
      reg.getByName E n = some y → y.members? ≠ none)
    (name : String) : OnlyReader (readGroup E reg m (.map es) name) := by
  unfold readGroup
  refine .guard fun hmem => .bind (checkKeys_only h.keys) fun _ _ => get_only (.guard fun ht => ?_)
  have hmem : m = false := by simpa using hmem
  obtain ⟨s, hs, _⟩ := text_only (hb hmem) (by simpa using ht)
  rw [hs]
  refine .bind (resolve_only s) fun _ _ => get_only (.guard fun ht => get_only ?_)
  obtain ⟨i, hi, _⟩ := text_only (hid hmem) (by simpa using ht)
  refine .bind ?_ fun _ _ => ?_
  · unfold readDefault
    refine .ite (fun _ => .ok _) fun ht => ?_
    obtain ⟨d, hd, _⟩ := text_only (hd hmem) (by simpa using ht)
    rw [hd]
    have := resolve_only (E := E) (reg := reg) d
    cases hr : resolve E reg (.str d) with
    | ok x => exact .ok _
    | error e => rw [hr] at this; cases this e rfl; exact .err
  · rw [hi]
    refine .bind (.ok _) fun _ _ => .bind (readHdr_only h name) fun _ _ =>
      get_only (.guard fun ht => ?_)
    rcases entry_or (hm hmem) with h | ⟨l, h, hl⟩
    · rw [h] at ht; simp [Yaml.truthy] at ht
    · have hg := hg hmem l
      rw [h] at hg ⊢
      refine .bind (.ok _) fun _ hi => ?_
      cases hi
      refine .bind (addGroup_only ?_ _) fun _ _ => .ok _
      intro m hm
      obtain ⟨n, rfl⟩ := hl m hm
      exact ⟨n, rfl, fun y hy => hg n y rfl hm hy⟩

theorem readTyped_name {E : Env} {reg : Registry} {rm : Bool → Yaml → Except Err Defn}
    {t : TypeInd} {mem : Bool} {d : Yaml} {name : String} {x : Defn}
    (hr : readTyped E reg rm t mem d name = .ok x) : x.name = name := by
  have hfix : ∀ {attrs dflt init sizes h s u},
      readFixed E attrs dflt init sizes mem d name = .ok (h, s, u) → h.name = name := by
    intro attrs dflt init sizes h s u hf
    obtain ⟨es, h0, o, rfl, hh, -, rfl, -⟩ := readFixed_ok hf
    exact hh.name
  have hmem : ∀ {c u}, readWithMembers (rm c) u d name = .ok x → x.name = name := by
    intro c u hr
    obtain ⟨es, h, h0, o, items, ds, -, hh, -, rfl, -, -, -, -, rfl⟩ := readWithMembers_ok hr
    cases u <;> exact hh.name
  cases t with
  | boolean =>
    simp only [readTyped, readBoolean, bind_ok, Except.ok.injEq] at hr
    obtain ⟨_, hf, rfl⟩ := hr
    exact hfix hf
  | character =>
    simp only [readTyped, readCharacter, bind_ok, Except.ok.injEq] at hr
    obtain ⟨_, hf, rfl⟩ := hr
    exact hfix hf
  | floatingPoint =>
    simp only [readTyped, readFloat, bind_ok, Except.ok.injEq] at hr
    obtain ⟨_, hf, rfl⟩ := hr
    exact hfix hf
  | uuid =>
    simp only [readTyped, readUuid, bind_ok, Except.ok.injEq] at hr
    obtain ⟨_, hf, rfl⟩ := hr
    exact hfix hf
  | integer =>
    simp only [readTyped] at hr
    obtain ⟨es, h, h0, o, s, u, un, -, hh, -, rfl, -, -, rfl⟩ := readInteger_ok hr
    exact hh.name
  | constant =>
    simp only [readTyped] at hr
    obtain ⟨-, es, h, -, hh, -, rfl⟩ := readConstant_ok hr
    exact hh.name
  | enumeration =>
    simp only [readTyped] at hr
    obtain ⟨-, es, h, items, cs, -, hh, -, -, -, -, rfl⟩ := readEnumeration_ok hr
    exact hh.name
  | format =>
    simp only [readTyped] at hr
    obtain ⟨-, es, h, items, l, o, -, hh, -, -, -, rfl⟩ := readFormat_ok hr
    exact hh.name
  | padding =>
    simp only [readTyped] at hr
    obtain ⟨-, es, h, a, -, hh, -, -, rfl⟩ := readPadding_ok hr
    exact hh.name
  | sequence =>
    simp only [readTyped, readSequence] at hr
    obtain ⟨es, h, i, e, -, rfl, -, hel⟩ := readElements_ok hr
    exact elements_name hel
  | stream =>
    simp only [readTyped, readStream] at hr
    obtain ⟨es, h, i, e, -, rfl, -, hel⟩ := readElements_ok hr
    exact elements_name hel
  | string =>
    simp only [readTyped] at hr
    obtain ⟨es, h, i, e, enc, -, rfl, -, -, -, hel⟩ := readString_ok hr
    exact elements_name hel
  | «structure» =>
    simp only [readTyped, guard_ok] at hr
    exact hmem hr.2
  | union =>
    simp only [readTyped] at hr
    exact hmem hr
  | family =>
    simp only [readTyped] at hr
    obtain ⟨-, es, h, b, base, items, ds, -, hh, -, -, hg, -, -, hnm, -, rfl⟩ := readFamily_ok hr
    exact hh.name
  | group =>
    simp only [readTyped] at hr
    obtain ⟨-, es, h, h0, b, base, i, df, items, ds, -, hh, rfl, -, -, hg, -, -, hdf, -, -, hnm,
      -, -, rfl⟩ := readGroup_ok hr
    exact hh.name

theorem readMember_name {E : Env} {reg : Registry} {fuel : Nat} {c : Bool} {m : Yaml} {x : Defn}
    (hr : readMember E reg fuel c m = .ok x) :
    ∃ es, m = .map es ∧ memberName (entry es "name") = .ok x.name := by
  cases fuel with
  | zero => cases hr
  | succ fuel =>
    obtain ⟨es, rfl, hrd⟩ := readMember_ok hr
    obtain ⟨nm, hnm, -, sv, cond, -, -, hx⟩ := hrd.name
    refine ⟨es, rfl, ?_⟩
    rw [hnm]
    rcases hx with ⟨ty, t, inner, -, -, -, hin, rfl⟩ | ⟨dt, inner, h, -, -, -, -, hn, rfl⟩
    · split
      · rfl
      · rw [readTyped_name hin]
    · show _ = Except.ok h.name
      rw [hn]

theorem addMembers_only {rm : Yaml → Except Err Defn} {ms : List Yaml}
    (hr : ∀ m ∈ ms, (∀ es, m = .map es → entry es "section" = .null) → OnlyReader (rm m))
    (ht : ∀ m ∈ ms, TypedMember m)
    (hn : ∀ m x, rm m = .ok x → ∃ es, m = .map es ∧ memberName (entry es "name") = .ok x.name)
    (b : Builder)
    (hc : (ms.filter nameless).length + (if b.members.any (·.name == "") then 1 else 0) ≤ 1) :
    OnlyReader (addMembers rm b ms) := by
  induction ms generalizing b with
  | nil => exact .ok _
  | cons m ms ih =>
    have ih := ih (fun m hm => hr m (List.mem_cons_of_mem _ hm))
      (fun m hm => ht m (List.mem_cons_of_mem _ hm))
    have htm := ht m List.mem_cons_self
    unfold addMembers
    cases htm with
    | @sect es s h hs =>
      refine get_only ?_
      rw [h]
      rw [if_pos (by simpa [Yaml.truthy] using hs)]
      refine .bind (.ok _) fun _ _ => ih _ ?_
      have h1 : nameless (.map es) = false := by simp [nameless, h, Yaml.truthy, hs]
      rw [List.filter_cons_of_neg (by simp [h1])] at hc
      exact hc
    | @member es hs =>
      refine get_only ?_
      rw [hs]
      rw [if_neg (by simp [Yaml.truthy])]
      refine .bind (hr _ List.mem_cons_self fun es' he => by cases he; exact hs) fun d hd => ?_
      obtain ⟨es', he, hname⟩ := hn _ d hd
      cases he
      have hnl : d.name = "" ↔ nameless (.map es) = true := by
        simp only [nameless, hs, Yaml.truthy, Bool.not_false, Bool.true_and, Bool.not_eq_true']
        unfold memberName at hname
        split at hname
        · rename_i h
          simp only [Except.ok.injEq] at hname
          rw [← hname, h]
          simp
        · rename_i s h
          split at hname
          · cases hname
          · rename_i hse
            simp only [Except.ok.injEq] at hname
            rw [← hname, h]
            simp
        · cases hname
      unfold Builder.addMember
      by_cases hdup : (b.members.any (·.name == d.name)) = true
      · rw [if_pos hdup]
        have : d.name ≠ "" := by
          intro h0
          have h1 := hnl.mp h0
          rw [List.filter_cons_of_pos h1] at hc
          rw [h0] at hdup
          rw [if_pos hdup] at hc
          simp at hc
        show OnlyReader (.error (if d.name == "" then .type else .reader))
        rw [if_neg (by simpa using this)]
        exact .err
      · rw [if_neg hdup]
        refine ih _ ?_
        simp only [List.any_append, List.any_cons, List.any_nil, Bool.or_false]
        by_cases h0 : d.name = ""
        · have h1 := hnl.mp h0
          rw [List.filter_cons_of_pos h1] at hc
          simp only [List.length_cons] at hc
          split <;> omega
        · have h1 : nameless (.map es) = false := by
            cases hb : nameless (.map es) with
            | true => exact absurd (hnl.mpr hb) h0
            | false => rfl
          rw [List.filter_cons_of_neg (by simp [h1])] at hc
          have : (d.name == "") = false := by simpa using h0
          rw [this, Bool.or_false]
          exact hc

theorem Spec.Checked.sub {d m : Yaml} (h : Checked d) (hw : Within m d) : Checked m :=
  ⟨fun es he => h.terminator es (Within.trans he hw), fun es he => h.value es (Within.trans he hw),
    fun es he => h.values es (Within.trans he hw), fun es he => h.nameless es (Within.trans he hw)⟩

theorem readWithMembers_only {rm : Yaml → Except Err Defn} {u : Bool} {es : List (Key × Yaml)}
    (h : TypedCommon es)
    (hm : Field es "members" fun y => ∃ l, y = .list l ∧ ∀ m ∈ l, TypedMember m)
    (hck : Checked (.map es))
    (hr : ∀ m, TypedMember m → Checked m → m.depth < (Yaml.map es).depth →
      (∀ es', m = .map es' → (entry es' "section") = .null) → OnlyReader (rm m))
    (hn : ∀ m x, rm m = .ok x → ∃ es, m = .map es ∧ memberName (entry es "name") = .ok x.name)
    (name : String) : OnlyReader (readWithMembers rm u (.map es) name) := by
  unfold readWithMembers
  refine get_only (.guard fun ht => .bind (readHdr_only h name) fun _ _ =>
    .bind (readAttrs_only h) fun _ _ => ?_)
  rcases entry_or hm with h | ⟨l, hl, htm⟩
  · rw [h] at ht; simp [Yaml.truthy] at ht
  · have hmem := entry_mem (es := es) (k := "members") (by rw [hl]; simp)
    rw [hl] at hmem
    have hc := hck.nameless es .refl _ hmem l rfl
    have hne : es ≠ [] := by rintro rfl; cases hmem
    have hdep := entry_depth es "members" hne
    rw [hl] at hdep ⊢
    refine .bind (.ok _) fun items hi => ?_
    cases hi
    refine .bind ?_ fun _ _ => .ok _
    refine addMembers_only (fun m hm' hs => ?_) htm hn _ (by simpa using hc)
    refine hr m (htm m hm') (hck.sub (.map hmem (.list hm' .refl))) ?_ hs
    have h1 := depthList_mem hm'
    simp only [Yaml.depth] at hdep ⊢
    omega

theorem supportedValues_only {v vs : Yaml} (hv : v = .null ∨ IsIntOrText v) (hvb : Below 256 v)
    (hvs : vs = .null ∨ IsIntOrTexts vs) (hvsb : ∀ l, vs = .list l → ∀ v ∈ l, Below 256 v) :
    OnlyReader (supportedValues v vs) := by
  have hval : ∀ w, IsIntOrText w → Below 256 w → ∃ x, supportedValue w = .ok x := by
    rintro w (⟨i, rfl⟩ | ⟨s, rfl⟩) hb
    · exact ⟨_, rfl⟩
    · obtain ⟨b, hb⟩ := encodeBelow_ok (hb s rfl)
      exact ⟨.bytes b, by simp [supportedValue, hb, Except.map]⟩
  have hmap : ∀ l : List Yaml, (∀ w ∈ l, IsIntOrText w ∧ Below 256 w) →
      ∃ xs, l.mapM supportedValue = .ok xs := by
    intro l hl
    induction l with
    | nil => exact ⟨[], rfl⟩
    | cons w l ih =>
      obtain ⟨x, hx⟩ := hval w (hl w List.mem_cons_self).1 (hl w List.mem_cons_self).2
      obtain ⟨xs, hxs⟩ := ih fun w hw => hl w (List.mem_cons_of_mem _ hw)
      exact ⟨x :: xs, by simp [List.mapM_cons, hx, hxs, bind, Except.bind, pure, Except.pure]⟩
  obtain h | ⟨l, h, hl⟩ : valueList v vs = .null ∨
      ∃ l, valueList v vs = .list l ∧ ∀ w ∈ l, IsIntOrText w ∧ Below 256 w := by
    unfold valueList
    split
    · rename_i hc
      right
      refine ⟨[v], rfl, ?_⟩
      intro w hw
      rw [List.mem_singleton] at hw
      subst hw
      rcases hv with rfl | hv
      · simp [Yaml.isNone] at hc
      · exact ⟨hv, hvb⟩
    · rcases hvs with rfl | ⟨l, rfl, hl⟩
      · exact .inl rfl
      · exact .inr ⟨l, rfl, fun w hw => ⟨hl w hw, hvsb l rfl w hw⟩⟩
  · unfold supportedValues
    rw [h]
    exact .ok _
  · unfold supportedValues
    rw [h]
    refine .ite (fun _ => ?_) fun _ => .ok _
    obtain ⟨xs, hxs⟩ := hmap l hl
    refine .bind (.ok _) fun _ hi => ?_
    cases hi
    rw [hxs]
    exact .ok _

/-- `readTyped` for members: definitions that cannot be members are refused before
anything specific to them is looked at. -/
theorem readTyped_only {E : Env} {reg : Registry} {rm : Bool → Yaml → Except Err Defn} {t : TypeInd}
    {mem : Bool} {es : List (Key × Yaml)} (h : TypedCommon es) (hck : Checked (.map es))
    (ha : mem = true → Field es "alignment_size" IsInt)
    (hdoc : mem = false → TypedDoc es ∧ GroupChecked E reg (.map es) ∧
      entry es "type" = .str t.text)
    (hm : mem = true → Field es "members" fun y => ∃ l, y = .list l ∧ ∀ m ∈ l, TypedMember m)
    (hr : ∀ c m, TypedMember m → Checked m → m.depth < (Yaml.map es).depth →
      (∀ es', m = .map es' → (entry es' "section") = .null) → OnlyReader (rm c m))
    (hn : ∀ c m x, rm c m = .ok x → ∃ es, m = .map es ∧ memberName (entry es "name") = .ok x.name)
    (name : String) : OnlyReader (readTyped E reg rm t mem (.map es) name) := by
  have hb := hck.terminator es .refl
  have hmem : t = .structure ∨ t = .union →
      Field es "members" fun y => ∃ l, y = .list l ∧ ∀ m ∈ l, TypedMember m := by
    intro ht
    cases mem with
    | true => exact hm rfl
    | false =>
      obtain ⟨h1, _, h2⟩ := hdoc rfl
      intro v hv
      obtain ⟨l, rfl, h3, _⟩ := h1.members v hv
      refine ⟨l, rfl, h3 ?_⟩
      rcases ht with rfl | rfl
      · exact .inl h2
      · exact .inr h2
  have hnames : t = .family ∨ t = .group → mem = false →
      Field es "members" fun y => ∃ l, y = .list l ∧ ∀ m ∈ l, IsText m := by
    intro ht hmf
    obtain ⟨h1, _, h2⟩ := hdoc hmf
    intro v hv
    obtain ⟨l, rfl, _, h3⟩ := h1.members v hv
    refine ⟨l, rfl, h3 ?_⟩
    rcases ht with rfl | rfl
    · exact .inl h2
    · exact .inr h2
  cases t <;> simp only [readTyped]
  case boolean => exact .bind (readFixed_only h (.inr ⟨_, rfl⟩) name) fun ⟨_, _, _⟩ _ => .ok _
  case character => exact .bind (readFixed_only h (.inr ⟨_, rfl⟩) name) fun ⟨_, _, _⟩ _ => .ok _
  case floatingPoint => exact .bind (readFixed_only h (.inr ⟨_, rfl⟩) name) fun ⟨_, _, _⟩ _ => .ok _
  case uuid => exact .bind (readFixed_only h (.inl ⟨_, rfl⟩) name) fun ⟨_, _, _⟩ _ => .ok _
  case integer => exact readInteger_only h name
  case constant => exact readConstant_only h name
  case enumeration => exact readEnumeration_only h (fun hm => (hdoc hm).1.values (hdoc hm).2.2) name
  case format => exact readFormat_only h (fun hm => (hdoc hm).1.layout) name
  case padding => exact readPadding_only h ha name
  case sequence => exact readElements_only h hb name
  case stream => exact readElements_only h hb name
  case string => exact readString_only h hb name
  case «structure» =>
    exact .guard fun _ => readWithMembers_only h (hmem (.inl rfl)) hck (hr true) (hn true) name
  case union => exact readWithMembers_only h (hmem (.inr rfl)) hck (hr false) (hn false) name
  case family =>
    exact readFamily_only h (fun hm => (hdoc hm).1.base) (hnames (.inl rfl)) name
  case group =>
    exact readGroup_only h (fun hm => (hdoc hm).1.base) (fun hm => (hdoc hm).1.dflt)
      (fun hm => (hdoc hm).1.identifier) (hnames (.inr rfl))
      (fun hm l n y => (hdoc hm).2.1 es l n y rfl (hdoc hm).2.2) name

theorem readMember_only {E : Env} {reg : Registry} (fuel : Nat) (c : Bool) (m : Yaml)
    (ht : TypedMember m) (hck : Checked m) (hd : m.depth ≤ fuel)
    (hs : ∀ es, m = .map es → entry es "section" = .null) :
    OnlyReader (readMember E reg fuel c m) := by
  induction fuel generalizing c m with
  | zero => have := depth_pos m; omega
  | succ fuel ih =>
    cases ht with
    | @sect es s h hne => rw [hs es rfl] at h; cases h
    | @member es _ hc hn hcond hdt hv hvs ha hl hm =>
      unfold readMember
      refine .guard fun _ => get_only (get_only (.guard fun hnt => ?_))
      have hnm : ∃ nm, memberName (entry es "name") = .ok nm := by
        rcases entry_or hc.name with h | ⟨s, h⟩
        · exact ⟨"", by rw [h]; rfl⟩
        · refine ⟨s, ?_⟩
          have : s ≠ "" := by
            rintro rfl
            exact hn _ (entry_mem (es := es) (k := "name") (by rw [h]; simp)) h
          rw [h]
          simp [memberName, this]
      obtain ⟨nm, hnm⟩ := hnm
      rw [hnm]
      refine .bind (.ok _) fun _ he => ?_
      cases he
      refine get_only (.guard fun hno => .guard fun _ => get_only (.guard fun _ => get_only
        (get_only (.guard fun _ => .bind ?_ fun sv _ => ?_))))
      · refine supportedValues_only (entry_or hv) (below_entry (hck.value es .refl)) (entry_or hvs) ?_
        intro l hle
        have hmem := entry_mem (es := es) (k := "values") (by rw [hle]; simp)
        exact hck.values es .refl _ hmem l hle
      · have hcnd : ∃ cd, memberCondition (entry es "condition") = .ok cd := by
          rcases entry_or hcond with h | ⟨s, h⟩
          · exact ⟨none, by rw [h]; rfl⟩
          · exact ⟨some s, by rw [h]; rfl⟩
        obtain ⟨cd, hcd⟩ := hcnd
        rw [hcd]
        refine .ite (fun hty => ?_) fun hty => ?_
        · rcases entry_or hc.type with h | ⟨s, h⟩
          · rw [h] at hty; simp [Yaml.isNone] at hty
          · rw [h]
            have hcb : OnlyReader (callback (.str s)) := by
              unfold callback
              simp only [Yaml.hashable, Bool.not_true, Bool.false_eq_true, if_false]
              cases TypeInd.ofString s with
              | some t => exact .ok _
              | none => exact .err
            refine .bind hcb fun t _ => .bind ?_ fun inner _ => ?_
            · refine readTyped_only hc hck (fun _ => ha) (fun h => by cases h) (fun _ => ?_) ?_ ?_ nm
              · intro v hv
                obtain ⟨l, rfl⟩ := hl v hv
                exact ⟨l, rfl, fun m hm' => hm l m hv hm'⟩
              · intro c m h1 h2 h3 h4
                exact ih c m h1 h2 (by omega) h4
              · intro c m x hx
                exact readMember_name hx
            · refine .bind (.ok _) fun _ _ => .ite (fun _ => .ok _) fun _ => .ok _
        · rcases entry_or hdt with h | ⟨s, h⟩
          · rw [h] at hno
            simp only [Bool.not_eq_true', Bool.not_eq_false] at hty
            rw [hty] at hno
            simp [Yaml.isNone] at hno
          · rw [h]
            obtain ⟨as, has⟩ := names_only hc.aliases
            obtain ⟨d, hd⟩ := text?_only hc.description
            refine .bind (resolve_only s) fun _ _ => .bind (checkKeys_only hc.keys) fun _ _ =>
              get_only (get_only ?_)
            rw [has, hd]
            exact .ok _

/-- **C45** Reading one document with values of the prescribed types raises
nothing but a DefinitionReaderError. -/
theorem readDefinition_only {E : Env} {reg : Registry} {d : Yaml} (ht : Typed d) (hck : Checked d)
    (hg : GroupChecked E reg d) : OnlyReader (readDefinition E reg d) := by
  rcases ht with rfl | ⟨es, rfl, ht⟩
  · exact .err
  · unfold readDefinition
    refine .guard fun _ => get_only (.guard fun hn => ?_)
    obtain ⟨nm, hnm, _⟩ := text_only ht.common.name (by simpa using hn)
    rw [hnm]
    refine .bind (.ok _) fun _ he => get_only (.guard fun hty => ?_)
    cases he
    obtain ⟨ty, hty, _⟩ := text_only ht.common.type (by simpa using hty)
    rw [hty]
    have hcb : OnlyReader (callback (.str ty)) := by
      unfold callback
      simp only [Yaml.hashable, Bool.not_true, Bool.false_eq_true, if_false]
      cases TypeInd.ofString ty with
      | some t => exact .ok _
      | none => exact .err
    refine .bind hcb fun t htt => ?_
    obtain ⟨ty', he, ht'⟩ := callback_ok htt
    cases he
    have htxt := ofString_inv ht'
    refine readTyped_only ht.common hck (fun h => by cases h)
      (fun _ => ⟨ht, hg, by rw [hty, htxt]⟩) (fun h => by cases h) ?_ ?_ nm
    · intro c m h1 h2 h3 h4
      exact readMember_only _ c m h1 h2 (by omega) h4
    · intro c m x hx
      exact readMember_name hx

/-- **C45** On files whose documents have values of the prescribed types
ReadFileObject raises nothing but FormatError and KeyError, provided the YAML
parser ends normally or with a scanner error, terminators are ASCII, supported
values are Latin-1, no member list has two unions without a name and groups name
only definitions with members. The theorems below show that each of these
provisos is needed. -/
theorem C45_errors_partial (E : Env) (reg : Registry) (f : YamlFile)
    (ht : ∀ d ∈ f.docs, Typed d) (hc : ∀ d ∈ f.docs, Checked d) (hy : f.ending ≠ .other)
    (hg : ∀ k xs r, (h : k < f.docs.length) → Loaded E reg (f.docs.take k) xs r →
      GroupChecked E r f.docs[k])
    (e : Err) (he : (readFileObject E reg f).1 = .error e) : e = .format ∨ e = .key := by
  obtain ⟨k, xs, hk, h1, h2, h3⟩ := readDocs_loaded E f.docs reg
  unfold readFileObject at he
  generalize readDocs E reg f.docs = p at h1 h2 h3 he
  rcases p with ⟨e' | _, r⟩
  · cases he
    have hlt : k < f.docs.length := by
      rcases Nat.lt_or_ge k f.docs.length with h | h
      · exact h
      · have := h3 (by omega)
        cases this
    obtain ⟨_, e2, he2, h⟩ := h2 hlt
    cases he2
    rcases h with h | rfl
    · have := readDefinition_only (ht _ (List.getElem_mem hlt)) (hc _ (List.getElem_mem hlt))
        (hg k xs r hlt h1) _ h
      subst this
      exact .inl rfl
    · exact .inr rfl
  · simp only at he
    split at he
    · cases he
    · cases he; exact .inl rfl
    · rename_i h; exact absurd h hy

/-! ### The provisos are needed -/

theorem field_nil {k : String} {P : Yaml → Prop} : Field [] k P := fun _ h => by cases h

theorem field_cons {e : Key × Yaml} {es : List (Key × Yaml)} {k : String} {P : Yaml → Prop} :
    Field (e :: es) k P ↔ (e.1 = .str k → P e.2) ∧ Field es k P := by
  constructor
  · intro h
    exact ⟨fun he => h e.2 (by rw [← he]; exact List.mem_cons_self),
      fun v hv => h v (List.mem_cons_of_mem _ hv)⟩
  · rintro ⟨h1, h2⟩ v hv
    rcases List.mem_cons.mp hv with h | hv
    · subst h; exact h1 rfl
    · exact h2 v hv

/-- The file is typed, is read to its end by the YAML parser and makes
ReadFileObject raise the error. -/
def Leaks (f : YamlFile) (e : Err) : Prop :=
  (∀ d ∈ f.docs, Typed d) ∧ (readFileObject exEnvR {} f).1 = .error e

def esGroup : List (Key × Yaml) :=
  [(.str "name", .str "g"), (.str "type", .str "structure-group"), (.str "base", .str "u8"),
    (.str "identifier", .str "x"), (.str "members", .list [.str "u8"])]

def esU8 : List (Key × Yaml) :=
  [(.str "name", .str "u8"), (.str "type", .str "integer"), (.str "attributes", .map
    [(.str "size", .int 1)])]

def esTerm : List (Key × Yaml) :=
  [(.str "name", .str "s"), (.str "type", .str "string"), (.str "encoding", .str "utf-8"),
    (.str "element_data_type", .str "u8"), (.str "elements_terminator", .str "é")]

def esValue : List (Key × Yaml) :=
  [(.str "name", .str "v"), (.str "type", .str "structure"), (.str "members", .list [.map
    [(.str "name", .str "a"), (.str "data_type", .str "u8"), (.str "value", .str "€")]])]

def esUnion : List (Key × Yaml) :=
  [(.str "type", .str "union"), (.str "members", .list [.map
    [(.str "name", .str "a"), (.str "data_type", .str "u8")]])]

def esUnions : List (Key × Yaml) :=
  [(.str "name", .str "t"), (.str "type", .str "structure"),
    (.str "members", .list [.map esUnion, .map esUnion])]

theorem esU8_typed : Typed (.map esU8) := by
  refine .inr ⟨_, rfl, ?_⟩
  constructor
  · constructor <;> simp [esU8, field_cons, field_nil, TextKeys, IsText, IsAttributes, IsIntOrText, IsInt]
  all_goals simp [esU8, field_cons, field_nil]

theorem esGroup_typed : Typed (.map esGroup) := by
  refine .inr ⟨_, rfl, ?_⟩
  constructor
  · constructor <;> simp [esGroup, field_cons, field_nil, TextKeys, IsText]
  all_goals simp [esGroup, field_cons, field_nil, IsText, entry, entryD]

theorem esTerm_typed : Typed (.map esTerm) := by
  refine .inr ⟨_, rfl, ?_⟩
  constructor
  · constructor <;> simp [esTerm, field_cons, field_nil, TextKeys, IsText, IsIntOrText]
  all_goals simp [esTerm, field_cons, field_nil, IsText]

theorem esValue_typed : Typed (.map esValue) := by
  refine .inr ⟨_, rfl, ?_⟩
  constructor
  · constructor <;> simp [esValue, field_cons, field_nil, TextKeys, IsText]
  case members =>
    simp only [esValue, field_cons, field_nil, Key.str.injEq, reduceCtorEq, false_implies, and_true,
      true_and, forall_const, String.reduceEq]
    refine ⟨_, rfl, fun _ m hm => ?_, ?_⟩
    · rw [List.mem_singleton] at hm
      subst hm
      refine .member rfl ?_ ?_ ?_ ?_ ?_ ?_ ?_ ?_ ?_
      · constructor <;> simp [field_cons, field_nil, TextKeys, IsText]
      all_goals simp [field_cons, field_nil, IsText, IsIntOrText]
    · simp [entry, entryD]
  all_goals simp [esValue, field_cons, field_nil, entry, entryD]

theorem esUnion_typed : TypedMember (.map esUnion) := by
  refine .member rfl ?_ ?_ ?_ ?_ ?_ ?_ ?_ ?_ ?_
  · constructor <;> simp [esUnion, field_cons, field_nil, TextKeys, IsText]
  case refine_9 =>
    intro l m hl hm
    simp only [esUnion, List.mem_cons, Prod.mk.injEq, reduceCtorEq, and_false, false_or,
      Yaml.list.injEq, true_and, List.not_mem_nil, or_false] at hl
    subst hl
    rw [List.mem_singleton] at hm
    subst hm
    refine .member rfl ?_ ?_ ?_ ?_ ?_ ?_ ?_ ?_ ?_
    · constructor <;> simp [field_cons, field_nil, TextKeys, IsText]
    all_goals simp [field_cons, field_nil, IsText]
  all_goals simp [esUnion, field_cons, field_nil]

theorem esUnions_typed : Typed (.map esUnions) := by
  refine .inr ⟨_, rfl, ?_⟩
  constructor
  · constructor <;> simp [esUnions, field_cons, field_nil, TextKeys, IsText]
  case members =>
    simp only [esUnions, field_cons, field_nil, Key.str.injEq, reduceCtorEq, false_implies, and_true,
      true_and, forall_const, String.reduceEq]
    refine ⟨_, rfl, fun _ m hm => ?_, ?_⟩
    · simp only [List.mem_cons, List.not_mem_nil, or_false, or_self] at hm
      subst hm
      exact esUnion_typed
    · simp [entry, entryD]
  all_goals simp [esUnions, field_cons, field_nil, entry, entryD]

/-- **C45** fails: a structure group with an integer as member raises
AttributeError. -/
theorem C45_group_refuted : Leaks { docs := [.map esU8, .map esGroup] } .attribute :=
  ⟨by simp [esU8_typed, esGroup_typed], rfl⟩

/-- **C45** fails: a terminator that is not ASCII raises UnicodeEncodeError. -/
theorem C45_terminator_refuted : Leaks { docs := [.map esU8, .map esTerm] } .value :=
  ⟨by simp [esU8_typed, esTerm_typed], rfl⟩

/-- **C45** fails: a supported value that is not Latin-1 raises
UnicodeEncodeError. -/
theorem C45_value_refuted : Leaks { docs := [.map esU8, .map esValue] } .value :=
  ⟨by simp [esU8_typed, esValue_typed], rfl⟩

/-- **C45** fails: two unions without a name in one structure raise TypeError. -/
theorem C45_unions_refuted : Leaks { docs := [.map esU8, .map esUnions] } .type :=
  ⟨by simp [esU8_typed, esUnions_typed], rfl⟩

/-- **C45** fails: a YAML error that is neither a ReaderError nor a ScannerError is
passed on. -/
theorem C45_yaml_refuted : Leaks { docs := [.map esU8], ending := .other } .yaml :=
  ⟨by simp [esU8_typed], rfl⟩

/-- A file that meets the hypotheses of `C45_errors_partial` and is refused. -/
example : Typed (.map esGroup) ∧ Checked (.map esGroup) ∧
    GroupChecked exEnvR {} (.map esGroup) ∧
    (readFileObject exEnvR {} { docs := [.map esGroup] }).1 = .error .format := by
  refine ⟨esGroup_typed, ?_, ?_, rfl⟩
  · have : ∀ es, Within (.map es) (.map esGroup) → es = esGroup := by
      intro es h
      cases h with
      | refl => rfl
      | map hm h =>
        simp only [esGroup, List.mem_cons, Prod.mk.injEq, List.not_mem_nil, or_false] at hm
        rcases hm with ⟨-, rfl⟩ | ⟨-, rfl⟩ | ⟨-, rfl⟩ | ⟨-, rfl⟩ | ⟨-, rfl⟩
        · cases h
        · cases h
        · cases h
        · cases h
        · cases h with
          | list hm h =>
            rw [List.mem_singleton] at hm
            subst hm
            cases h
    constructor
    all_goals
      intro es h
      rw [this es h]
      simp [esGroup, field_cons, field_nil, nameless]
  · intro es l n y _ _ _ _ h
    simp [Registry.getByName, dictGet] at h

end Dtf
