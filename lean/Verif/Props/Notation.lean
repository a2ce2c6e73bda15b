import Verif.Props.Documents
import Verif.Props.Library
/-!
# Property C113: the notation of values and numbers does not matter
-/
namespace Dtf

namespace Spec

mutual
/-- Documents that differ only in notation: a member has `value: v` instead of `values: [v]`, or a size or number
of elements is given by another value that stands for the same number. The first argument says whether it is a member. -/
inductive Noted (E : Env) : Bool → Yaml → Yaml → Prop
  | same (m y) : Noted E m y y
  | mapping {m es fs} (hd : (es.map (·.1)).Nodup) (hd' : (fs.map (·.1)).Nodup) (h : NotedEntries E m es fs) :
      Noted E m (.map es) (.map fs)
inductive NotedEntries (E : Env) : Bool → List (Key × Yaml) → List (Key × Yaml) → Prop
  | nil {m} : NotedEntries E m [] []
  | same {m k y es fs} (t : NotedEntries E m es fs) : NotedEntries E m ((k, y) :: es) ((k, y) :: fs)
  | members {m l l' es fs} (h : NotedItems E l l') (t : NotedEntries E m es fs) :
      NotedEntries E m ((.str "members", .list l) :: es) ((.str "members", .list l') :: fs)
  | number {m k y y' i es fs} (hk : k = "elements_data_size" ∨ k = "number_of_elements") (h : AsNumber E y i)
      (h' : AsNumber E y' i) (t : NotedEntries E m es fs) : NotedEntries E m ((.str k, y) :: es) ((.str k, y') :: fs)
  | many {v es fs} (hv : v ≠ .null) (t : NotedEntries E true es fs) :
      NotedEntries E true ((.str "value", v) :: es) ((.str "values", .list [v]) :: fs)
  | one {v es fs} (hv : v ≠ .null) (t : NotedEntries E true es fs) :
      NotedEntries E true ((.str "values", .list [v]) :: es) ((.str "value", v) :: fs)
inductive NotedItems (E : Env) : List Yaml → List Yaml → Prop
  | nil : NotedItems E [] []
  | cons {y y' l l'} (h : Noted E true y y') (t : NotedItems E l l') : NotedItems E (y :: l) (y' :: l')
end

end Spec
open Spec

/-- What related entries have for a key. -/
inductive NotedAt (E : Env) (m : Bool) (k : String) : Yaml → Yaml → Prop
  | same {y} : NotedAt E m k y y
  | members {l l'} (hk : k = "members") (h : NotedItems E l l') : NotedAt E m k (.list l) (.list l')
  | number {y y' i} (hk : k = "elements_data_size" ∨ k = "number_of_elements") (h : AsNumber E y i)
      (h' : AsNumber E y' i) : NotedAt E m k y y'

theorem entryD_cons (e : Key × Yaml) (es : List (Key × Yaml)) (k : String) (dflt : Yaml) :
    entryD (e :: es) k dflt = if e.1 = .str k then e.2 else entryD es k dflt := by
  simp only [entryD, List.find?_cons]
  by_cases h : e.1 = .str k
  · rw [if_pos h, beq_iff_eq.2 h]; rfl
  · rw [if_neg h, beq_eq_false_iff_ne.2 h]

theorem entry_none {es : List (Key × Yaml)} {k : String} (h : Key.str k ∉ es.map (·.1)) : entry es k = .null := by
  induction es with
  | nil => rfl
  | cons e es ih =>
    simp only [List.map_cons, List.mem_cons, not_or] at h
    rw [entry, entryD_cons, if_neg (fun h' => h.1 h'.symm)]
    exact ih h.2

section
variable {E : Env} {m : Bool}

theorem noted_entryD {es fs : List (Key × Yaml)} (h : NotedEntries E m es fs) {k : String} (dflt : Yaml)
    (hk : (k ≠ "value" ∧ k ≠ "values") ∨ m = false) : NotedAt E m k (entryD es k dflt) (entryD fs k dflt) := by
  induction es generalizing fs with
  | nil => cases h; exact .same
  | cons e es ih =>
    cases h with
    | same t =>
      rw [entryD_cons, entryD_cons]
      split
      · exact .same
      · exact ih t
    | members h t =>
      rw [entryD_cons, entryD_cons]
      split
      · next hk => cases hk; exact .members rfl h
      · exact ih t
    | number hk h h' t =>
      rw [entryD_cons, entryD_cons]
      split
      · next hk' => cases hk'; exact .number hk h h'
      · exact ih t
    | many hv t =>
      have hk : k ≠ "value" ∧ k ≠ "values" := hk.resolve_right (nomatch ·)
      rw [entryD_cons, entryD_cons, if_neg (by simpa using hk.1.symm), if_neg (by simpa using hk.2.symm)]
      exact ih t
    | one hv t =>
      have hk : k ≠ "value" ∧ k ≠ "values" := hk.resolve_right (nomatch ·)
      rw [entryD_cons, entryD_cons, if_neg (by simpa using hk.2.symm), if_neg (by simpa using hk.1.symm)]
      exact ih t

theorem noted_plainD {es fs : List (Key × Yaml)} (h : NotedEntries E m es fs) {k : String} (dflt : Yaml)
    (hk : k ≠ "value" ∧ k ≠ "values" ∧ k ≠ "members" ∧ k ≠ "elements_data_size" ∧ k ≠ "number_of_elements") :
    entryD fs k dflt = entryD es k dflt := by
  have := noted_entryD h dflt (.inl ⟨hk.1, hk.2.1⟩)
  generalize entryD es k dflt = a at this ⊢
  generalize entryD fs k dflt = b at this ⊢
  cases this with
  | same => rfl
  | members h => exact absurd h hk.2.2.1
  | number h => exact absurd h (not_or.2 hk.2.2.2)

theorem noted_plain {es fs : List (Key × Yaml)} (h : NotedEntries E m es fs) {k : String}
    (hk : k ≠ "value" ∧ k ≠ "values" ∧ k ≠ "members" ∧ k ≠ "elements_data_size" ∧ k ≠ "number_of_elements") :
    entry fs k = entry es k := noted_plainD h .null hk

theorem noted_value {es fs : List (Key × Yaml)} (h : NotedEntries E false es fs) {k : String}
    (hk : k ≠ "members" ∧ k ≠ "elements_data_size" ∧ k ≠ "number_of_elements") : entry fs k = entry es k := by
  have := noted_entryD h .null (k := k) (.inr rfl)
  rw [entry, entry]
  generalize entryD es k .null = a at this ⊢
  generalize entryD fs k .null = b at this ⊢
  cases this with
  | same => rfl
  | members h => exact absurd h hk.1
  | number h => exact absurd h (not_or.2 hk.2)

/-- Value and values of a member: the same, in the other notation, or both are there. -/
def ValuesAlike (es fs : List (Key × Yaml)) : Prop :=
  (entry fs "value" = entry es "value" ∧ entry fs "values" = entry es "values") ∨
    (∃ v, v ≠ .null ∧ entry es "value" = v ∧ entry es "values" = .null ∧ entry fs "value" = .null ∧
      entry fs "values" = .list [v]) ∨
    (∃ v, v ≠ .null ∧ entry es "value" = .null ∧ entry es "values" = .list [v] ∧ entry fs "value" = v ∧
      entry fs "values" = .null) ∨
    (entry es "value" ≠ .null ∧ entry es "values" ≠ .null ∧ entry fs "value" ≠ .null ∧ entry fs "values" ≠ .null)

theorem noted_values {es fs : List (Key × Yaml)} (h : NotedEntries E m es fs) (hd : (es.map (·.1)).Nodup)
    (hd' : (fs.map (·.1)).Nodup) : ValuesAlike es fs := by
  induction es generalizing fs with
  | nil => cases h; exact .inl ⟨rfl, rfl⟩
  | cons e es ih =>
    have step : ∀ k y y' fs', (Key.str k ≠ Key.str "value" ∧ Key.str k ≠ Key.str "values") → ValuesAlike es fs' →
        ValuesAlike ((.str k, y) :: es) ((.str k, y') :: fs') := by
      intro k y y' fs' hk h
      simp only [ValuesAlike, entry, entryD_cons, if_neg hk.1, if_neg hk.2]
      exact h
    cases h with
    | @same _ k y _ fs t =>
      simp only [List.map_cons, List.nodup_cons] at hd hd'
      have := ih t hd.2 hd'.2
      by_cases h1 : k = .str "value"
      · subst h1
        have e1 := entry_none hd.1
        have e2 := entry_none hd'.1
        have : entry fs "values" = entry es "values" := by
          rcases this with h | ⟨v, hv, h, -⟩ | ⟨v, hv, -, -, h, -⟩ | ⟨h, -⟩
          · exact h.2
          · exact absurd (h.symm.trans e1) hv
          · exact absurd (h.symm.trans e2) hv
          · exact absurd e1 h
        refine .inl ⟨?_, ?_⟩
        · simp [entry, entryD_cons]
        · simp only [entry, entryD_cons] at this ⊢
          rw [if_neg (by decide), if_neg (by decide), this]
      · by_cases h2 : k = .str "values"
        · subst h2
          have e1 := entry_none hd.1
          have e2 := entry_none hd'.1
          have : entry fs "value" = entry es "value" := by
            rcases this with h | ⟨v, hv, -, -, -, h⟩ | ⟨v, hv, -, h, -⟩ | ⟨-, h, -⟩
            · exact h.1
            · rw [e2] at h; cases h
            · rw [e1] at h; cases h
            · exact absurd e1 h
          refine .inl ⟨?_, ?_⟩
          · simp only [entry, entryD_cons] at this ⊢
            rw [if_neg (by decide), if_neg (by decide), this]
          · simp [entry, entryD_cons]
        · simp only [ValuesAlike, entry, entryD_cons, if_neg h1, if_neg h2] at this ⊢
          exact this
    | @members _ _ _ _ fs h t =>
      simp only [List.map_cons, List.nodup_cons] at hd hd'
      exact step _ _ _ _ ⟨by decide, by decide⟩ (ih t hd.2 hd'.2)
    | @number _ k _ _ _ _ fs hk h h' t =>
      simp only [List.map_cons, List.nodup_cons] at hd hd'
      exact step _ _ _ _ (by rcases hk with rfl | rfl <;> exact ⟨by decide, by decide⟩) (ih t hd.2 hd'.2)
    | @many v _ fs hv t =>
      simp only [List.map_cons, List.nodup_cons] at hd hd'
      have e1 := entry_none hd.1
      have e2 := entry_none hd'.1
      have f1 : entry ((Key.str "value", v) :: es) "value" = v := by simp [entry, entryD_cons]
      have f2 : entry ((Key.str "value", v) :: es) "values" = entry es "values" := by simp [entry, entryD_cons]
      have f3 : entry ((Key.str "values", Yaml.list [v]) :: fs) "value" = entry fs "value" := by simp [entry, entryD_cons]
      have f4 : entry ((Key.str "values", Yaml.list [v]) :: fs) "values" = .list [v] := by simp [entry, entryD_cons]
      rw [ValuesAlike, f1, f2, f3, f4]
      rcases ih t hd.2 hd'.2 with h | ⟨w, hw, h, -⟩ | ⟨w, hw, -, h1, h2, -⟩ | ⟨h, -⟩
      · exact .inr (.inl ⟨v, hv, rfl, h.2.symm.trans e2, h.1.trans e1, rfl⟩)
      · exact absurd (h.symm.trans e1) hw
      · exact .inr (.inr (.inr ⟨hv, by rw [h1]; exact (nomatch ·), by rw [h2]; exact hw, (nomatch ·)⟩))
      · exact absurd e1 h
    | @one v _ fs hv t =>
      simp only [List.map_cons, List.nodup_cons] at hd hd'
      have e1 := entry_none hd.1
      have e2 := entry_none hd'.1
      have f1 : entry ((Key.str "value", v) :: fs) "value" = v := by simp [entry, entryD_cons]
      have f2 : entry ((Key.str "value", v) :: fs) "values" = entry fs "values" := by simp [entry, entryD_cons]
      have f3 : entry ((Key.str "values", Yaml.list [v]) :: es) "value" = entry es "value" := by simp [entry, entryD_cons]
      have f4 : entry ((Key.str "values", Yaml.list [v]) :: es) "values" = .list [v] := by simp [entry, entryD_cons]
      rw [ValuesAlike, f1, f2, f3, f4]
      rcases ih t hd.2 hd'.2 with h | ⟨w, hw, h1, h2, h3, h4⟩ | ⟨w, hw, -, h, -⟩ | ⟨-, h, -⟩
      · exact .inr (.inr (.inl ⟨v, hv, h.1.symm.trans e2, rfl, rfl, h.2.trans e1⟩))
      · exact .inr (.inr (.inr ⟨by rw [h1]; exact hw, (nomatch ·), hv, by rw [h4]; exact (nomatch ·)⟩))
      · rw [e1] at h; cases h
      · exact absurd e1 h

theorem supportedBy_noted {es fs : List (Key × Yaml)} (h : ValuesAlike es fs) {sv : Option (List Lit)}
    (hs : SupportedBy (entry es "value") (entry es "values") sv) :
    SupportedBy (entry fs "value") (entry fs "values") sv := by
  rcases h with ⟨h1, h2⟩ | ⟨v, hv, h1, h2, h3, h4⟩ | ⟨v, hv, h1, h2, h3, h4⟩ | ⟨h1, h2, -⟩
  · rw [h1, h2]; exact hs
  · rw [h1, h2] at hs
    rw [h3, h4]
    cases hs with
    | absent => exact absurd rfl hv
    | one _ h => exact .many (fun h => nomatch h) .list (.cons h .nil)
    | many _ => exact absurd rfl hv
  · rw [h1, h2] at hs
    rw [h3, h4]
    cases hs with
    | absent h => cases h
    | many _ hi h =>
      cases hi
      cases h with
      | cons h t => cases t; exact .one hv h
  · generalize entry es "value" = a at hs h1
    generalize entry es "values" = b at hs h2
    cases hs with
    | absent => exact absurd rfl h1
    | one => exact absurd rfl h2
    | many => exact absurd rfl h1

theorem notedEntries_refl (m : Bool) (es : List (Key × Yaml)) : NotedEntries E m es es := by
  induction es with
  | nil => exact .nil
  | cons e es ih => exact .same ih

theorem notedItems_refl (l : List Yaml) : NotedItems E l l := by
  induction l with
  | nil => exact .nil
  | cons y l ih => exact .cons (.same true y) ih

theorem knownKeys_noted {es fs : List (Key × Yaml)} (h : NotedEntries E m es fs) {sup : List String}
    (hs : m = true → ("value" ∈ sup ↔ "values" ∈ sup)) (hk : KnownKeys sup es) : KnownKeys sup fs := by
  induction es generalizing fs with
  | nil => cases h; exact hk
  | cons e es ih =>
    have ht : KnownKeys sup es := fun e he => hk e (List.mem_cons_of_mem _ he)
    have hh := hk e List.mem_cons_self
    intro e' he'
    cases h with
    | same t =>
      rcases List.mem_cons.1 he' with rfl | he'
      · exact hh
      · exact ih t ht e' he'
    | members _ t =>
      rcases List.mem_cons.1 he' with rfl | he'
      · exact hh
      · exact ih t ht e' he'
    | number _ _ _ t =>
      rcases List.mem_cons.1 he' with rfl | he'
      · exact hh
      · exact ih t ht e' he'
    | many _ t =>
      rcases List.mem_cons.1 he' with rfl | he'
      · obtain ⟨s, h1, h2⟩ := hh
        cases h2
        exact ⟨_, (hs rfl).1 h1, rfl⟩
      · exact ih t ht e' he'
    | one _ t =>
      rcases List.mem_cons.1 he' with rfl | he'
      · obtain ⟨s, h1, h2⟩ := hh
        cases h2
        exact ⟨_, (hs rfl).2 h1, rfl⟩
      · exact ih t ht e' he'

theorem memberKeys_values (y : Yaml) : "value" ∈ memberKeys y ↔ "values" ∈ memberKeys y := by
  unfold memberKeys
  split <;> decide

theorem asNumber_unique {y : Yaml} {i j : Int} (h : AsNumber E y i) (h' : AsNumber E y j) : i = j := by
  cases h with
  | false => cases h'; rfl
  | true => cases h'; rfl
  | int => cases h'; rfl
  | float h => cases h' with
    | float h' => rw [h] at h'; cases h'; rfl
  | text h => cases h' with
    | text h' => rw [h] at h'; cases h'; rfl

theorem asNumber_value {y : Yaml} {i : Int} (h : AsNumber E y i) : y ≠ .null := by
  rintro rfl
  cases h

theorem noted_size {es fs : List (Key × Yaml)} (h : NotedEntries E m es fs) {k : String}
    (hk : k = "elements_data_size" ∨ k = "number_of_elements") :
    (entry es k = .null ↔ entry fs k = .null) ∧
      ∀ n x, SizeRule E (entry es k) n x → SizeRule E (entry fs k) n x := by
  have := noted_entryD h .null (k := k) (.inl (by rcases hk with rfl | rfl <;> exact ⟨by decide, by decide⟩))
  rw [entry, entry]
  generalize entryD es k .null = a at this ⊢
  generalize entryD fs k .null = b at this ⊢
  cases this with
  | same => exact ⟨Iff.rfl, fun _ _ => id⟩
  | members h => subst h; simp at hk
  | number _ h h' =>
    refine ⟨iff_of_false (asNumber_value h) (asNumber_value h'), fun n x hx => ?_⟩
    cases hx with
    | absent => cases h
    | number h2 => rw [asNumber_unique h2 h]; exact .number h'
    | expr h2 => cases h with
      | text h => rw [h2] at h; cases h

theorem elementRules_noted {es fs : List (Key × Yaml)} (h : NotedEntries E m es fs) {look : String → Option Defn}
    {i : SeqInfo} {e : Defn} (he : ElementRules E look es i e) : ElementRules E look fs i e := by
  have h1 := noted_size h (.inl rfl)
  have h2 := noted_size h (.inr rfl)
  refine ⟨?_, ?_, ?_, h1.2 _ _ he.size, h2.2 _ _ he.number, ?_⟩
  · rw [noted_plain h (by decide)]; exact he.element
  · rw [noted_plain h (k := "elements_terminator") (by decide), Ne, ← h1.1, Ne, Ne, ← h2.1]; exact he.some_rule
  · rw [← h1.1, ← h2.1]; exact he.not_both
  · rw [noted_plain h (by decide)]; exact he.terminator

theorem noted_items {es fs : List (Key × Yaml)} (h : NotedEntries E m es fs) {items : List Yaml}
    (hv : ¬ NoValue (entry es "members")) (hi : Items (entry es "members") items) :
    ∃ items', ¬ NoValue (entry fs "members") ∧ Items (entry fs "members") items' ∧ NotedItems E items items' := by
  have := noted_entryD h .null (k := "members") (.inl (by decide))
  rw [entry] at hv hi ⊢
  generalize entryD es "members" .null = a at this hv hi
  generalize entryD fs "members" .null = b at this
  cases this with
  | same => exact ⟨items, hv, hi, notedItems_refl items⟩
  | @members l l' _ h =>
    cases hi
    refine ⟨l', ?_, .list, h⟩
    cases h with
    | nil => exact hv
    | cons => exact (nomatch ·)
  | number hk => rcases hk with hk | hk <;> simp at hk

theorem namesOf_noted {look : String → Option Defn} {items items' : List Yaml} (h : NotedItems E items items')
    {ds : List Defn} (hl : All2 (NameOf look) items ds) : items' = items := by
  induction items generalizing items' ds with
  | nil => cases h; rfl
  | cons y l ih =>
    cases h with
    | cons h t =>
      cases hl with
      | cons h1 h2 =>
        rw [ih t h2]
        obtain ⟨n, rfl, -⟩ := h1
        cases h
        rfl

/-- Members of lists that differ in notation. -/
theorem memberList_noted {rm : Yaml → Defn → Prop} {items items' : List Yaml} (h : NotedItems E items items')
    (hrm : ∀ y ∈ items, ∀ y', Noted E true y y' → ∀ x, rm y x → rm y' x) {ds : List Defn}
    (hd : MemberList rm items ds) : MemberList rm items' ds := by
  induction items generalizing items' ds with
  | nil => cases h; exact hd
  | cons y l ih =>
    cases h with
    | @cons _ y' _ l' h t =>
      have hrm' : ∀ y ∈ l, ∀ y', Noted E true y y' → ∀ x, rm y x → rm y' x :=
        fun y hy => hrm y (List.mem_cons_of_mem _ hy)
      have shape : ∀ es, y = .map es → ∃ fs, y' = .map fs ∧ NotedEntries E true es fs := by
        rintro es rfl
        cases h with
        | same => exact ⟨es, rfl, notedEntries_refl true es⟩
        | mapping _ _ h => exact ⟨_, rfl, h⟩
      cases hd with
      | @sect es n _ _ hs he hd =>
        obtain ⟨fs, rfl, hf⟩ := shape es rfl
        exact .sect (by rw [noted_plain hf (by decide)]; exact hs) he (ih t hrm' hd)
      | @member es d _ _ hs hx hd =>
        have hx' := hrm _ List.mem_cons_self _ h _ hx
        obtain ⟨fs, rfl, hf⟩ := shape es rfl
        exact .member (by rw [noted_plain hf (by decide)]; exact hs) hx' (ih t hrm' hd)

theorem ofType_noted {look : String → Option Defn} {es fs : List (Key × Yaml)} (h : NotedEntries E m es fs)
    (ih : ∀ c y y' x, y.depth < (Yaml.map es).depth → Noted E true y y' → Member E look c y x → Member E look c y' x)
    {name ty : String} {x : Defn} (hx : OfType E look (Member E look) m name es ty x) :
    OfType E look (Member E look) m name fs ty x := by
  have h1 : attrsOf fs = attrsOf es := by rw [attrsOf, attrsOf, noted_plain h (by decide)]
  have h2 : entry fs "attributes" = entry es "attributes" := noted_plain h (by decide)
  have f2 : ∀ ty, Attributes ty es → Attributes ty fs := by
    intro ty; rw [Attributes, Attributes, h2]; exact id
  have f3 : ∀ o, ByteOrder es o → ByteOrder fs o := by intro o; rw [ByteOrder, ByteOrder, h1]; exact id
  have f4 : ∀ l d s, HasSize l d es s → HasSize l d fs s := by intro l d s; rw [HasSize, HasSize, h1]; exact id
  have f5 : ∀ u, Units es u → Units fs u := by intro u; rw [Units, Units, h1]; exact id
  have f6 : ∀ n o x, Head es n o x → Head fs n o x := fun n o x hx =>
    ⟨hx.name, hx.order, by rw [noted_plain h (by decide)]; exact hx.aliases,
      by rw [noted_plain h (by decide)]; exact hx.description⟩
  cases hx with
  | primitive ha ho hh hk hs hu =>
    exact .primitive (f2 _ ha) (f3 _ ho) (f6 _ _ _ hh) (by rw [h1]; exact hk) (f4 _ _ _ hs) (f5 _ hu)
  | uuid ha ho hh hs hu => exact .uuid (f2 _ ha) (f3 _ ho) (f6 _ _ _ hh) (f4 _ _ _ hs) (f5 _ hu)
  | padding hm hh ha hs =>
    exact .padding hm (f6 _ _ _ hh) (by rw [noted_plain h (by decide)]; exact ha) hs
  | sequence hk he hh => exact .sequence hk (elementRules_noted h he) (f6 _ _ _ hh)
  | stream hk he hh => exact .stream hk (elementRules_noted h he) (f6 _ _ _ hh)
  | string hk hc hn he hh =>
    exact .string hk (by rw [noted_plain h (by decide)]; exact hc) hn (elementRules_noted h he) (f6 _ _ _ hh)
  | «structure» hm ha ho hh hne hi hl hd =>
    obtain ⟨items', h2, h3, h4⟩ := noted_items h hne hi
    exact .structure hm (f2 _ ha) (f3 _ ho) (f6 _ _ _ hh) h2 h3 (memberList_noted h4
      (fun y hy y' hyy x hx => ih true y y' x (members_depth (items_iff.1 hi) hy) hyy hx) hl) hd
  | union ha ho hh hne hi hl hd =>
    obtain ⟨items', h2, h3, h4⟩ := noted_items h hne hi
    exact .union (f2 _ ha) (f3 _ ho) (f6 _ _ _ hh) h2 h3 (memberList_noted h4
      (fun y hy y' hyy x hx => ih false y y' x (members_depth (items_iff.1 hi) hy) hyy hx) hl) hd
  | constant hm hh hv hl =>
    subst hm
    have := noted_value h (k := "value") (by decide)
    exact .constant rfl (f6 _ _ _ hh) (by rw [this]; exact hv) (by rw [this]; exact hl)
  | enumeration hm hh ht hi hv hd =>
    subst hm
    have := noted_value h (k := "values") (by decide)
    exact .enumeration rfl (f6 _ _ _ hh) (by rw [this]; exact ht) (by rw [this]; exact hi) hv hd
  | format hm hh ha ho hi hl =>
    refine .format hm (f6 _ _ _ hh) (f2 _ ha) ?_ (by rw [noted_plainD h _ (by decide)]; exact hi) hl
    rw [h2]
    exact ho.imp id fun ⟨h1, p, h2, h3⟩ => ⟨h1, p, f3 _ h2, h3⟩
  | family hm hh hb hbt ht hi hl hd =>
    obtain ⟨items', h3, h4, h5⟩ := noted_items h ht hi
    rw [namesOf_noted h5 hl] at h4
    exact .family hm (f6 _ _ _ hh) (by rw [noted_plain h (by decide)]; exact hb)
      (by rw [noted_plain h (by decide)]; exact hbt) h3 h4 hl hd
  | group hm hh hb hbt hid hin hdf ht hi hl hd hx =>
    obtain ⟨items', h3, h4, h5⟩ := noted_items h ht hi
    rw [namesOf_noted h5 hl] at h4
    exact .group hm (f6 _ _ _ hh) (by rw [noted_plain h (by decide)]; exact hb)
      (by rw [noted_plain h (by decide)]; exact hbt) (by rw [noted_plain h (by decide)]; exact hid) hin
      (by rw [noted_plain h (by decide)]; exact hdf) h3 h4 hl hd hx

theorem member_noted {look : String → Option Defn} (k : Nat) : ∀ c y y' x, y.depth ≤ k → Noted E true y y' →
    Member E look c y x → Member E look c y' x := by
  induction k with
  | zero =>
    intro c y y' x hk _ hx
    cases hx with
    | typed => rw [Yaml.depth] at hk; omega
    | reference => rw [Yaml.depth] at hk; omega
  | succ k ih =>
    intro c y y' x hk h hx
    cases h with
    | same => exact hx
    | @mapping _ es fs hd hd' hf =>
      have hvs := noted_values hf hd hd'
      cases hx with
      | @typed _ _ name ty inner cond sv hn hty hdt hc hcc hv hk' hi =>
        refine .typed (name := name) (ty := ty) ?_ ?_ ?_ ?_ ?_ (supportedBy_noted hvs hv)
          (knownKeys_noted hf (fun _ => memberKeys_values _) hk')
          (ofType_noted hf (fun c y y' x hd => ih c y y' x (by omega)) hi)
        · rw [noted_plain hf (by decide)]; exact hn
        · rw [noted_plain hf (by decide)]; exact hty
        · rw [noted_plain hf (by decide)]; exact hdt
        · rw [noted_plain hf (by decide)]; exact hc
        · rw [noted_plain hf (by decide)]; exact hcc
      | reference hn hty hdt hc hcc hv hk' hi hh =>
        refine .reference ?_ ?_ ?_ ?_ ?_ (supportedBy_noted hvs hv)
          (knownKeys_noted hf (fun _ => memberKeys_values _) hk') hi
          ⟨hh.name, hh.order, by rw [noted_plain hf (by decide)]; exact hh.aliases,
            by rw [noted_plain hf (by decide)]; exact hh.description⟩
        · rw [noted_plain hf (by decide)]; exact hn
        · rw [noted_plain hf (by decide)]; exact hty
        · rw [noted_plain hf (by decide)]; exact hdt
        · rw [noted_plain hf (by decide)]; exact hc
        · rw [noted_plain hf (by decide)]; exact hcc

theorem describes_noted {look : String → Option Defn} {y y' : Yaml} (h : Noted E false y y') {x : Defn}
    (hx : Describes E look y x) : Describes E look y' x := by
  cases h with
  | same => exact hx
  | @mapping _ es fs _ _ hf =>
    obtain ⟨es', name, ty, he, h1, h2, h3, h4, h5⟩ := hx
    cases he
    refine ⟨fs, name, ty, rfl, ?_, h2, ?_, knownKeys_noted hf (nomatch ·) h4,
      ofType_noted hf (fun c y y' x _ => member_noted _ c y y' x (Nat.le_refl _)) h5⟩
    · rw [noted_plain hf (by decide)]; exact h1
    · rw [noted_plain hf (by decide)]; exact h3

end

mutual
theorem noted_symm {E : Env} : ∀ {m : Bool} {y y' : Yaml}, Noted E m y y' → Noted E m y' y
  | _, _, _, .same _ _ => .same _ _
  | _, _, _, .mapping hd hd' h => .mapping hd' hd (notedEntries_symm h)
theorem notedEntries_symm {E : Env} : ∀ {m : Bool} {es fs : List (Key × Yaml)}, NotedEntries E m es fs →
    NotedEntries E m fs es
  | _, _, _, .nil => .nil
  | _, _, _, .same t => .same (notedEntries_symm t)
  | _, _, _, .members h t => .members (notedItems_symm h) (notedEntries_symm t)
  | _, _, _, .number hk h h' t => .number hk h' h (notedEntries_symm t)
  | _, _, _, .many hv t => .one hv (notedEntries_symm t)
  | _, _, _, .one hv t => .many hv (notedEntries_symm t)
theorem notedItems_symm {E : Env} : ∀ {l l' : List Yaml}, NotedItems E l l' → NotedItems E l' l
  | _, _, .nil => .nil
  | _, _, .cons h t => .cons (noted_symm h) (notedItems_symm t)
end

/-- **C113** A document is read as the same definition, or not at all, in the other notation. -/
theorem C113_document (E : Env) (reg : Registry) (y y' : Yaml) (h : Noted E false y y') (d : Defn) :
    readDefinition E reg y = .ok d ↔ readDefinition E reg y' = .ok d := by
  rw [C54_document, C54_document]
  exact ⟨describes_noted h, describes_noted (noted_symm h)⟩

/-- **C113** Files that differ in notation only are both read without error or both not, and the same
definitions are known afterwards. -/
theorem C113_file (E : Env) (reg : Registry) (f f' : YamlFile) (h : All2 (Noted E false) f.docs f'.docs)
    (he : f.ending = f'.ending) :
    ((readFileObject E reg f).1 = .ok () ↔ (readFileObject E reg f').1 = .ok ()) ∧
      (readFileObject E reg f).2 = (readFileObject E reg f').2 := by
  have key : ∀ l l' : List Yaml, All2 (Noted E false) l l' → ∀ reg : Registry,
      ((readDocs E reg l).1 = .ok () ↔ (readDocs E reg l').1 = .ok ()) ∧
        (readDocs E reg l).2 = (readDocs E reg l').2 := by
    intro l l' h
    induction h with
    | nil => exact fun reg => ⟨Iff.rfl, rfl⟩
    | @cons y y' _ _ h _ ih =>
      intro reg
      have hd := C113_document E reg y y' h
      simp only [readDocs]
      cases hy : readDefinition E reg y with
      | ok d =>
        rw [(hd d).1 hy]
        simp only
        generalize reg.register E d = p
        obtain ⟨a, r⟩ := p
        cases a with
        | error e => exact ⟨Iff.rfl, rfl⟩
        | ok a => exact ih r
      | error e =>
        cases hy' : readDefinition E reg y' with
        | ok d => rw [(hd d).2 hy'] at hy; cases hy
        | error e' => exact ⟨iff_of_false (fun h => nomatch h) (fun h => nomatch h), rfl⟩
  have := key _ _ h reg
  simp only [readFileObject, ← he]
  generalize readDocs E reg f.docs = p at this
  generalize readDocs E reg f'.docs = p' at this
  obtain ⟨a, r⟩ := p
  obtain ⟨a', r'⟩ := p'
  obtain ⟨h1, h2⟩ := this
  simp only at h1 h2
  subst h2
  cases a with
  | error e =>
    cases a' with
    | error e' => exact ⟨iff_of_false (fun h => nomatch h) (fun h => nomatch h), rfl⟩
    | ok a' => cases h1.2 rfl
  | ok a =>
    cases a' with
    | error e' => cases h1.1 rfl
    | ok a' => cases f.ending <;> exact ⟨Iff.rfl, rfl⟩

/-! ### Examples -/

def docNoted (vs : String × Yaml) (n : Yaml) : Yaml := doc [("name", .str "record"), ("type", .str "structure"),
  ("members", .list [doc [("name", .str "version"), ("data_type", .str "u8"), vs],
    doc [("name", .str "data"), ("type", .str "stream"), ("element_data_type", .str "u8"), ("elements_data_size", n)]])]

/-- One value and a list with the value, a number and a truth value. -/
theorem exNoted : Noted exEnvR false (docNoted ("value", .int 3) (.int 1)) (docNoted ("values", .list [.int 3]) (.bool true)) :=
  .mapping (by decide) (by decide) (.same (.same (.members (.cons
    (.mapping (by decide) (by decide) (.same (.same (.many (by simp) .nil)))) (.cons
    (.mapping (by decide) (by decide) (.same (.same (.same (.number (.inl rfl) .int .true .nil))))) .nil)) .nil)))

example : (readFileObject exEnvR {} { docs := [docU8, docNoted ("value", .int 3) (.int 1)] }).1 = .ok () ∧
    (readFileObject exEnvR {} { docs := [docU8, docNoted ("value", .int 3) (.int 1)] }).2 =
      (readFileObject exEnvR {} { docs := [docU8, docNoted ("values", .list [.int 3]) (.bool true)] }).2 :=
  ⟨rfl, (C113_file exEnvR {} { docs := [docU8, docNoted ("value", .int 3) (.int 1)] }
    { docs := [docU8, docNoted ("values", .list [.int 3]) (.bool true)] }
    (.cons (.same _ _) (.cons exNoted .nil)) rfl).2⟩

/-- The value null is no value: it restricts nothing, while the list with null restricts. -/
theorem C113_null : ∃ x y,
    readDefinition exEnvR (readFileObject exEnvR {} { docs := [docU8] }).2 (docNoted ("value", .null) (.int 1)) = .ok x ∧
      readDefinition exEnvR (readFileObject exEnvR {} { docs := [docU8] }).2
        (docNoted ("values", .list [.null]) (.int 1)) = .ok y ∧ x ≠ y := by
  refine ⟨_, _, rfl, rfl, ?_⟩
  intro h
  injection h with _ h
  injection h with h
  injection h with _ _ _ _ h
  cases h

end Dtf
