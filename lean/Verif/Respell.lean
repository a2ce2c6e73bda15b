import Verif.Props.Documents
import Verif.Reword
/-!
Definition files that refer to types by other names.
-/
namespace Dtf

namespace Spec

/-- The keys under which a type is referred to. -/
def referenceKeys : List String := ["data_type", "element_data_type", "base", "default"]

mutual
/-- Values that differ only in the names by which types are referred to; `R` says which names may be
exchanged. -/
inductive Respelled (R : String → String → Prop) : Yaml → Yaml → Prop
  | same (y) : Respelled R y y
  | mapping {es fs} (h : RespelledEntries R es fs) : Respelled R (.map es) (.map fs)
inductive RespelledEntries (R : String → String → Prop) : List (Key × Yaml) → List (Key × Yaml) → Prop
  | nil : RespelledEntries R [] []
  | cons {k y y' es fs} (h : RespelledAt R k y y') (t : RespelledEntries R es fs) :
      RespelledEntries R ((k, y) :: es) ((k, y') :: fs)
/-- The same for the value of a key. -/
inductive RespelledAt (R : String → String → Prop) : Key → Yaml → Yaml → Prop
  | same {k} (y) : RespelledAt R k y y
  | name {k n n'} (hk : k ∈ referenceKeys) (h : R n n') : RespelledAt R (.str k) (.str n) (.str n')
  | members {l l'} (h : RespelledItems R l l') : RespelledAt R (.str "members") (.list l) (.list l')
/-- The same for the members of a structure or union, and for the names of those of a family or group. -/
inductive RespelledItems (R : String → String → Prop) : List Yaml → List Yaml → Prop
  | nil : RespelledItems R [] []
  | cons {y y' l l'} (h : Respelled R y y') (t : RespelledItems R l l') : RespelledItems R (y :: l) (y' :: l')
  | name {n n' l l'} (h : R n n') (t : RespelledItems R l l') : RespelledItems R (.str n :: l) (.str n' :: l')
end

end Spec
open Spec

/-! ### Definitions -/

def isMember : Defn → Bool
  | .member .. => true
  | _ => false

/-- Definitions that differ only in the names by which they refer to others. -/
structure Respelt (d d' : Defn) : Prop where
  there : Relabelled d d'
  back : Relabelled d' d
  hdr : d'.hdr = d.hdr
  member : isMember d' = isMember d
  given : ∀ n, givenByName n d' = givenByName n d
  names : d'.members?.map (·.map Defn.name) = d.members?.map (·.map Defn.name)

theorem Respelt.refl (d : Defn) : Respelt d d :=
  ⟨relabelled_bare rfl, relabelled_bare rfl, rfl, rfl, fun _ => rfl, rfl⟩

theorem Respelt.symm {d d' : Defn} (h : Respelt d d') : Respelt d' d :=
  ⟨h.back, h.there, h.hdr.symm, h.member.symm, fun n => (h.given n).symm, h.names.symm⟩

theorem Respelt.name {d d' : Defn} (h : Respelt d d') : d'.name = d.name := by
  rw [Defn.name, h.hdr, Defn.name]

theorem Respelt.order {d d' : Defn} (h : Respelt d d') : d'.orderOrNative = d.orderOrNative := h.there.orderOrNative

theorem respelt_list {ds ds' : List Defn} (h : All2 Respelt ds ds') :
    SameNamed ds ds' ∧ SameNamed ds' ds ∧ RelabelledAll ds ds' ∧ RelabelledAll ds' ds ∧
      ds'.map Defn.name = ds.map Defn.name ∧ (∀ n, ds'.map (givenByName n) = ds.map (givenByName n)) ∧
      ∀ n, (ds'.find? (·.name == n)).map isMember = (ds.find? (·.name == n)).map isMember := by
  induction h with
  | nil => exact ⟨.nil, .nil, .nil, .nil, rfl, fun _ => rfl, fun _ => rfl⟩
  | cons h _ ih =>
    obtain ⟨h1, h2, h3, h4, h5, h6, h7⟩ := ih
    refine ⟨.cons h.name.symm h.there h1, .cons h.name h.back h2, .cons h.there h3, .cons h.back h4, ?_, ?_, ?_⟩
    · rw [List.map_cons, List.map_cons, h5, h.name]
    · intro n; rw [List.map_cons, List.map_cons, h6, h.given]
    · intro n
      rw [List.find?_cons, List.find?_cons, h.name]
      split
      · rw [Option.map_some, Option.map_some, h.member]
      · exact h7 n

theorem givenByName_struct (n : String) (h : Hdr) (ms : List Defn) :
    givenByName n (.struct h ms) = (ms.find? (·.name == n)).map isMember := by
  rw [givenByName]
  congr 1

theorem givenByName_union (n : String) (h : Hdr) (ms : List Defn) :
    givenByName n (.union h ms) = (ms.find? (·.name == n)).map isMember := by
  rw [givenByName]
  congr 1

theorem Respelt.struct (h : Hdr) {ds ds' : List Defn} (hd : All2 Respelt ds ds') :
    Respelt (.struct h ds) (.struct h ds') := by
  obtain ⟨h1, h2, h3, h4, h5, h6, h7⟩ := respelt_list hd
  refine ⟨.struct rfl rfl h1, .struct rfl rfl h2, rfl, rfl, ?_, ?_⟩
  · intro n; rw [givenByName_struct, givenByName_struct, h7]
  · simp only [Defn.members?, Option.map_some, h5]

theorem Respelt.union (h : Hdr) {ds ds' : List Defn} (hd : All2 Respelt ds ds') :
    Respelt (.union h ds) (.union h ds') := by
  obtain ⟨h1, h2, h3, h4, h5, h6, h7⟩ := respelt_list hd
  refine ⟨.union rfl h1, .union rfl h2, rfl, rfl, ?_, ?_⟩
  · intro n; rw [givenByName_union, givenByName_union, h7]
  · simp only [Defn.members?, Option.map_some, h5]

theorem Respelt.family (h : Hdr) {b b' : Defn} (hb : Respelt b b') {ds ds' : List Defn} (hd : All2 Respelt ds ds') :
    Respelt (.family h b ds) (.family h b' ds') := by
  obtain ⟨h1, h2, h3, h4, h5, h6, h7⟩ := respelt_list hd
  refine ⟨.family hb.there h3, .family hb.back h4, rfl, rfl, fun _ => rfl, ?_⟩
  simp only [Defn.members?, Option.map_some, h5]

theorem Respelt.group (h : Hdr) (i : String) {b b' : Defn} (hb : Respelt b b') {df df' : Option Defn}
    (ho : (df = none ∧ df' = none) ∨ ∃ d d', df = some d ∧ df' = some d' ∧ Respelt d d')
    {ds ds' : List Defn} (hd : All2 Respelt ds ds') :
    Respelt (.group h b i df ds) (.group h b' i df' ds') := by
  obtain ⟨h1, h2, h3, h4, h5, h6, h7⟩ := respelt_list hd
  have h8 : RelabelledOpt df df' ∧ RelabelledOpt df' df := by
    rcases ho with ⟨rfl, rfl⟩ | ⟨d, d', rfl, rfl, hx⟩
    · exact ⟨.none, .none⟩
    · exact ⟨.some hx.there, .some hx.back⟩
  refine ⟨.group rfl hb.there h8.1 h3 (h6 i), .group rfl hb.back h8.2 h4 (h6 i).symm, rfl, rfl, fun _ => rfl, ?_⟩
  simp only [Defn.members?, Option.map_some, h5]

theorem Respelt.seq (h : Hdr) (info : SeqInfo) {n n' : String} (hn : info.elementDataType = some n) {e e' : Defn}
    (he : Respelt e e') : Respelt (.seq h info e) (.seq h { info with elementDataType := some n' } e') := by
  refine ⟨.seq info (some n') rfl (by rw [hn]; rfl) he.there, ?_, rfl, rfl, fun _ => rfl, rfl⟩
  have := Relabelled.seq (h := h) (h' := h) { info with elementDataType := some n' } (some n) rfl rfl he.back
  simp only at this
  rwa [← hn] at this

theorem Respelt.memberOf (h : Hdr) (c : Option String) {t t' : Option String} (ht : t.isSome = t'.isSome)
    (vs : Option (List Lit)) {d d' : Defn} (hd : Respelt d d') :
    Respelt (.member h d c t vs) (.member h d' c t' vs) :=
  ⟨.member c vs hd.there ht, .member c vs hd.back ht.symm, rfl, rfl, fun _ => rfl, rfl⟩

/-! ### Documents -/

theorem respelled_entryD {R : String → String → Prop} {es fs : List (Key × Yaml)} (h : RespelledEntries R es fs)
    (k : String) (dflt : Yaml) : RespelledAt R (.str k) (entryD es k dflt) (entryD fs k dflt) := by
  induction es generalizing fs with
  | nil => cases h; exact .same _
  | cons e es ih =>
    cases h with
    | @cons k' y y' _ fs h t =>
      simp only [entryD, List.find?_cons] at ih ⊢
      by_cases hk : k' = .str k
      · subst hk
        simpa using h
      · have : (k' == Key.str k) = false := by simpa using hk
        rw [this]
        exact ih t

theorem respelled_plainD {R : String → String → Prop} {es fs : List (Key × Yaml)} (h : RespelledEntries R es fs)
    {k : String} (hk : k ∉ "members" :: referenceKeys) (dflt : Yaml) : entryD fs k dflt = entryD es k dflt := by
  have := respelled_entryD h k dflt
  generalize entryD es k dflt = x at this
  generalize entryD fs k dflt = x' at this
  cases this with
  | same => rfl
  | name hk' _ => exact absurd (List.mem_cons_of_mem _ hk') hk
  | members _ => exact absurd List.mem_cons_self hk

theorem respelled_plain {R : String → String → Prop} {es fs : List (Key × Yaml)} (h : RespelledEntries R es fs)
    {k : String} (hk : k ∉ "members" :: referenceKeys) : entry fs k = entry es k := respelled_plainD h hk .null

theorem null_respelled {R : String → String → Prop} {k : Key} {x : Yaml} (h : RespelledAt R k .null x) : x = .null := by
  generalize hy : Yaml.null = y at h
  cases h with
  | same => rfl
  | name => cases hy
  | members => cases hy

theorem respelled_keys {R : String → String → Prop} {es fs : List (Key × Yaml)} (h : RespelledEntries R es fs)
    (sup : List String) : KnownKeys sup es → KnownKeys sup fs := by
  induction es generalizing fs with
  | nil => cases h; exact id
  | cons e es ih =>
    cases h with
    | @cons k' y y' _ fs h t =>
      intro hk e he
      rw [List.mem_cons] at he
      rcases he with rfl | he
      · exact hk (k', y) List.mem_cons_self
      · exact ih t (fun e he => hk e (List.mem_cons_of_mem _ he)) e he

theorem respelled_refl (R : String → String → Prop) (es : List (Key × Yaml)) : RespelledEntries R es es := by
  induction es with
  | nil => exact .nil
  | cons e es ih => obtain ⟨k, y⟩ := e; exact .cons (.same y) ih

theorem respelledItems_refl (R : String → String → Prop) (l : List Yaml) : RespelledItems R l l := by
  induction l with
  | nil => exact .nil
  | cons y l ih => exact .cons (.same y) ih

/-- What two lookups find for names that may be exchanged. -/
def FoundAlike (o o' : Option Defn) : Prop :=
  (o = none ∧ o' = none) ∨ ∃ d d', o = some d ∧ o' = some d' ∧ Respelt d d'

section
variable {E : Env} {look look' : String → Option Defn} {R : String → String → Prop}
  (hsame : ∀ n, FoundAlike (look n) (look' n))
  (hR : ∀ n n', R n n' → (n ≠ "" ∧ n' ≠ "") ∧ FoundAlike (look n) (look' n'))

theorem found_alike {o o' : Option Defn} (h : FoundAlike o o') {d : Defn} (hd : o = some d) :
    ∃ d', o' = some d' ∧ Respelt d d' := by
  rcases h with ⟨h, -⟩ | ⟨x, x', h1, h2, h3⟩
  · rw [h] at hd; cases hd
  · rw [h1] at hd; cases hd; exact ⟨x', h2, h3⟩

include hsame hR in
/-- A reference in one document and the other. -/
theorem reference_respelled {es fs : List (Key × Yaml)} (h : RespelledEntries R es fs) (k : String)
    (hk : k ≠ "members") {n : String} {d : Defn} (hn : entry es k = .str n) (hd : look n = some d) :
    ∃ n' d', entry fs k = .str n' ∧ look' n' = some d' ∧ Respelt d d' ∧ (n ≠ "" → n' ≠ "") := by
  have := respelled_entryD h k .null
  change RespelledAt R (.str k) (entry es k) (entry fs k) at this
  rw [hn] at this
  generalize entry fs k = x' at this
  cases this with
  | same =>
    obtain ⟨d', h1, h2⟩ := found_alike (hsame n) hd
    exact ⟨n, d', rfl, h1, h2, id⟩
  | @name k' n n' hk' hr =>
    obtain ⟨d', h1, h2⟩ := found_alike (hR _ _ hr).2 hd
    exact ⟨n', d', rfl, h1, h2, fun _ => (hR _ _ hr).1.2⟩

include hR in
theorem noValue_respelled {es fs : List (Key × Yaml)} (h : RespelledEntries R es fs) (k : String) :
    NoValue (entry fs k) ↔ NoValue (entry es k) := by
  have := respelled_entryD h k .null
  change RespelledAt R (.str k) (entry es k) (entry fs k) at this
  generalize entry es k = x at this
  generalize entry fs k = x' at this
  cases this with
  | same => exact Iff.rfl
  | @name k' n n' hk' hr =>
    obtain ⟨⟨h1, h2⟩, -⟩ := hR _ _ hr
    rw [noValue_iff, noValue_iff]
    simp [Yaml.truthy, h1, h2]
  | members hl =>
    cases hl with
    | nil => exact Iff.rfl
    | _ => rw [noValue_iff, noValue_iff]; simp [Yaml.truthy]

theorem items_respelled {es fs : List (Key × Yaml)} (h : RespelledEntries R es fs) {items : List Yaml}
    (hi : Items (entry es "members") items) :
    ∃ items', Items (entry fs "members") items' ∧ RespelledItems R items items' := by
  have := respelled_entryD h "members" .null
  change RespelledAt R (.str "members") (entry es "members") (entry fs "members") at this
  generalize entry es "members" = x at this hi
  generalize entry fs "members" = x' at this
  cases this with
  | same => exact ⟨items, hi, respelledItems_refl R items⟩
  | name hk' _ => simp [referenceKeys] at hk'
  | members hl => cases hi; exact ⟨_, .list, hl⟩

include hsame hR in
theorem namesOf_respelled {items items' : List Yaml} (h : RespelledItems R items items') {ds : List Defn}
    (hd : All2 (NameOf look) items ds) : ∃ ds', All2 (NameOf look') items' ds' ∧ All2 Respelt ds ds' := by
  induction items generalizing items' ds with
  | nil => cases h; cases hd; exact ⟨[], .nil, .nil⟩
  | cons y items ih =>
    cases hd with
    | cons hy hd =>
      obtain ⟨n, rfl, hn⟩ := hy
      cases h with
      | cons h t =>
        cases h
        obtain ⟨ds', h1, h2⟩ := ih t hd
        obtain ⟨d', h3, h4⟩ := found_alike (hsame n) hn
        exact ⟨d' :: ds', .cons ⟨n, rfl, h3⟩ h1, .cons h4 h2⟩
      | @name _ n' _ _ hr t =>
        obtain ⟨ds', h1, h2⟩ := ih t hd
        obtain ⟨d', h3, h4⟩ := found_alike (hR _ _ hr).2 hn
        exact ⟨d' :: ds', .cons ⟨n', rfl, h3⟩ h1, .cons h4 h2⟩

theorem memberList_respelled {rm rm' : Yaml → Defn → Prop} {items items' : List Yaml} (h : RespelledItems R items items')
    (hrm : ∀ y ∈ items, ∀ y', Respelled R y y' → ∀ x, rm y x → ∃ x', rm' y' x' ∧ Respelt x x') {ds : List Defn}
    (hd : MemberList rm items ds) : ∃ ds', MemberList rm' items' ds' ∧ All2 Respelt ds ds' := by
  have shape : ∀ es y', Respelled R (.map es) y' → ∃ fs, y' = .map fs ∧ RespelledEntries R es fs := by
    intro es y' h
    cases h with
    | same => exact ⟨es, rfl, respelled_refl R es⟩
    | mapping h => exact ⟨_, rfl, h⟩
  induction hd generalizing items' with
  | nil => cases h; exact ⟨[], .nil, .nil⟩
  | @sect es n ms ds hs he hd ih =>
    cases h with
    | cons h t =>
      obtain ⟨fs, rfl, hf⟩ := shape _ _ h
      obtain ⟨ds', h1, h2⟩ := ih t fun y hy => hrm y (List.mem_cons_of_mem _ hy)
      exact ⟨ds', .sect (by rw [respelled_plain hf (by decide)]; exact hs) he h1, h2⟩
  | @member es d ms ds hs hd' hd ih =>
    cases h with
    | cons h t =>
      obtain ⟨d', h3, h4⟩ := hrm _ List.mem_cons_self _ h _ hd'
      obtain ⟨fs, rfl, hf⟩ := shape _ _ h
      obtain ⟨ds', h1, h2⟩ := ih t fun y hy => hrm y (List.mem_cons_of_mem _ hy)
      exact ⟨d' :: ds', .member (by rw [respelled_plain hf (by decide)]; exact hs) h3 h1, .cons h4 h2⟩

/-- What does not refer to types stays. -/
theorem respelled_fixed {es fs : List (Key × Yaml)} (h : RespelledEntries R es fs) :
    attrsOf fs = attrsOf es ∧ (∀ ty, Attributes ty es → Attributes ty fs) ∧ (∀ o, ByteOrder es o → ByteOrder fs o) ∧
      (∀ s d x, HasSize s d es x → HasSize s d fs x) ∧ (∀ u, Units es u → Units fs u) ∧
      (∀ n o x, Head es n o x → Head fs n o x) := by
  have h1 : attrsOf fs = attrsOf es := by rw [attrsOf, attrsOf, respelled_plain h (by decide)]
  refine ⟨h1, ?_, ?_, ?_, ?_, ?_⟩
  · intro ty; rw [Attributes, Attributes, respelled_plain h (by decide)]; exact id
  · intro o; rw [ByteOrder, ByteOrder, h1]; exact id
  · intro s d x; rw [HasSize, HasSize, h1]; exact id
  · intro u; rw [Units, Units, h1]; exact id
  · intro n o x hx
    exact ⟨hx.name, hx.order, by rw [respelled_plain h (by decide)]; exact hx.aliases,
      by rw [respelled_plain h (by decide)]; exact hx.description⟩

include hsame hR in
theorem elementRules_respelled {es fs : List (Key × Yaml)} (h : RespelledEntries R es fs) {i : SeqInfo} {e : Defn}
    (he : ElementRules E look es i e) : ∃ n' e', ElementRules E look' fs { i with elementDataType := some n' } e' ∧
      Respelt e e' ∧ ∃ n, i.elementDataType = some n := by
  obtain ⟨⟨n, h1, h2, h3, h4⟩, k1, k2, k3, k4, k5⟩ := he
  obtain ⟨n', e', h5, h6, h7, h8⟩ := reference_respelled hsame hR h "element_data_type" (by decide) h1 h4
  refine ⟨n', e', ⟨⟨n', h5, h8 h2, rfl, h6⟩, ?_, ?_, ?_, ?_, ?_⟩, h7, n, h3⟩
  · rw [respelled_plain h (k := "elements_data_size") (by decide), respelled_plain h (k := "elements_terminator") (by decide),
      respelled_plain h (k := "number_of_elements") (by decide)]
    exact k1
  · rw [respelled_plain h (k := "elements_data_size") (by decide), respelled_plain h (k := "number_of_elements") (by decide)]
    exact k2
  · rw [respelled_plain h (k := "elements_data_size") (by decide)]; exact k3
  · rw [respelled_plain h (k := "number_of_elements") (by decide)]; exact k4
  · rw [respelled_plain h (k := "elements_terminator") (by decide)]; exact k5

theorem head_order {es : List (Key × Yaml)} {n : String} {o o' : Order} {h : Hdr} (ho : o' = o) (hh : Head es n o h) :
    Head es n o' h := ho ▸ hh

include hsame hR in
theorem ofType_respelled {es fs : List (Key × Yaml)} (h : RespelledEntries R es fs)
    (ih : ∀ c y y' x, y.depth < (Yaml.map es).depth → Respelled R y y' → Member E look c y x →
      ∃ x', Member E look' c y' x' ∧ Respelt x x')
    {mem : Bool} {name ty : String} {x : Defn} (hx : OfType E look (Member E look) mem name es ty x) :
    ∃ x', OfType E look' (Member E look') mem name fs ty x' ∧ Respelt x x' := by
  obtain ⟨f1, f2, f3, f4, f5, f6⟩ := respelled_fixed h
  cases hx with
  | primitive ha ho hh hk hs hu =>
    exact ⟨_, .primitive (f2 _ ha) (f3 _ ho) (f6 _ _ _ hh) (f1 ▸ hk) (f4 _ _ _ hs) (f5 _ hu), .refl _⟩
  | uuid ha ho hh hs hu =>
    exact ⟨_, .uuid (f2 _ ha) (f3 _ ho) (f6 _ _ _ hh) (f4 _ _ _ hs) (f5 _ hu), .refl _⟩
  | padding hm hh ha hs =>
    exact ⟨_, .padding hm (f6 _ _ _ hh) (by rw [respelled_plain h (by decide)]; exact ha) hs, .refl _⟩
  | @sequence _ _ _ hd0 i e hk he hh =>
    obtain ⟨n', e', h1, h2, n, h3⟩ := elementRules_respelled hsame hR h he
    exact ⟨_, .sequence (i := { i with elementDataType := some n' }) hk h1 (head_order h2.order (f6 _ _ _ hh)), .seq _ _ h3 h2⟩
  | @stream _ _ _ hd0 i e hk he hh =>
    obtain ⟨n', e', h1, h2, n, h3⟩ := elementRules_respelled hsame hR h he
    exact ⟨_, .stream (i := { i with elementDataType := some n' }) hk h1 (head_order h2.order (f6 _ _ _ hh)), .seq _ _ h3 h2⟩
  | @string _ _ _ hd0 i e enc hk hc hn he hh =>
    obtain ⟨n', e', h1, h2, n, h3⟩ := elementRules_respelled hsame hR h he
    exact ⟨_, .string (i := { i with elementDataType := some n' }) hk (by rw [respelled_plain h (by decide)]; exact hc) hn h1
      (head_order h2.order (f6 _ _ _ hh)), .seq _ _ h3 h2⟩
  | «structure» hm ha ho hh ht hi hl hd =>
    obtain ⟨items', h1, h2⟩ := items_respelled h hi
    obtain ⟨ds', h3, h4⟩ := memberList_respelled h2
      (fun y hy y' hyy x hx => ih true y y' x (members_depth (items_iff.1 hi) hy) hyy hx) hl
    exact ⟨_, .structure hm (f2 _ ha) (f3 _ ho) (f6 _ _ _ hh) (by rw [noValue_respelled hR h]; exact ht) h1 h3
      (by rw [show ds'.map (·.name) = _ from (respelt_list h4).2.2.2.2.1]; exact hd), .struct _ h4⟩
  | union ha ho hh ht hi hl hd =>
    obtain ⟨items', h1, h2⟩ := items_respelled h hi
    obtain ⟨ds', h3, h4⟩ := memberList_respelled h2
      (fun y hy y' hyy x hx => ih false y y' x (members_depth (items_iff.1 hi) hy) hyy hx) hl
    exact ⟨_, .union (f2 _ ha) (f3 _ ho) (f6 _ _ _ hh) (by rw [noValue_respelled hR h]; exact ht) h1 h3
      (by rw [show ds'.map (·.name) = _ from (respelt_list h4).2.2.2.2.1]; exact hd), .union _ h4⟩
  | constant hm hh hv hl =>
    exact ⟨_, .constant hm (f6 _ _ _ hh) (by rw [respelled_plain h (by decide)]; exact hv)
      (by rw [respelled_plain h (by decide)]; exact hl), .refl _⟩
  | enumeration hm hh ht hi hv hd =>
    exact ⟨_, .enumeration hm (f6 _ _ _ hh) (by rw [respelled_plain h (by decide)]; exact ht)
      (by rw [respelled_plain h (by decide)]; exact hi) hv hd, .refl _⟩
  | format hm hh ha ho hi hl =>
    refine ⟨_, .format hm (f6 _ _ _ hh) (f2 _ ha) ?_ (by rw [respelled_plainD h (by decide)]; exact hi) hl, .refl _⟩
    rw [respelled_plain h (by decide)]
    exact ho.imp id fun ⟨h1, p, h2, h3⟩ => ⟨h1, p, f3 _ h2, h3⟩
  | family hm hh hb hbt ht hi hl hd =>
    obtain ⟨n, hb1, hb2⟩ := hb
    obtain ⟨n', b', h5, h6, h7, -⟩ := reference_respelled hsame hR h "base" (by decide) hb1 hb2
    obtain ⟨items', h1, h2⟩ := items_respelled h hi
    obtain ⟨ds', h3, h4⟩ := namesOf_respelled hsame hR h2 hl
    exact ⟨_, .family hm (f6 _ _ _ hh) ⟨n', h5, h6⟩ (by rw [noValue_respelled hR h]; exact hbt)
      (by rw [noValue_respelled hR h]; exact ht) h1 h3
      (by rw [show ds'.map (·.name) = _ from (respelt_list h4).2.2.2.2.1]; exact hd), .family _ h7 h4⟩
  | @group _ _ _ hd0 base ident df items ds hm hh hb hbt hid hin hdf ht hi hl hd hx =>
    obtain ⟨n, hb1, hb2⟩ := hb
    obtain ⟨n', b', h5, h6, h7, -⟩ := reference_respelled hsame hR h "base" (by decide) hb1 hb2
    obtain ⟨items', h1, h2⟩ := items_respelled h hi
    obtain ⟨ds', h3, h4⟩ := namesOf_respelled hsame hR h2 hl
    obtain ⟨df', h8, h9⟩ : ∃ df', ((NoValue (entry fs "default") ∧ df' = none) ∨
        (¬ NoValue (entry fs "default") ∧ ∃ d, NameOf look' (entry fs "default") d ∧ df' = some d)) ∧
        ((df = none ∧ df' = none) ∨ ∃ d d', df = some d ∧ df' = some d' ∧ Respelt d d') := by
      rw [noValue_respelled hR h]
      rcases hdf with ⟨hv, rfl⟩ | ⟨hv, d, ⟨m, hd1, hd2⟩, rfl⟩
      · exact ⟨none, .inl ⟨hv, rfl⟩, .inl ⟨rfl, rfl⟩⟩
      · obtain ⟨m', d', k5, k6, k7, -⟩ := reference_respelled hsame hR h "default" (by decide) hd1 hd2
        exact ⟨some d', .inr ⟨hv, d', ⟨m', k5, k6⟩, rfl⟩, .inr ⟨d, d', rfl, rfl, k7⟩⟩
    refine ⟨_, .group hm (head_order h7.order (f6 _ _ _ hh)) ⟨n', h5, h6⟩ (by rw [noValue_respelled hR h]; exact hbt)
      (by rw [respelled_plain h (by decide)]; exact hid) hin h8
      (by rw [noValue_respelled hR h]; exact ht) h1 h3
      (by rw [show ds'.map (·.name) = _ from (respelt_list h4).2.2.2.2.1]; exact hd) ?_, .group _ _ h7 h9 h4⟩
    clear h3 hl hd hi h2 h1
    induction h4 with
    | nil => intro d hd; cases hd
    | @cons d d' ds ds' hr _ ihr =>
      intro y hy
      rw [List.mem_cons] at hy
      rcases hy with rfl | hy
      · obtain ⟨inner, hi1, x, hi2, hi3⟩ := hx d List.mem_cons_self
        have hn := hr.names
        rw [hi1, Option.map_some, Option.map_eq_some_iff] at hn
        obtain ⟨inner', hn1, hn2⟩ := hn
        have : ident ∈ inner'.map Defn.name := by
          rw [hn2, ← hi3]
          exact List.mem_map_of_mem hi2
        obtain ⟨z, hz1, hz2⟩ := List.mem_map.1 this
        exact ⟨inner', hn1, z, hz1, hz2⟩
      · exact ihr (fun d hd => hx d (List.mem_cons_of_mem _ hd)) y hy

include hsame hR in
theorem member_respelled (k : Nat) : ∀ c y y' x, y.depth ≤ k → Respelled R y y' → Member E look c y x →
    ∃ x', Member E look' c y' x' ∧ Respelt x x' := by
  induction k with
  | zero =>
    intro c y y' x hk _ hx
    cases hx with
    | typed => rw [Yaml.depth] at hk; omega
    | reference => rw [Yaml.depth] at hk; omega
  | succ k ih =>
    intro c y y' x hk h hx
    have shape : ∀ es, y = .map es → ∃ fs, y' = .map fs ∧ RespelledEntries R es fs := by
      rintro es rfl
      cases h with
      | same => exact ⟨es, rfl, respelled_refl R es⟩
      | mapping h => exact ⟨_, rfl, h⟩
    cases hx with
    | @typed _ es name ty inner cond sv hn hty hdt hc hcc hv hk' hi =>
      obtain ⟨fs, rfl, hf⟩ := shape es rfl
      obtain ⟨inner', h1, h2⟩ := ofType_respelled hsame hR hf
        (fun c y y' x hd => ih c y y' x (by omega)) hi
      refine ⟨_, .typed (name := name) (ty := ty) (inner := inner') (cond := cond) (sv := sv) ?_ ?_ ?_ ?_ ?_ ?_ (respelled_keys hf _ hk') h1, ?_⟩
      · rw [respelled_plain hf (by decide)]; exact hn
      · rw [respelled_plain hf (by decide)]; exact hty
      · have := respelled_entryD hf "data_type" .null
        change RespelledAt R _ (entry es "data_type") (entry fs "data_type") at this
        rw [hdt] at this
        exact null_respelled this
      · rw [respelled_plain hf (by decide)]; exact hc
      · rw [respelled_plain hf (by decide)]; exact hcc
      · rw [respelled_plain hf (by decide), respelled_plain hf (by decide)]; exact hv
      · rw [h2.order]
        split
        · exact .memberOf _ _ rfl _ h2
        · exact h2
    | @reference _ es name dt hd0 inner cond sv hn hty hdt hc hcc hv hk' hi hh =>
      obtain ⟨fs, rfl, hf⟩ := shape es rfl
      obtain ⟨n', e', h5, h6, h7, h8⟩ := reference_respelled hsame hR hf "data_type" (by decide) hdt hi
      refine ⟨_, .reference (name := name) (dt := n') (h := hd0) (inner := e') (cond := cond) (sv := sv) ?_ ?_ h5 ?_ ?_ ?_
        (respelled_keys hf _ hk') h6 (head_order h7.order ((respelled_fixed hf).2.2.2.2.2 _ _ _ hh)), .memberOf _ _ (by rfl) _ h7⟩
      · rw [respelled_plain hf (by decide)]; exact hn
      · rw [respelled_plain hf (by decide)]; exact hty
      · rw [respelled_plain hf (by decide)]; exact hc
      · rw [respelled_plain hf (by decide)]; exact hcc
      · rw [respelled_plain hf (by decide), respelled_plain hf (by decide)]; exact hv

include hsame hR in
theorem describes_respelled {y y' : Yaml} (h : Respelled R y y') {x : Defn} (hx : Describes E look y x) :
    ∃ x', Describes E look' y' x' ∧ Respelt x x' := by
  obtain ⟨es, name, ty, rfl, h1, h2, h3, h4, h5⟩ := hx
  have shape : ∃ fs, y' = .map fs ∧ RespelledEntries R es fs := by
    cases h with
    | same => exact ⟨es, rfl, respelled_refl R es⟩
    | mapping h => exact ⟨_, rfl, h⟩
  obtain ⟨fs, rfl, hf⟩ := shape
  obtain ⟨x', h6, h7⟩ := ofType_respelled hsame hR hf (fun c y y' x _ => member_respelled hsame hR _ c y y' x (Nat.le_refl _)) h5
  exact ⟨x', ⟨fs, name, ty, rfl, by rw [respelled_plain hf (by decide)]; exact h1, h2,
    by rw [respelled_plain hf (by decide)]; exact h3, respelled_keys hf _ h4, h6⟩, h7⟩

end

end Dtf
