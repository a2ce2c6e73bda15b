import Verif.Respell
/-!
Definition files in which types got other names.
-/
namespace Dtf

namespace Spec

/-- The keys under which a type is named: those that refer to types, and in a definition of its own its name. -/
def typeNameKeys (own : Bool) : List String := if own then "name" :: referenceKeys else referenceKeys

/-- The keys whose values may differ, and the identifier of a group. -/
def retypedKeys (own : Bool) : List String :=
  "members" :: "identifier" :: (if own then "aliases" :: typeNameKeys own else typeNameKeys own)

mutual
/-- Mappings that differ only in the names of types; `R` relates the old and the new names, `own` says whether it is
a definition of its own or a member. -/
inductive RetypedEntries (R : String → String → Prop) : Bool → List (Key × Yaml) → List (Key × Yaml) → Prop
  | nil {own} : RetypedEntries R own [] []
  | cons {own k y y' es fs} (h : RetypedAt R own k y y') (t : RetypedEntries R own es fs) :
      RetypedEntries R own ((k, y) :: es) ((k, y') :: fs)
/-- The same for the value of a key. No type gets the name, or loses the name, of the identifier of a group. -/
inductive RetypedAt (R : String → String → Prop) : Bool → Key → Yaml → Yaml → Prop
  | null {own k} : RetypedAt R own k .null .null
  | same {own k} (hk : ∀ s ∈ retypedKeys own, k ≠ .str s) (y) : RetypedAt R own k y y
  | name {own k n n'} (hk : k ∈ typeNameKeys own) (h : R n n') : RetypedAt R own (.str k) (.str n) (.str n')
  | aliases {l l'} (h : All2 R l l') :
      RetypedAt R true (.str "aliases") (.list (l.map .str)) (.list (l'.map .str))
  | identifier {own i} (h : ∀ n n', R n n' → (n = i ↔ n' = i)) :
      RetypedAt R own (.str "identifier") (.str i) (.str i)
  | members {own l l'} (h : RetypedItems R l l') : RetypedAt R own (.str "members") (.list l) (.list l')
/-- The same for the members of a structure or union, and for the names of those of a family or group. -/
inductive RetypedItems (R : String → String → Prop) : List Yaml → List Yaml → Prop
  | nil : RetypedItems R [] []
  | cons {es fs l l'} (h : RetypedEntries R false es fs) (t : RetypedItems R l l') :
      RetypedItems R (.map es :: l) (.map fs :: l')
  | name {n n' l l'} (h : R n n') (t : RetypedItems R l l') : RetypedItems R (.str n :: l) (.str n' :: l')
end

/-- Documents that differ only in the names of types; structures keep theirs. -/
inductive RetypedDoc (R : String → String → Prop) : Yaml → Yaml → Prop
  | mk {es fs} (h : RetypedEntries R true es fs)
      (hs : entry es "type" = .str "structure" → entry fs "name" = entry es "name") : RetypedDoc R (.map es) (.map fs)

/-- Different names stay different and equal ones equal, in their case and without regard to case. -/
structure Consistent (E : Env) (R : String → String → Prop) : Prop where
  some : ∀ {a a'}, R a a' → a ≠ "" ∧ a' ≠ ""
  same : ∀ {a a' b b'}, R a a' → R b b' → (a = b ↔ a' = b')
  lower : ∀ {a a' b b'}, R a a' → R b b' → (E.lower a = E.lower b ↔ E.lower a' = E.lower b')

end Spec
open Spec

theorem Spec.Consistent.flip {E : Env} {R : String → String → Prop} (h : Consistent E R) :
    Consistent E fun n n' => R n' n :=
  ⟨fun ha => (h.some ha).symm, fun ha hb => (h.same ha hb).symm, fun ha hb => (h.lower ha hb).symm⟩

/-! ### Definitions -/

/-- Names of members: those of structures and unions stay, those of families and groups are names of types. -/
def NameKin (R : String → String → Prop) (m m' : Defn) : Prop := m'.name = m.name ∨ R m.name m'.name

/-- Definitions that differ only in the names of types, but for the name of the definition. -/
structure Kin (R : String → String → Prop) (d d' : Defn) : Prop where
  there : Relabelled d d'
  back : Relabelled d' d
  member : isMember d' = isMember d
  given : ∀ n, givenByName n d' = givenByName n d
  names : (d.members? = none ∧ d'.members? = none) ∨
    ∃ ms ms', d.members? = some ms ∧ d'.members? = some ms' ∧ All2 (NameKin R) ms ms'

theorem Kin.order {R : String → String → Prop} {d d' : Defn} (h : Kin R d d') : d'.orderOrNative = d.orderOrNative :=
  h.there.orderOrNative

theorem all2_refl {α : Type} {P : α → α → Prop} (h : ∀ a, P a a) (l : List α) : All2 P l l := by
  induction l with
  | nil => exact .nil
  | cons a l ih => exact .cons (h a) ih

theorem all2_imp {α β : Type} {P Q : α → β → Prop} (hi : ∀ a b, P a b → Q a b) {l : List α} {l' : List β}
    (h : All2 P l l') : All2 Q l l' := by
  induction h with
  | nil => exact .nil
  | cons h _ ih => exact .cons (hi _ _ h) ih

theorem all2_flip {α β : Type} {P : α → β → Prop} {l : List α} {l' : List β} (h : All2 P l l') :
    All2 (fun b a => P a b) l' l := by
  induction h with
  | nil => exact .nil
  | cons h _ ih => exact .cons h ih

theorem Kin.refl (R : String → String → Prop) (d : Defn) : Kin R d d := by
  refine ⟨relabelled_bare rfl, relabelled_bare rfl, rfl, fun _ => rfl, ?_⟩
  cases h : d.members? with
  | none => exact .inl ⟨rfl, rfl⟩
  | some ms => exact .inr ⟨ms, ms, rfl, rfl, all2_refl (fun _ => .inl rfl) ms⟩

theorem Kin.flip {R : String → String → Prop} {d d' : Defn} (h : Kin R d d') : Kin (fun n n' => R n' n) d' d := by
  refine ⟨h.back, h.there, h.member.symm, fun n => (h.given n).symm, ?_⟩
  rcases h.names with ⟨h1, h2⟩ | ⟨ms, ms', h1, h2, h3⟩
  · exact .inl ⟨h2, h1⟩
  · exact .inr ⟨ms', ms, h2, h1, all2_imp (fun a b hab => hab.imp Eq.symm id) (all2_flip h3)⟩

/-- Members, which keep their names. -/
def MemberKin (R : String → String → Prop) (d d' : Defn) : Prop := Kin R d d' ∧ d'.name = d.name

/-- Types. -/
def TypeKin (R : String → String → Prop) (d d' : Defn) : Prop :=
  Kin R d d' ∧ R d.name d'.name ∧ All2 R d.hdr.aliases d'.hdr.aliases

theorem TypeKin.flip {R : String → String → Prop} {d d' : Defn} (h : TypeKin R d d') :
    TypeKin (fun n n' => R n' n) d' d := ⟨h.1.flip, h.2.1, all2_flip h.2.2⟩

theorem memberKin_list {R : String → String → Prop} {ds ds' : List Defn} (h : All2 (MemberKin R) ds ds') :
    SameNamed ds ds' ∧ SameNamed ds' ds ∧ ds'.map Defn.name = ds.map Defn.name ∧
      ∀ n, (ds'.find? (·.name == n)).map isMember = (ds.find? (·.name == n)).map isMember := by
  induction h with
  | nil => exact ⟨.nil, .nil, rfl, fun _ => rfl⟩
  | cons h _ ih =>
    obtain ⟨h1, h2, h5, h7⟩ := ih
    refine ⟨.cons h.2.symm h.1.there h1, .cons h.2 h.1.back h2, ?_, ?_⟩
    · rw [List.map_cons, List.map_cons, h5, h.2]
    · intro n
      rw [List.find?_cons, List.find?_cons, h.2]
      split
      · rw [Option.map_some, Option.map_some, h.1.member]
      · exact h7 n

theorem typeKin_list {R : String → String → Prop} {ds ds' : List Defn} (h : All2 (TypeKin R) ds ds') :
    RelabelledAll ds ds' ∧ RelabelledAll ds' ds ∧ ∀ n, ds'.map (givenByName n) = ds.map (givenByName n) := by
  induction h with
  | nil => exact ⟨.nil, .nil, fun _ => rfl⟩
  | cons h _ ih =>
    obtain ⟨h3, h4, h6⟩ := ih
    refine ⟨.cons h.1.there h3, .cons h.1.back h4, ?_⟩
    intro n
    rw [List.map_cons, List.map_cons, h6, h.1.given]

theorem typeKin_nodup {E : Env} {R : String → String → Prop} (hR : Consistent E R) {ds ds' : List Defn}
    (h : All2 (TypeKin R) ds ds') (hd : (ds.map (·.name)).Nodup) : (ds'.map (·.name)).Nodup := by
  induction h with
  | nil => exact hd
  | @cons d d' ds ds' h ht ih =>
    rw [List.map_cons, List.nodup_cons] at hd ⊢
    refine ⟨fun hm => hd.1 ?_, ih hd.2⟩
    clear ih hd
    induction ht with
    | nil => cases hm
    | @cons e e' es es' he _ ih =>
      rw [List.map_cons, List.mem_cons] at hm ⊢
      exact hm.imp (hR.same h.2.1 he.2.1).2 ih

section
variable {R : String → String → Prop}

theorem Kin.prim {h h' : Hdr} (ho : h.order = h'.order) (k s u) : Kin R (.prim h k s u) (.prim h' k s u) :=
  ⟨.prim k s u ho, .prim k s u ho.symm, rfl, fun _ => rfl, .inl ⟨rfl, rfl⟩⟩

theorem Kin.uuid {h h' : Hdr} (ho : h.order = h'.order) (s u) : Kin R (.uuid h s u) (.uuid h' s u) :=
  ⟨.uuid s u ho, .uuid s u ho.symm, rfl, fun _ => rfl, .inl ⟨rfl, rfl⟩⟩

theorem Kin.padding {h h' : Hdr} (ho : h.order = h'.order) (a) : Kin R (.padding h a) (.padding h' a) :=
  ⟨.padding a ho, .padding a ho.symm, rfl, fun _ => rfl, .inl ⟨rfl, rfl⟩⟩

theorem Kin.constant {h h' : Hdr} (v) : Kin R (.constant h v) (.constant h' v) :=
  ⟨.constant v, .constant v, rfl, fun _ => rfl, .inl ⟨rfl, rfl⟩⟩

theorem Kin.enumeration {h h' : Hdr} (v) : Kin R (.enumeration h v) (.enumeration h' v) :=
  ⟨.enumeration v, .enumeration v, rfl, fun _ => rfl, .inl ⟨rfl, rfl⟩⟩

theorem Kin.format {h h' : Hdr} (o l) : Kin R (.format h o l) (.format h' o l) :=
  ⟨.format o l, .format o l, rfl, fun _ => rfl, .inl ⟨rfl, rfl⟩⟩

theorem Kin.struct {h h' : Hdr} (hn : h.name = h'.name) (ho : h.order = h'.order) {ds ds' : List Defn}
    (hd : All2 (MemberKin R) ds ds') : Kin R (.struct h ds) (.struct h' ds') := by
  obtain ⟨h1, h2, h5, h7⟩ := memberKin_list hd
  refine ⟨.struct hn ho h1, .struct hn.symm ho.symm h2, rfl, ?_, .inr ⟨ds, ds', rfl, rfl, all2_imp (fun _ _ h => .inl h.2) hd⟩⟩
  intro n; rw [givenByName_struct, givenByName_struct, h7]

theorem Kin.union {h h' : Hdr} (ho : h.order = h'.order) {ds ds' : List Defn}
    (hd : All2 (MemberKin R) ds ds') : Kin R (.union h ds) (.union h' ds') := by
  obtain ⟨h1, h2, h5, h7⟩ := memberKin_list hd
  refine ⟨.union ho h1, .union ho.symm h2, rfl, ?_, .inr ⟨ds, ds', rfl, rfl, all2_imp (fun _ _ h => .inl h.2) hd⟩⟩
  intro n; rw [givenByName_union, givenByName_union, h7]

theorem Kin.family {h h' : Hdr} {b b' : Defn} (hb : Kin R b b') {ds ds' : List Defn} (hd : All2 (TypeKin R) ds ds') :
    Kin R (.family h b ds) (.family h' b' ds') := by
  obtain ⟨h3, h4, h6⟩ := typeKin_list hd
  exact ⟨.family hb.there h3, .family hb.back h4, rfl, fun _ => rfl,
    .inr ⟨ds, ds', rfl, rfl, all2_imp (fun _ _ h => .inr h.2.1) hd⟩⟩

theorem Kin.group {h h' : Hdr} (ho : h.order = h'.order) (i : String) {b b' : Defn} (hb : Kin R b b') {df df' : Option Defn}
    (hf : (df = none ∧ df' = none) ∨ ∃ d d', df = some d ∧ df' = some d' ∧ TypeKin R d d')
    {ds ds' : List Defn} (hd : All2 (TypeKin R) ds ds') : Kin R (.group h b i df ds) (.group h' b' i df' ds') := by
  obtain ⟨h3, h4, h6⟩ := typeKin_list hd
  have h8 : RelabelledOpt df df' ∧ RelabelledOpt df' df := by
    rcases hf with ⟨rfl, rfl⟩ | ⟨d, d', rfl, rfl, hx⟩
    · exact ⟨.none, .none⟩
    · exact ⟨.some hx.1.there, .some hx.1.back⟩
  exact ⟨.group ho hb.there h8.1 h3 (h6 i), .group ho.symm hb.back h8.2 h4 (h6 i).symm, rfl, fun _ => rfl,
    .inr ⟨ds, ds', rfl, rfl, all2_imp (fun _ _ h => .inr h.2.1) hd⟩⟩

theorem Kin.seq {h h' : Hdr} (ho : h.order = h'.order) (info : SeqInfo) {n n' : String}
    (hn : info.elementDataType = some n) {e e' : Defn} (he : Kin R e e') :
    Kin R (.seq h info e) (.seq h' { info with elementDataType := some n' } e') := by
  refine ⟨.seq info (some n') ho (by rw [hn]; rfl) he.there, ?_, rfl, fun _ => rfl, .inl ⟨rfl, rfl⟩⟩
  have := Relabelled.seq (h := h') (h' := h) { info with elementDataType := some n' } (some n) ho.symm rfl he.back
  simp only at this
  rwa [← hn] at this

theorem Kin.memberOf (h h' : Hdr) (c : Option String) {t t' : Option String} (ht : t.isSome = t'.isSome)
    (vs : Option (List Lit)) {d d' : Defn} (hd : Kin R d d') :
    Kin R (.member h d c t vs) (.member h' d' c t' vs) := by
  exact ⟨.member c vs hd.there ht, .member c vs hd.back ht.symm, rfl, fun _ => rfl, .inl ⟨rfl, rfl⟩⟩

end

/-! ### Documents -/

theorem retyped_entryD {R : String → String → Prop} {own : Bool} {es fs : List (Key × Yaml)}
    (h : RetypedEntries R own es fs) (k : String) {dflt : Yaml} (hd : RetypedAt R own (.str k) dflt dflt) :
    RetypedAt R own (.str k) (entryD es k dflt) (entryD fs k dflt) := by
  induction es generalizing fs with
  | nil => cases h; exact hd
  | cons e es ih =>
    cases h with
    | @cons _ k' y y' _ fs h t =>
      simp only [entryD, List.find?_cons] at ih ⊢
      by_cases hk : k' = .str k
      · subst hk
        simpa using h
      · have : (k' == Key.str k) = false := by simpa using hk
        rw [this]
        exact ih t

theorem retyped_entry {R : String → String → Prop} {own : Bool} {es fs : List (Key × Yaml)}
    (h : RetypedEntries R own es fs) (k : String) : RetypedAt R own (.str k) (entry es k) (entry fs k) :=
  retyped_entryD h k .null

theorem typeNameKeys_sub {own : Bool} {k : String} (h : k ∈ typeNameKeys own) : k ∈ retypedKeys own := by
  unfold retypedKeys
  split <;> simp [h]

theorem retyped_plainD {R : String → String → Prop} {own : Bool} {es fs : List (Key × Yaml)}
    (h : RetypedEntries R own es fs) {k : String} (hk : k ∉ "identifier" :: retypedKeys own) (dflt : Yaml) :
    entryD fs k dflt = entryD es k dflt := by
  rw [List.mem_cons, not_or] at hk
  have := retyped_entryD h k (dflt := dflt) (.same (fun s hs he => hk.2 (by cases he; exact hs)) dflt)
  generalize entryD es k dflt = x at this
  generalize entryD fs k dflt = x' at this
  cases this with
  | null => rfl
  | same => rfl
  | name hk' _ => exact absurd (typeNameKeys_sub hk') hk.2
  | aliases _ => exact absurd (by simp [retypedKeys]) hk.2
  | identifier _ => rfl
  | members _ => exact absurd (by simp [retypedKeys]) hk.2

theorem retyped_plain {R : String → String → Prop} {own : Bool} {es fs : List (Key × Yaml)}
    (h : RetypedEntries R own es fs) {k : String} (hk : k ∉ "identifier" :: retypedKeys true) : entry fs k = entry es k := by
  refine retyped_plainD h (fun hm => hk ?_) .null
  revert hm
  cases own
  · simp only [retypedKeys, typeNameKeys, Bool.false_eq_true, if_false, if_true, List.mem_cons]
    rintro (h | h | h | h)
    · exact .inl h
    · exact .inr (.inl h)
    · exact .inr (.inr (.inl h))
    · exact .inr (.inr (.inr (.inr (.inr h))))
  · exact id

theorem retyped_member {R : String → String → Prop} {es fs : List (Key × Yaml)}
    (h : RetypedEntries R false es fs) {k : String} (hk : k ∉ "identifier" :: retypedKeys false) :
    entry fs k = entry es k := retyped_plainD h hk .null

theorem retyped_identifier {R : String → String → Prop} {own : Bool} {es fs : List (Key × Yaml)}
    (h : RetypedEntries R own es fs) {i : String} (hi : entry es "identifier" = .str i) :
    entry fs "identifier" = .str i ∧ ∀ n n', R n n' → (n = i ↔ n' = i) := by
  have := retyped_entry h "identifier"
  rw [hi] at this
  generalize entry fs "identifier" = x' at this
  generalize hkey : Key.str "identifier" = key at this
  generalize hy : Yaml.str i = y at this
  cases this with
  | null => cases hy
  | same hk => exact absurd hkey.symm (hk "identifier" (by simp [retypedKeys]))
  | name hk =>
    rw [← Key.str.inj hkey] at hk
    cases own <;> simp [typeNameKeys, referenceKeys] at hk
  | aliases => cases hy
  | identifier h => cases hy; exact ⟨rfl, h⟩
  | members => cases hy

theorem retyped_keys {R : String → String → Prop} {own : Bool} {es fs : List (Key × Yaml)}
    (h : RetypedEntries R own es fs) (sup : List String) : KnownKeys sup es → KnownKeys sup fs := by
  induction es generalizing fs with
  | nil => cases h; exact id
  | cons e es ih =>
    cases h with
    | @cons _ k' y y' _ fs h t =>
      intro hk e he
      rw [List.mem_cons] at he
      rcases he with rfl | he
      · exact hk (k', y) List.mem_cons_self
      · exact ih t (fun e he => hk e (List.mem_cons_of_mem _ he)) e he

theorem null_retyped {R : String → String → Prop} {own : Bool} {k : Key} {x : Yaml} (h : RetypedAt R own k .null x) :
    x = .null := by
  generalize hy : Yaml.null = y at h
  cases h with
  | null => rfl
  | same => rfl
  | name => cases hy
  | aliases => cases hy
  | identifier => cases hy
  | members => cases hy

/-- What two lookups find for the old and the new name. -/
def FoundKin (R : String → String → Prop) (o o' : Option Defn) : Prop :=
  (o = none ∧ o' = none) ∨ ∃ d d', o = some d ∧ o' = some d' ∧ TypeKin R d d'

theorem found_kin {R : String → String → Prop} {o o' : Option Defn} (h : FoundKin R o o') {d : Defn} (hd : o = some d) :
    ∃ d', o' = some d' ∧ TypeKin R d d' := by
  rcases h with ⟨h, -⟩ | ⟨x, x', h1, h2, h3⟩
  · rw [h] at hd; cases hd
  · rw [h1] at hd; cases hd; exact ⟨x', h2, h3⟩

/-- Names and aliases of the definitions that two documents describe. -/
structure HeadKin (R : String → String → Prop) (mem : Bool) (h h' : Hdr) : Prop where
  order : h.order = h'.order
  member : mem = true → h'.name = h.name
  type : mem = false → R h.name h'.name ∧ All2 R h.aliases h'.aliases

section
variable {E : Env} {look look' : String → Option Defn} {R : String → String → Prop} (hR : Consistent E R)
  (hl : ∀ n n', R n n' → FoundKin R (look n) (look' n'))

include hR hl in
theorem reference_retyped {own : Bool} {es fs : List (Key × Yaml)} (h : RetypedEntries R own es fs) (k : String)
    (hk : k ∈ referenceKeys) {n : String} {d : Defn} (hn : entry es k = .str n) (hd : look n = some d) :
    ∃ n' d', entry fs k = .str n' ∧ look' n' = some d' ∧ TypeKin R d d' ∧ n' ≠ "" := by
  have hk2 : k ∈ typeNameKeys own := by
    cases own
    · exact hk
    · exact List.mem_cons_of_mem _ hk
  have := retyped_entry h k
  rw [hn] at this
  generalize entry fs k = x' at this
  cases this with
  | same h => exact absurd rfl (h k (typeNameKeys_sub hk2))
  | @name _ k' n n' hk' hr =>
    obtain ⟨d', h1, h2⟩ := found_kin (hl _ _ hr) hd
    exact ⟨n', d', rfl, h1, h2, (hR.some hr).2⟩
  | identifier _ => simp [referenceKeys] at hk

include hR in
theorem noValue_retyped {own : Bool} {es fs : List (Key × Yaml)} (h : RetypedEntries R own es fs) (k : String) :
    NoValue (entry fs k) ↔ NoValue (entry es k) := by
  have := retyped_entry h k
  generalize entry es k = x at this
  generalize entry fs k = x' at this
  cases this with
  | null => exact Iff.rfl
  | same => exact Iff.rfl
  | @name _ k' n n' hk' hr =>
    obtain ⟨h1, h2⟩ := hR.some hr
    rw [noValue_iff, noValue_iff]
    simp [Yaml.truthy, h1, h2]
  | aliases hl =>
    cases hl with
    | nil => exact Iff.rfl
    | cons => rw [noValue_iff, noValue_iff]; simp [Yaml.truthy]
  | identifier => exact Iff.rfl
  | members hl =>
    cases hl with
    | nil => exact Iff.rfl
    | _ => rw [noValue_iff, noValue_iff]; simp [Yaml.truthy]

theorem items_retyped {own : Bool} {es fs : List (Key × Yaml)} (h : RetypedEntries R own es fs) {items : List Yaml}
    (hi : Items (entry es "members") items) :
    ∃ items', Items (entry fs "members") items' ∧ RetypedItems R items items' := by
  have := retyped_entry h "members"
  generalize entry es "members" = x at this hi
  generalize entry fs "members" = x' at this
  generalize hkey : Key.str "members" = key at this
  cases this with
  | null => cases hi
  | same h => exact absurd hkey.symm (h "members" (by simp [retypedKeys]))
  | name hk' _ =>
    rw [← Key.str.inj hkey] at hk'
    cases own <;> simp [typeNameKeys, referenceKeys] at hk'
  | aliases => exact absurd (Key.str.inj hkey) (by decide)
  | identifier => exact absurd (Key.str.inj hkey) (by decide)
  | members hl => cases hi; exact ⟨_, .list, hl⟩

include hl in
theorem namesOf_retyped {items items' : List Yaml} (h : RetypedItems R items items') {ds : List Defn}
    (hd : All2 (NameOf look) items ds) : ∃ ds', All2 (NameOf look') items' ds' ∧ All2 (TypeKin R) ds ds' := by
  induction items generalizing items' ds with
  | nil => cases h; cases hd; exact ⟨[], .nil, .nil⟩
  | cons y items ih =>
    cases hd with
    | cons hy hd =>
      obtain ⟨n, rfl, hn⟩ := hy
      cases h with
      | @name _ n' _ _ hr t =>
        obtain ⟨ds', h1, h2⟩ := ih t hd
        obtain ⟨d', h3, h4⟩ := found_kin (hl _ _ hr) hn
        exact ⟨d' :: ds', .cons ⟨n', rfl, h3⟩ h1, .cons h4 h2⟩

theorem memberList_retyped {rm rm' : Yaml → Defn → Prop} {items items' : List Yaml} (h : RetypedItems R items items')
    (hrm : ∀ es, .map es ∈ items → ∀ fs, RetypedEntries R false es fs → ∀ x, rm (.map es) x →
      ∃ x', rm' (.map fs) x' ∧ MemberKin R x x') {ds : List Defn}
    (hd : MemberList rm items ds) : ∃ ds', MemberList rm' items' ds' ∧ All2 (MemberKin R) ds ds' := by
  induction hd generalizing items' with
  | nil => cases h; exact ⟨[], .nil, .nil⟩
  | @sect es n ms ds hs he hd ih =>
    cases h with
    | cons h t =>
      obtain ⟨ds', h1, h2⟩ := ih t fun y hy => hrm y (List.mem_cons_of_mem _ hy)
      exact ⟨ds', .sect (by rw [retyped_plain h (by decide)]; exact hs) he h1, h2⟩
  | @member es d ms ds hs hd' hd ih =>
    cases h with
    | cons h t =>
      obtain ⟨d', h3, h4⟩ := hrm _ List.mem_cons_self _ h _ hd'
      obtain ⟨ds', h1, h2⟩ := ih t fun y hy => hrm y (List.mem_cons_of_mem _ hy)
      exact ⟨d' :: ds', .member (by rw [retyped_plain h (by decide)]; exact hs) h3 h1, .cons h4 h2⟩

/-- What does not refer to types stays. -/
theorem retyped_fixed {own : Bool} {es fs : List (Key × Yaml)} (h : RetypedEntries R own es fs) :
    attrsOf fs = attrsOf es ∧ (∀ ty, Attributes ty es → Attributes ty fs) ∧ (∀ o, ByteOrder es o → ByteOrder fs o) ∧
      (∀ s d x, HasSize s d es x → HasSize s d fs x) ∧ (∀ u, Units es u → Units fs u) := by
  have h1 : attrsOf fs = attrsOf es := by rw [attrsOf, attrsOf, retyped_plain h (by decide)]
  refine ⟨h1, ?_, ?_, ?_, ?_⟩
  · intro ty; rw [Attributes, Attributes, retyped_plain h (by decide)]; exact id
  · intro o; rw [ByteOrder, ByteOrder, h1]; exact id
  · intro s d x; rw [HasSize, HasSize, h1]; exact id
  · intro u; rw [Units, Units, h1]; exact id

theorem head_retyped {mem : Bool} {es fs : List (Key × Yaml)} (h : RetypedEntries R (!mem) es fs) {n n' : String}
    (hm : mem = true → n' = n) (ht : mem = false → R n n') {o o' : Order} (ho : o' = o) {x : Hdr} (hx : Head es n o x) :
    ∃ x', Head fs n' o' x' ∧ HeadKin R mem x x' ∧ x'.name = n' := by
  subst ho
  cases mem with
  | true =>
    have hn := hm rfl
    subst hn
    refine ⟨x, ⟨hx.name, hx.order, ?_, ?_⟩, ⟨rfl, fun _ => rfl, (nomatch ·)⟩, hx.name⟩
    · rw [retyped_member h (by decide)]; exact hx.aliases
    · rw [retyped_plain h (by decide)]; exact hx.description
  | false =>
    have key : ∃ as', Texts (entry fs "aliases") as' ∧ All2 R x.aliases as' := by
      have h1 := retyped_entry h "aliases"
      have h2 := hx.aliases
      generalize entry es "aliases" = y at h1 h2
      generalize entry fs "aliases" = y' at h1
      generalize hkey : Key.str "aliases" = key at h1
      generalize hown : (!false) = own at h1
      cases h1 with
      | null =>
        rcases h2 with ⟨-, h2⟩ | h2
        · exact ⟨[], .inl ⟨.null, rfl⟩, by rw [h2]; exact .nil⟩
        · cases h2
      | same h => exact absurd hkey.symm (h "aliases" (by simp [retypedKeys, ← hown]))
      | name hk =>
        rw [← Key.str.inj hkey, ← hown] at hk
        simp [typeNameKeys, referenceKeys] at hk
      | identifier => exact absurd (Key.str.inj hkey) (by decide)
      | members => exact absurd (Key.str.inj hkey) (by decide)
      | @aliases l l' hll =>
        rcases h2 with ⟨h2, h3⟩ | h2
        · cases hll with
          | nil => exact ⟨[], .inr rfl, by rw [h3]; exact .nil⟩
          | cons => cases h2
        · have : x.aliases = l := by
            simp only [Yaml.list.injEq] at h2
            have hinj : ∀ l1 l2 : List String, l1.map Yaml.str = l2.map Yaml.str → l1 = l2 := by
              intro l1
              induction l1 with
              | nil => intro l2 h; cases l2 with | nil => rfl | cons => cases h
              | cons a l1 ih =>
                intro l2 h
                cases l2 with
                | nil => cases h
                | cons b l2 =>
                  simp only [List.map_cons, List.cons.injEq, Yaml.str.injEq] at h
                  rw [h.1, ih _ h.2]
            exact (hinj _ _ h2).symm
          exact ⟨l', .inr rfl, this ▸ hll⟩
    obtain ⟨as', h1, h2⟩ := key
    exact ⟨{ x with name := n', aliases := as' }, ⟨rfl, hx.order, h1, by rw [retyped_plain h (by decide)]; exact hx.description⟩,
      ⟨rfl, (nomatch ·), fun _ => ⟨by rw [hx.name]; exact ht rfl, h2⟩⟩, rfl⟩

include hR hl in
theorem elementRules_retyped {own : Bool} {es fs : List (Key × Yaml)} (h : RetypedEntries R own es fs) {i : SeqInfo} {e : Defn}
    (he : ElementRules E look es i e) : ∃ n' e', ElementRules E look' fs { i with elementDataType := some n' } e' ∧
      Kin R e e' ∧ ∃ n, i.elementDataType = some n := by
  obtain ⟨⟨n, h1, h2, h3, h4⟩, k1, k2, k3, k4, k5⟩ := he
  obtain ⟨n', e', h5, h6, h7, h8⟩ := reference_retyped hR hl h "element_data_type" (by decide) h1 h4
  refine ⟨n', e', ⟨⟨n', h5, h8, rfl, h6⟩, ?_, ?_, ?_, ?_, ?_⟩, h7.1, n, h3⟩
  · rw [retyped_plain h (k := "elements_data_size") (by decide), retyped_plain h (k := "elements_terminator") (by decide),
      retyped_plain h (k := "number_of_elements") (by decide)]
    exact k1
  · rw [retyped_plain h (k := "elements_data_size") (by decide), retyped_plain h (k := "number_of_elements") (by decide)]
    exact k2
  · rw [retyped_plain h (k := "elements_data_size") (by decide)]; exact k3
  · rw [retyped_plain h (k := "number_of_elements") (by decide)]; exact k4
  · rw [retyped_plain h (k := "elements_terminator") (by decide)]; exact k5

include hR hl in
theorem ofType_retyped {mem : Bool} {es fs : List (Key × Yaml)} (h : RetypedEntries R (!mem) es fs)
    (ih : ∀ c es' fs' x, (Yaml.map es').depth < (Yaml.map es).depth → RetypedEntries R false es' fs' →
      Member E look c (.map es') x → ∃ x', Member E look' c (.map fs') x' ∧ MemberKin R x x')
    {name name' ty : String} (hm : mem = true → name' = name) (ht : mem = false → R name name')
    (hst : ty = "structure" → name' = name) {x : Defn} (hx : OfType E look (Member E look) mem name es ty x) :
    ∃ x', OfType E look' (Member E look') mem name' fs ty x' ∧ Kin R x x' ∧ HeadKin R mem x.hdr x'.hdr := by
  obtain ⟨f1, f2, f3, f4, f5⟩ := retyped_fixed h
  cases hx with
  | primitive ha ho hh hk hs hu =>
    obtain ⟨h', g1, g2, g3⟩ := head_retyped h hm ht rfl hh
    exact ⟨_, .primitive (f2 _ ha) (f3 _ ho) g1 (f1 ▸ hk) (f4 _ _ _ hs) (f5 _ hu), .prim g2.order _ _ _, g2⟩
  | uuid ha ho hh hs hu =>
    obtain ⟨h', g1, g2, g3⟩ := head_retyped h hm ht rfl hh
    exact ⟨_, .uuid (f2 _ ha) (f3 _ ho) g1 (f4 _ _ _ hs) (f5 _ hu), .uuid g2.order _ _, g2⟩
  | padding hmm hh ha hs =>
    obtain ⟨h', g1, g2, g3⟩ := head_retyped h hm ht rfl hh
    exact ⟨_, .padding hmm g1 (by rw [retyped_plain h (by decide)]; exact ha) hs, .padding g2.order _, g2⟩
  | @sequence _ _ _ hd0 i e hk he hh =>
    obtain ⟨n', e', h1, h2, n, h3⟩ := elementRules_retyped hR hl h he
    obtain ⟨h', g1, g2, g3⟩ := head_retyped h hm ht h2.order hh
    exact ⟨_, .sequence (i := { i with elementDataType := some n' }) hk h1 g1, .seq g2.order _ h3 h2, g2⟩
  | @stream _ _ _ hd0 i e hk he hh =>
    obtain ⟨n', e', h1, h2, n, h3⟩ := elementRules_retyped hR hl h he
    obtain ⟨h', g1, g2, g3⟩ := head_retyped h hm ht h2.order hh
    exact ⟨_, .stream (i := { i with elementDataType := some n' }) hk h1 g1, .seq g2.order _ h3 h2, g2⟩
  | @string _ _ _ hd0 i e enc hk hc hn he hh =>
    obtain ⟨n', e', h1, h2, n, h3⟩ := elementRules_retyped hR hl h he
    obtain ⟨h', g1, g2, g3⟩ := head_retyped h hm ht h2.order hh
    exact ⟨_, .string (i := { i with elementDataType := some n' }) hk (by rw [retyped_plain h (by decide)]; exact hc) hn h1
      g1, .seq g2.order _ h3 h2, g2⟩
  | «structure» hmm ha ho hh htt hi hml hd =>
    obtain ⟨h', g1, g2, g3⟩ := head_retyped h hm ht rfl hh
    obtain ⟨items', h1, h2⟩ := items_retyped h hi
    obtain ⟨ds', h3, h4⟩ := memberList_retyped h2
      (fun es' hy fs' hf x hx => ih true es' fs' x (members_depth (items_iff.1 hi) hy) hf hx) hml
    exact ⟨_, .structure hmm (f2 _ ha) (f3 _ ho) g1 (by rw [noValue_retyped hR h]; exact htt) h1 h3
      (by rw [show ds'.map (·.name) = _ from (memberKin_list h4).2.2.1]; exact hd),
      .struct (by rw [hh.name, g3, hst rfl]) g2.order h4, g2⟩
  | union ha ho hh htt hi hml hd =>
    obtain ⟨h', g1, g2, g3⟩ := head_retyped h hm ht rfl hh
    obtain ⟨items', h1, h2⟩ := items_retyped h hi
    obtain ⟨ds', h3, h4⟩ := memberList_retyped h2
      (fun es' hy fs' hf x hx => ih false es' fs' x (members_depth (items_iff.1 hi) hy) hf hx) hml
    exact ⟨_, .union (f2 _ ha) (f3 _ ho) g1 (by rw [noValue_retyped hR h]; exact htt) h1 h3
      (by rw [show ds'.map (·.name) = _ from (memberKin_list h4).2.2.1]; exact hd), .union g2.order h4, g2⟩
  | constant hmm hh hv hl =>
    obtain ⟨h', g1, g2, g3⟩ := head_retyped h hm ht rfl hh
    exact ⟨_, .constant hmm g1 (by rw [retyped_plain h (by decide)]; exact hv)
      (by rw [retyped_plain h (by decide)]; exact hl), .constant _, g2⟩
  | enumeration hmm hh htt hi hv hd =>
    obtain ⟨h', g1, g2, g3⟩ := head_retyped h hm ht rfl hh
    exact ⟨_, .enumeration hmm g1 (by rw [retyped_plain h (by decide)]; exact htt)
      (by rw [retyped_plain h (by decide)]; exact hi) hv hd, .enumeration _, g2⟩
  | format hmm hh ha ho hi hl =>
    obtain ⟨h', g1, g2, g3⟩ := head_retyped h hm ht rfl hh
    refine ⟨_, .format hmm g1 (f2 _ ha) ?_ (by rw [retyped_plainD h (by cases mem <;> decide)]; exact hi) hl, .format _ _, g2⟩
    rw [retyped_plain h (by decide)]
    exact ho.imp id fun ⟨h1, p, h2, h3⟩ => ⟨h1, p, f3 _ h2, h3⟩
  | family hmm hh hb hbt htt hi hml hd =>
    obtain ⟨h', g1, g2, g3⟩ := head_retyped h hm ht rfl hh
    obtain ⟨n, hb1, hb2⟩ := hb
    obtain ⟨n', b', h5, h6, h7, -⟩ := reference_retyped hR hl h "base" (by decide) hb1 hb2
    obtain ⟨items', h1, h2⟩ := items_retyped h hi
    obtain ⟨ds', h3, h4⟩ := namesOf_retyped hl h2 hml
    exact ⟨_, .family hmm g1 ⟨n', h5, h6⟩ (by rw [noValue_retyped hR h]; exact hbt)
      (by rw [noValue_retyped hR h]; exact htt) h1 h3 (typeKin_nodup hR h4 hd), .family h7.1 h4, g2⟩
  | @group _ _ _ hd0 base ident df items ds hmm hh hb hbt hid hin hdf htt hi hml hd hx =>
    obtain ⟨n, hb1, hb2⟩ := hb
    obtain ⟨n', b', h5, h6, h7, -⟩ := reference_retyped hR hl h "base" (by decide) hb1 hb2
    obtain ⟨h', g1, g2, g3⟩ := head_retyped h hm ht h7.1.order hh
    obtain ⟨items', h1, h2⟩ := items_retyped h hi
    obtain ⟨ds', h3, h4⟩ := namesOf_retyped hl h2 hml
    obtain ⟨hid', hident⟩ := retyped_identifier h hid
    obtain ⟨df', h8, h9⟩ : ∃ df', ((NoValue (entry fs "default") ∧ df' = none) ∨
        (¬ NoValue (entry fs "default") ∧ ∃ d, NameOf look' (entry fs "default") d ∧ df' = some d)) ∧
        ((df = none ∧ df' = none) ∨ ∃ d d', df = some d ∧ df' = some d' ∧ TypeKin R d d') := by
      rw [noValue_retyped hR h]
      rcases hdf with ⟨hv, rfl⟩ | ⟨hv, d, ⟨m, hd1, hd2⟩, rfl⟩
      · exact ⟨none, .inl ⟨hv, rfl⟩, .inl ⟨rfl, rfl⟩⟩
      · obtain ⟨m', d', k5, k6, k7, -⟩ := reference_retyped hR hl h "default" (by decide) hd1 hd2
        exact ⟨some d', .inr ⟨hv, d', ⟨m', k5, k6⟩, rfl⟩, .inr ⟨d, d', rfl, rfl, k7⟩⟩
    refine ⟨_, .group hmm g1 ⟨n', h5, h6⟩ (by rw [noValue_retyped hR h]; exact hbt) hid' hin h8
      (by rw [noValue_retyped hR h]; exact htt) h1 h3 (typeKin_nodup hR h4 hd) ?_, .group g2.order _ h7.1 h9 h4, g2⟩
    clear h3 hml hd hi h2 h1
    induction h4 with
    | nil => intro d hd; cases hd
    | @cons d d' ds ds' hr _ ihr =>
      intro y hy
      rw [List.mem_cons] at hy
      rcases hy with rfl | hy
      · obtain ⟨inner, hi1, x, hi2, hi3⟩ := hx d List.mem_cons_self
        rcases hr.1.names with ⟨h1, -⟩ | ⟨ms, ms', h1, h2, h3⟩
        · rw [h1] at hi1; cases hi1
        · rw [h1] at hi1
          cases hi1
          refine ⟨ms', h2, ?_⟩
          clear h1 h2
          induction h3 with
          | nil => cases hi2
          | @cons m m' ms ms' hk _ ihm =>
            rw [List.mem_cons] at hi2
            rcases hi2 with rfl | hi2
            · refine ⟨m', List.mem_cons_self, ?_⟩
              rcases hk with hk | hk
              · rw [hk, hi3]
              · exact (hident _ _ hk).1 hi3
            · obtain ⟨z, hz1, hz2⟩ := ihm hi2
              exact ⟨z, List.mem_cons_of_mem _ hz1, hz2⟩
      · exact ihr (fun d hd => hx d (List.mem_cons_of_mem _ hd)) y hy

include hR hl in
theorem member_retyped (k : Nat) : ∀ c es fs x, (Yaml.map es).depth ≤ k → RetypedEntries R false es fs →
    Member E look c (.map es) x → ∃ x', Member E look' c (.map fs) x' ∧ MemberKin R x x' := by
  induction k with
  | zero =>
    intro c es fs x hk _ hx
    rw [Yaml.depth] at hk; omega
  | succ k ih =>
    intro c es fs x hk hf hx
    cases hx with
    | @typed _ es name ty inner cond sv hn hty hdt hc hcc hv hk' hi =>
      have hst : ty = "structure" → name = name := fun _ => rfl
      obtain ⟨inner', h1, h2, h3⟩ := ofType_retyped hR hl (mem := true) hf
        (fun c es' fs' x hd => ih c es' fs' x (by omega)) (fun _ => rfl) (nomatch ·) hst hi
      refine ⟨_, .typed (name := name) (ty := ty) (inner := inner') (cond := cond) (sv := sv) ?_ ?_ ?_ ?_ ?_ ?_ (retyped_keys hf _ hk') h1, ?_⟩
      · rw [retyped_member hf (by decide)]; exact hn
      · rw [retyped_plain hf (by decide)]; exact hty
      · have := retyped_entry hf "data_type"
        rw [hdt] at this
        exact null_retyped this
      · rw [retyped_plain hf (by decide)]; exact hc
      · rw [retyped_plain hf (by decide)]; exact hcc
      · rw [retyped_plain hf (by decide), retyped_plain hf (by decide)]; exact hv
      · rw [h2.order]
        split
        · exact ⟨.memberOf _ _ _ rfl _ h2, rfl⟩
        · exact ⟨h2, h3.member rfl⟩
    | @reference _ es name dt hd0 inner cond sv hn hty hdt hc hcc hv hk' hi hh =>
      obtain ⟨n', e', h5, h6, h7, h8⟩ := reference_retyped hR hl hf "data_type" (by decide) hdt hi
      obtain ⟨h', g1, g2, g3⟩ := head_retyped (mem := true) hf (n' := name) (fun _ => rfl) (nomatch ·) h7.1.order hh
      refine ⟨_, .reference (name := name) (dt := n') (h := h') (inner := e') (cond := cond) (sv := sv) ?_ ?_ h5 ?_ ?_ ?_
        (retyped_keys hf _ hk') h6 g1, .memberOf _ _ _ (by rfl) _ h7.1, g2.member rfl⟩
      · rw [retyped_member hf (by decide)]; exact hn
      · rw [retyped_plain hf (by decide)]; exact hty
      · rw [retyped_plain hf (by decide)]; exact hc
      · rw [retyped_plain hf (by decide)]; exact hcc
      · rw [retyped_plain hf (by decide), retyped_plain hf (by decide)]; exact hv

include hR hl in
theorem describes_retyped {y y' : Yaml} (h : RetypedDoc R y y') {x : Defn} (hx : Describes E look y x) :
    ∃ x', Describes E look' y' x' ∧ TypeKin R x x' := by
  obtain ⟨es, name, ty, rfl, h1, h2, h3, h4, h5⟩ := hx
  cases h with
  | @mk _ fs hf hs =>
    obtain ⟨name', hn1, hn2⟩ : ∃ name', entry fs "name" = .str name' ∧ R name name' := by
      have := retyped_entry hf "name"
      rw [h1] at this
      generalize entry fs "name" = x' at this
      generalize hkey : Key.str "name" = key at this
      generalize hy : Yaml.str name = y at this
      cases this with
      | null => cases hy
      | same hk => exact absurd hkey.symm (hk "name" (by simp [retypedKeys, typeNameKeys]))
      | name hk hr => cases hy; exact ⟨_, rfl, hr⟩
      | aliases => cases hy
      | identifier => exact absurd (Key.str.inj hkey) (by decide)
      | members => cases hy
    obtain ⟨x', h6, h7, h8⟩ := ofType_retyped hR hl (mem := false) hf
      (fun c es' fs' x _ => member_retyped hR hl _ c es' fs' x (Nat.le_refl _)) (nomatch ·) (fun _ => hn2)
      (fun he => by
        have := hs (he ▸ h3)
        rw [hn1, h1] at this
        exact Yaml.str.inj this) h5
    exact ⟨x', ⟨fs, name', ty, rfl, hn1, (hR.some hn2).2, by rw [retyped_plain hf (by decide)]; exact h3,
      retyped_keys hf _ h4, h6⟩, h7, (h8.type rfl).1, (h8.type rfl).2⟩

end

/-! ### Back again -/

theorem retypedEntries_flip {R : String → String → Prop} (k : Nat) : ∀ own es fs, (Yaml.map es).depth ≤ k →
    RetypedEntries R own es fs → RetypedEntries (fun n n' => R n' n) own fs es := by
  induction k with
  | zero => intro own es fs hk; rw [Yaml.depth] at hk; omega
  | succ k ih =>
    have hitems : ∀ l l', depthList l ≤ k → RetypedItems R l l' → RetypedItems (fun n n' => R n' n) l' l := by
      intro l
      induction l with
      | nil => intro l' _ h; cases h; exact .nil
      | cons y l ihl =>
        intro l' hl h
        rw [depthList] at hl
        cases h with
        | cons h t => exact .cons (ih _ _ _ (by omega) h) (ihl _ (by omega) t)
        | name h t => exact .name h (ihl _ (by omega) t)
    intro own es fs hk h
    rw [Yaml.depth] at hk
    replace hk : depthEntries es ≤ k := by omega
    clear ih
    induction es generalizing fs with
    | nil => cases h; exact .nil
    | cons e es ihe =>
      rw [depthEntries] at hk
      cases h with
      | @cons _ key y y' _ fs h t =>
        refine .cons ?_ (ihe fs t (by omega))
        rw [depthEntry] at hk
        cases h with
        | null => exact .null
        | same hk => exact .same hk _
        | name hkey h => exact .name hkey h
        | aliases h => exact .aliases (all2_flip h)
        | identifier h => exact .identifier fun n n' hr => (h n' n hr).symm
        | @members _ l l' h =>
          have : (Yaml.list l).depth = depthList l + 1 := rfl
          exact .members (hitems _ _ (by omega) h)

theorem Spec.RetypedDoc.flip {R : String → String → Prop} {y y' : Yaml} (h : RetypedDoc R y y') :
    RetypedDoc (fun n n' => R n' n) y' y := by
  cases h with
  | mk h hs =>
    refine .mk (retypedEntries_flip _ _ _ _ (Nat.le_refl _) h) fun he => ?_
    rw [retyped_plain h (by decide)] at he
    exact (hs he).symm

end Dtf
