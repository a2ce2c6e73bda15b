import Verif.Relabel
import Verif.ReaderLemmas
import Verif.Fabric
import Verif.Props.Reorder
/-!
Definition files that differ in their documentation.
-/
namespace Dtf

namespace Spec

/-- The value of a key of a mapping, if there is one. -/
def valueOf (es : List (Key × Yaml)) (k : Key) : Option Yaml := (es.find? (·.1 == k)).map (·.2)

/-- A text, null or nothing. -/
def NoneOrText (o : Option Yaml) : Prop := o = none ∨ o = some .null ∨ ∃ s, o = some (.str s)

mutual
/-- Values that are the same, or mappings that differ only in the order of the keys, in
descriptions and in the urls. Only definitions (`u`) have urls. -/
inductive Reworded : Bool → Yaml → Yaml → Prop
  | same {u} (y) : Reworded u y y
  | mapping {u es fs} (h : ∀ k, SameAt u k (valueOf es k) (valueOf fs k)) : Reworded u (.map es) (.map fs)
/-- The same for the value of a key. -/
inductive SameAt : Bool → Key → Option Yaml → Option Yaml → Prop
  | same {u k} (o) : SameAt u k o o
  | description {u o o'} (h : NoneOrText o) (h' : NoneOrText o') : SameAt u (.str "description") o o'
  | urls {o o'} : SameAt true (.str "urls") o o'
  | members {u l l'} (h : RewordedAll l l') :
      SameAt u (.str "members") (some (.list l)) (some (.list l'))
  | values {u l l'} (h : RewordedAll l l') :
      SameAt u (.str "values") (some (.list l)) (some (.list l'))
  | attributes {u es fs} (h : ∀ k, valueOf es k = valueOf fs k) :
      SameAt u (.str "attributes") (some (.map es)) (some (.map fs))
inductive RewordedAll : List Yaml → List Yaml → Prop
  | nil : RewordedAll [] []
  | cons {y y' l l'} (h : Reworded false y y') (t : RewordedAll l l') : RewordedAll (y :: l) (y' :: l')
end

/-- Files with the same documents but for the wording of the definitions. -/
inductive RewordedDocs : List Yaml → List Yaml → Prop
  | nil : RewordedDocs [] []
  | cons {y y' l l'} (h : Reworded true y y') (t : RewordedDocs l l') : RewordedDocs (y :: l) (y' :: l')

end Spec
open Spec

/-! ### Definitions without descriptions -/

def Hdr.bare (h : Hdr) : Hdr := { h with description := none }

mutual
/-- The definition without any descriptions. -/
def Defn.bare : Defn → Defn
  | .prim h k s u => .prim h.bare k s u
  | .uuid h s u => .uuid h.bare s u
  | .padding h a => .padding h.bare a
  | .seq h i e => .seq h.bare i e.bare
  | .struct h ms => .struct h.bare (bareAll ms)
  | .union h ms => .union h.bare (bareAll ms)
  | .constant h v => .constant h.bare v
  | .enumeration h v => .enumeration h.bare v
  | .format h o l => .format h.bare o l
  | .family h b ms => .family h.bare b.bare (bareAll ms)
  | .group h b i d ms => .group h.bare b.bare i (bareOpt d) (bareAll ms)
  | .member h d c t vs => .member h.bare d.bare c t vs
termination_by structural d => d
def bareAll : List Defn → List Defn
  | [] => []
  | d :: ds => d.bare :: bareAll ds
termination_by structural ds => ds
def bareOpt : Option Defn → Option Defn
  | none => none
  | some d => some d.bare
termination_by structural d => d
end

theorem bareAll_map (ds : List Defn) : bareAll ds = ds.map Defn.bare := by
  induction ds with
  | nil => rfl
  | cons d ds ih => simp only [bareAll, ih, List.map_cons]

theorem bareOpt_map (d : Option Defn) : bareOpt d = d.map Defn.bare := by cases d <;> rfl

theorem bare_hdr (d : Defn) : d.bare.hdr = d.hdr.bare := by cases d <;> simp only [Defn.bare, Defn.hdr]

theorem bare_name (d : Defn) : d.bare.name = d.name := by rw [Defn.name, bare_hdr]; rfl

theorem bare_aliases (d : Defn) : d.bare.hdr.aliases = d.hdr.aliases := by rw [bare_hdr]; rfl

theorem bare_order (d : Defn) : d.bare.order? = d.order? := by
  induction d using Defn.ind with
  | member h d c t vs ih => simp only [Defn.bare, Defn.order?, ih]
  | _ => simp only [Defn.bare, Defn.order?, Hdr.bare]

theorem bare_orderOrNative (d : Defn) : d.bare.orderOrNative = d.orderOrNative := by
  simp only [Defn.orderOrNative, bare_order]

theorem bare_format (d : Defn) : d.bare.isFormat = d.isFormat := by
  cases d <;> simp only [Defn.bare, Defn.isFormat]

theorem bare_members (d : Defn) : d.bare.members? = d.members?.map (·.map Defn.bare) := by
  cases d <;> simp only [Defn.bare, Defn.members?, Option.map_none, Option.map_some, bareAll_map]

theorem names_bare {ds ds' : List Defn} (h : ds.map Defn.bare = ds'.map Defn.bare) (n : String) :
    (ds.any (·.name == n)) = (ds'.any (·.name == n)) := by
  have : ∀ ds : List Defn, (ds.any (·.name == n)) = ((ds.map Defn.bare).any (·.name == n)) := by
    intro ds
    rw [List.any_map]
    congr 1
    funext d
    simp only [Function.comp, bare_name]
  rw [this, this ds', h]

theorem order_bare {h h' : Hdr} (e : h.bare = h'.bare) : h.order = h'.order := by
  have := congrArg Hdr.order e; exact this
theorem name_bare {h h' : Hdr} (e : h.bare = h'.bare) : h.name = h'.name := by
  have := congrArg Hdr.name e; exact this

theorem sameNamed_bare {ds ds' : List Defn} (h : bareAll ds = bareAll ds')
    (hd : ∀ d ∈ ds, ∀ d', d.bare = d'.bare → Relabelled d d') : SameNamed ds ds' := by
  induction ds generalizing ds' with
  | nil => cases ds' with
    | nil => exact .nil
    | cons => simp only [bareAll, reduceCtorEq] at h
  | cons d ds ih =>
    cases ds' with
    | nil => simp only [bareAll, reduceCtorEq] at h
    | cons d' ds' =>
      simp only [bareAll, List.cons.injEq] at h
      refine .cons ?_ (hd d List.mem_cons_self d' h.1) (ih h.2 fun d hm => hd d (List.mem_cons_of_mem _ hm))
      rw [← bare_name d, h.1, bare_name]

theorem relabelledAll_bare {ds ds' : List Defn} (h : bareAll ds = bareAll ds')
    (hd : ∀ d ∈ ds, ∀ d', d.bare = d'.bare → Relabelled d d') : RelabelledAll ds ds' := by
  induction ds generalizing ds' with
  | nil => cases ds' with
    | nil => exact .nil
    | cons => simp only [bareAll, reduceCtorEq] at h
  | cons d ds ih =>
    cases ds' with
    | nil => simp only [bareAll, reduceCtorEq] at h
    | cons d' ds' =>
      simp only [bareAll, List.cons.injEq] at h
      exact .cons (hd d List.mem_cons_self d' h.1) (ih h.2 fun d hm => hd d (List.mem_cons_of_mem _ hm))

theorem givenByName_bare (n : String) (d : Defn) : givenByName n d.bare = givenByName n d := by
  have key : ∀ ms : List Defn, ((bareAll ms).find? (·.name == n)) = (ms.find? (·.name == n)).map Defn.bare := by
    intro ms
    rw [bareAll_map, List.find?_map]
    congr 1
    congr 1
    funext d
    simp only [Function.comp, bare_name]
  have hm : ∀ o : Option Defn, (o.map Defn.bare).map (fun | .member .. => true | _ => false) =
      o.map (fun | .member .. => true | _ => false) := by
    intro o
    cases o with
    | none => rfl
    | some d => cases d <;> simp only [Option.map_some, Defn.bare]
  cases d <;> simp only [Defn.bare, givenByName, key]
  · exact hm _
  · exact hm _

/-- Definitions that are the same but for descriptions are relabelled. -/
theorem relabelled_bare {d d' : Defn} (h : d.bare = d'.bare) : Relabelled d d' := by
  induction d using Defn.ind generalizing d' with
  | prim h0 k s u =>
    cases d' <;> simp only [Defn.bare, reduceCtorEq, Defn.prim.injEq] at h
    obtain ⟨h1, rfl, rfl, rfl⟩ := h
    exact .prim _ _ _ (order_bare h1)
  | uuid h0 s u =>
    cases d' <;> simp only [Defn.bare, reduceCtorEq, Defn.uuid.injEq] at h
    obtain ⟨h1, rfl, rfl⟩ := h
    exact .uuid _ _ (order_bare h1)
  | padding h0 a =>
    cases d' <;> simp only [Defn.bare, reduceCtorEq, Defn.padding.injEq] at h
    obtain ⟨h1, rfl⟩ := h
    exact .padding _ (order_bare h1)
  | seq h0 i e ih =>
    cases d' <;> simp only [Defn.bare, reduceCtorEq, Defn.seq.injEq] at h
    obtain ⟨h1, rfl, h2⟩ := h
    exact .seq i i.elementDataType (order_bare h1) rfl (ih h2)
  | struct h0 ms ih =>
    cases d' <;> simp only [Defn.bare, reduceCtorEq, Defn.struct.injEq] at h
    obtain ⟨h1, h2⟩ := h
    exact .struct (name_bare h1) (order_bare h1) (sameNamed_bare h2 fun d hm d' h => ih d hm h)
  | union h0 ms ih =>
    cases d' <;> simp only [Defn.bare, reduceCtorEq, Defn.union.injEq] at h
    obtain ⟨h1, h2⟩ := h
    exact .union (order_bare h1) (sameNamed_bare h2 fun d hm d' h => ih d hm h)
  | constant h0 v =>
    cases d' <;> simp only [Defn.bare, reduceCtorEq, Defn.constant.injEq] at h
    obtain ⟨h1, rfl⟩ := h
    exact .constant _
  | enumeration h0 v =>
    cases d' <;> simp only [Defn.bare, reduceCtorEq, Defn.enumeration.injEq] at h
    obtain ⟨h1, rfl⟩ := h
    exact .enumeration _
  | format h0 o l =>
    cases d' <;> simp only [Defn.bare, reduceCtorEq, Defn.format.injEq] at h
    obtain ⟨h1, rfl, rfl⟩ := h
    exact .format _ _
  | family h0 b ms ihb ih =>
    cases d' <;> simp only [Defn.bare, reduceCtorEq, Defn.family.injEq] at h
    obtain ⟨h1, h2, h3⟩ := h
    exact .family (ihb h2) (relabelledAll_bare h3 fun d hm d' h => ih d hm h)
  | group h0 b i d ms ihb ihd ih =>
    cases d' <;> simp only [Defn.bare, reduceCtorEq, Defn.group.injEq] at h
    rename_i h0' b' i' d' ms'
    obtain ⟨h1, h2, rfl, h3, h4⟩ := h
    refine .group (order_bare h1) (ihb h2) ?_ (relabelledAll_bare h4 fun d hm d' h => ih d hm h) ?_
    case refine_2 =>
      have hg : ∀ ms : List Defn, ms.map (givenByName i) = (bareAll ms).map (givenByName i) := by
        intro ms
        rw [bareAll_map, List.map_map]
        congr 1
        funext d
        exact (givenByName_bare i d).symm
      rw [hg ms', hg ms, h4]
    cases d <;> cases d' <;> simp only [bareOpt, reduceCtorEq, Option.some.injEq] at h3
    · exact .none
    · exact .some (ihd _ rfl h3)
  | member h0 d c t vs ih =>
    cases d' <;> simp only [Defn.bare, reduceCtorEq, Defn.member.injEq] at h
    obtain ⟨h1, h2, rfl, rfl, rfl⟩ := h
    exact .member _ _ (ih h2) rfl

/-! ### Looking into mappings -/

/-- The results are the same error, or related values. -/
inductive Alike2 {α : Type} (R : α → α → Prop) : Except Err α → Except Err α → Prop
  | error (e) : Alike2 R (.error e) (.error e)
  | ok {a a'} (h : R a a') : Alike2 R (.ok a) (.ok a')

theorem Alike2.bind {α β : Type} {R : α → α → Prop} {S : β → β → Prop} {x x' : Except Err α}
    {f f' : α → Except Err β} (h : Alike2 R x x') (hf : ∀ a a', R a a' → Alike2 S (f a) (f' a')) :
    Alike2 S (x >>= f) (x' >>= f') := by
  cases h with
  | error e => simp only [error_bind]; exact .error e
  | ok h => simp only [ok_bind]; exact hf _ _ h

theorem Alike2.same {α β : Type} {S : β → β → Prop} (x : Except Err α)
    {f f' : α → Except Err β} (hf : ∀ a, Alike2 S (f a) (f' a)) : Alike2 S (x >>= f) (x >>= f') := by
  cases x with
  | error e => simp only [error_bind]; exact .error e
  | ok a => simp only [ok_bind]; exact hf a

theorem Alike2.ite {α : Type} {S : α → α → Prop} {c : Prop} [Decidable c] {x x' y y' : Except Err α}
    (hx : Alike2 S x x') (hy : Alike2 S y y') : Alike2 S (if c then x else y) (if c then x' else y') := by
  split
  · exact hx
  · exact hy

/-- Mappings whose keys and values are related. -/
abbrev Entries (u : Bool) (es fs : List (Key × Yaml)) : Prop := ∀ k, SameAt u k (valueOf es k) (valueOf fs k)

theorem entryD_valueOf (es : List (Key × Yaml)) (k : String) (y : Yaml) :
    entryD es k y = (valueOf es (.str k)).getD y := rfl

theorem Entries.plainD {u : Bool} {es fs : List (Key × Yaml)} (h : Entries u es fs) (k : String)
    (hk : k ∉ ["description", "urls", "members", "values", "attributes"]) (y : Yaml) :
    entryD fs k y = entryD es k y := by
  simp only [List.mem_cons, List.not_mem_nil, or_false, not_or] at hk
  have := h (.str k)
  rw [entryD_valueOf, entryD_valueOf]
  generalize valueOf es (.str k) = o at this
  generalize valueOf fs (.str k) = o' at this
  cases this with
  | same => rfl
  | _ => simp at hk

theorem Entries.plain {u : Bool} {es fs : List (Key × Yaml)} (h : Entries u es fs) (k : String)
    (hk : k ∉ ["description", "urls", "members", "values", "attributes"]) : entry fs k = entry es k :=
  h.plainD k hk .null

theorem Entries.description {u : Bool} {es fs : List (Key × Yaml)} (h : Entries u es fs) :
    entry fs "description" = entry es "description" ∨
      ∃ o o', (entry es "description").text? = .ok o ∧ (entry fs "description").text? = .ok o' := by
  have := h (.str "description")
  unfold entry
  rw [entryD_valueOf, entryD_valueOf]
  generalize valueOf es (.str "description") = o at this
  generalize valueOf fs (.str "description") = o' at this
  have key : ∀ o, NoneOrText o → ∃ t, (o.getD .null).text? = .ok t := by
    rintro o (rfl | rfl | ⟨s, rfl⟩) <;> exact ⟨_, rfl⟩
  generalize hk : Key.str "description" = k at this
  cases this with
  | same => exact .inl rfl
  | description h h' =>
    obtain ⟨t, ht⟩ := key _ h
    obtain ⟨t', ht'⟩ := key _ h'
    exact .inr ⟨t, t', ht, ht'⟩
  | _ => simp at hk

theorem Entries.members {u : Bool} {es fs : List (Key × Yaml)} (h : Entries u es fs) :
    entry fs "members" = entry es "members" ∨
      ∃ l l', entry es "members" = .list l ∧ entry fs "members" = .list l' ∧ RewordedAll l l' := by
  have := h (.str "members")
  unfold entry
  rw [entryD_valueOf, entryD_valueOf]
  generalize valueOf es (.str "members") = o at this
  generalize valueOf fs (.str "members") = o' at this
  generalize hk : Key.str "members" = k at this
  cases this with
  | same => exact .inl rfl
  | members h => exact .inr ⟨_, _, rfl, rfl, h⟩
  | _ => simp at hk

theorem Entries.values {u : Bool} {es fs : List (Key × Yaml)} (h : Entries u es fs) :
    entry fs "values" = entry es "values" ∨
      ∃ l l', entry es "values" = .list l ∧ entry fs "values" = .list l' ∧ RewordedAll l l' := by
  have := h (.str "values")
  unfold entry
  rw [entryD_valueOf, entryD_valueOf]
  generalize valueOf es (.str "values") = o at this
  generalize valueOf fs (.str "values") = o' at this
  generalize hk : Key.str "values" = k at this
  cases this with
  | same => exact .inl rfl
  | values h => exact .inr ⟨_, _, rfl, rfl, h⟩
  | _ => simp at hk

theorem valueOf_isSome (es : List (Key × Yaml)) (k : Key) : (valueOf es k).isSome = true ↔ k ∈ es.map (·.1) := by
  simp only [valueOf, Option.isSome_map, List.find?_isSome, beq_iff_eq, List.mem_map]

/-- Only the set of keys that are not supported matters. -/
theorem checkKeys_sets {sup : List String} {es fs : List (Key × Yaml)}
    (h : ∀ k, (∀ s ∈ sup, k ≠ .str s) → (k ∈ es.map (·.1) ↔ k ∈ fs.map (·.1))) :
    checkKeys sup (.map fs) = checkKeys sup (.map es) := by
  have hm : ∀ k, k ∈ (fs.map (·.1)).filter (fun k => !(sup.any (k == .str ·))) ↔
      k ∈ (es.map (·.1)).filter (fun k => !(sup.any (k == .str ·))) := by
    intro k
    rw [List.mem_filter, List.mem_filter]
    constructor
    · rintro ⟨h1, h2⟩
      exact ⟨(h k (by simpa using h2)).mpr h1, h2⟩
    · rintro ⟨h1, h2⟩
      exact ⟨(h k (by simpa using h2)).mp h1, h2⟩
  simp only [checkKeys, Yaml.keys]
  generalize (fs.map (·.1)).filter (fun k => !(sup.any (k == .str ·))) = a at hm
  generalize (es.map (·.1)).filter (fun k => !(sup.any (k == .str ·))) = b at hm
  have h1 : a.isEmpty = b.isEmpty := by
    rw [Bool.eq_iff_iff, List.isEmpty_iff, List.isEmpty_iff, List.eq_nil_iff_forall_not_mem,
      List.eq_nil_iff_forall_not_mem]
    exact forall_congr' fun k => not_congr (hm k)
  have h2 : ∀ p : Key → Bool, a.any p = b.any p := by
    intro p
    rw [Bool.eq_iff_iff, List.any_eq_true, List.any_eq_true]
    exact exists_congr fun k => and_congr (hm k) Iff.rfl
  rw [h1, h2]

theorem Entries.keys {u : Bool} {es fs : List (Key × Yaml)} (h : Entries u es fs) {sup : List String}
    (hd : "description" ∈ sup) (hu : u = true → "urls" ∈ sup) :
    checkKeys sup (.map fs) = checkKeys sup (.map es) := by
  refine checkKeys_sets fun k hk => ?_
  rw [← valueOf_isSome, ← valueOf_isSome]
  have := h k
  generalize valueOf es k = o at this
  generalize valueOf fs k = o' at this
  cases this with
  | same => exact Iff.rfl
  | description => exact absurd rfl (hk _ hd)
  | urls => exact absurd rfl (hk _ (hu rfl))
  | members | values | attributes => simp only [Option.isSome_some]

/-- Values of the key `attributes`. -/
def SameAttributes (y y' : Yaml) : Prop :=
  y' = y ∨ ∃ es fs, y = .map es ∧ y' = .map fs ∧ ∀ k, valueOf es k = valueOf fs k

theorem Entries.attributes {u : Bool} {es fs : List (Key × Yaml)} (h : Entries u es fs) :
    SameAttributes (entry es "attributes") (entry fs "attributes") := by
  have := h (.str "attributes")
  unfold entry
  rw [entryD_valueOf, entryD_valueOf]
  generalize valueOf es (.str "attributes") = o at this
  generalize valueOf fs (.str "attributes") = o' at this
  generalize hk : Key.str "attributes" = k at this
  cases this with
  | same => exact .inl rfl
  | attributes h => exact .inr ⟨_, _, rfl, rfl, h⟩
  | _ => simp at hk

theorem SameAttributes.truthy {y y' : Yaml} (h : SameAttributes y y') : y'.truthy = y.truthy := by
  rcases h with rfl | ⟨es, fs, rfl, rfl, h⟩
  · rfl
  · simp only [Yaml.truthy]
    congr 1
    have : ∀ k, k ∈ fs.map (·.1) ↔ k ∈ es.map (·.1) := by
      intro k
      rw [← valueOf_isSome, ← valueOf_isSome, h]
    rw [Bool.eq_iff_iff, List.isEmpty_iff, List.isEmpty_iff]
    constructor
    · intro he
      cases es with
      | nil => rfl
      | cons e es => have := (this e.1).mpr (by simp); simp [he] at this
    · intro he
      cases fs with
      | nil => rfl
      | cons e es => have := (this e.1).mp (by simp); simp [he] at this

theorem SameAttributes.keys {y y' : Yaml} (h : SameAttributes y y') (sup : List String) :
    checkKeys sup y' = checkKeys sup y := by
  rcases h with rfl | ⟨es, fs, rfl, rfl, h⟩
  · rfl
  · refine checkKeys_sets fun k _ => ?_
    rw [← valueOf_isSome, ← valueOf_isSome, h]

theorem SameAttributes.getD {y y' : Yaml} (h : SameAttributes y y') (k : String) (x : Yaml) :
    y'.getD k x = y.getD k x := by
  rcases h with rfl | ⟨es, fs, rfl, rfl, h⟩
  · rfl
  · rw [getD_map, getD_map, entryD_valueOf, entryD_valueOf, h]

/-! ### Reading -/

/-- Attributes that are the same but for the description. -/
abbrev SameHdr (h h' : Hdr) : Prop := h.bare = h'.bare
/-- Definitions that are the same but for descriptions. -/
abbrev SameDefn (d d' : Defn) : Prop := d.bare = d'.bare

theorem readHdr_reworded {u : Bool} {es fs : List (Key × Yaml)} (h : Entries u es fs) {sup : List String}
    (hd : "description" ∈ sup) (hu : u = true → "urls" ∈ sup) (name : String) :
    Alike2 SameHdr (readHdr sup (.map es) name) (readHdr sup (.map fs) name) := by
  simp only [readHdr, h.keys hd hu, get_map, ok_bind, h.plain "aliases" (by decide)]
  refine .same _ fun _ => .same _ fun as => ?_
  rcases h.description with h | ⟨o, o', h1, h2⟩
  · rw [h]; exact .same _ fun _ => .ok rfl
  · rw [h1, h2, ok_bind, ok_bind]; exact .ok rfl

theorem readAttrs_reworded {u : Bool} {es fs : List (Key × Yaml)} (h : Entries u es fs) (sup : List String) :
    readAttrs sup (.map fs) = readAttrs sup (.map es) := by
  have ha := h.attributes
  simp only [readAttrs, get_map, ok_bind, ha.truthy, ha.keys, readOrder, ha.getD]

/-- The supported keys of a definition or member. -/
theorem storage_keys {u m : Bool} (hm : u = true → m = false) :
    "description" ∈ (if m then valuesMember else valuesStorage) ∧
      (u = true → "urls" ∈ (if m then valuesMember else valuesStorage)) := by
  refine ⟨?_, fun hu => ?_⟩
  · cases m <;> decide
  · rw [hm hu]; decide

theorem readStorage_reworded {u : Bool} {es fs : List (Key × Yaml)} (h : Entries u es fs) (attrs : List String)
    {m : Bool} (hm : u = true → m = false) (name : String) :
    Alike2 SameHdr (readStorage attrs m (.map es) name) (readStorage attrs m (.map fs) name) := by
  unfold readStorage
  refine (readHdr_reworded h (storage_keys hm).1 (storage_keys hm).2 name).bind fun a a' ha => ?_
  rw [readAttrs_reworded h]
  refine .same _ fun o => .ok ?_
  simp only [SameHdr, Hdr.bare, Hdr.mk.injEq] at ha ⊢
  simp [ha]

theorem readFixed_reworded {u : Bool} {es fs : List (Key × Yaml)} (h : Entries u es fs) (E : Env)
    (attrs : List String) (dflt : Yaml) (init : Size) (sizes : List Nat)
    {m : Bool} (hm : u = true → m = false) (name : String) :
    Alike2 (fun a a' => SameHdr a.1 a'.1 ∧ a.2 = a'.2) (readFixed E attrs dflt init sizes m (.map es) name)
      (readFixed E attrs dflt init sizes m (.map fs) name) := by
  have ha := h.attributes
  unfold readFixed
  refine (readStorage_reworded h attrs hm name).bind fun a a' hh => ?_
  simp only [get_map, ok_bind, ha.truthy, ha.getD]
  refine .ite ?_ (.ok ⟨hh, rfl⟩)
  exact .same _ fun _ => .same _ fun _ => .same _ fun _ => .same _ fun _ => .ok ⟨hh, rfl⟩

theorem resolve_reworded {E : Env} {reg reg' : Registry}
    (hr : ∀ s, (reg.getByName E s).map Defn.bare = (reg'.getByName E s).map Defn.bare) (y : Yaml) :
    Alike2 SameDefn (resolve E reg y) (resolve E reg' y) := by
  unfold resolve
  split
  · rename_i s
    have := hr s
    cases h1 : reg.getByName E s <;> cases h2 : reg'.getByName E s <;> rw [h1, h2] at this <;>
      simp only [Option.map_none, Option.map_some, reduceCtorEq, Option.some.injEq] at this
    · exact .error _
    · exact .ok this
  · exact .error _
  · exact .error _

theorem orderOrNative_same {d d' : Defn} (h : SameDefn d d') : d'.orderOrNative = d.orderOrNative := by
  rw [← bare_orderOrNative d, h, bare_orderOrNative]

theorem name_same {d d' : Defn} (h : SameDefn d d') : d'.name = d.name := by
  rw [← bare_name d, h, bare_name]

theorem readElements_reworded {u : Bool} {es fs : List (Key × Yaml)} (h : Entries u es fs) {E : Env}
    {reg reg' : Registry} (hr : ∀ s, (reg.getByName E s).map Defn.bare = (reg'.getByName E s).map Defn.bare)
    (kind : SeqKind) {sup : List String} (hd : "description" ∈ sup) (hu : u = true → "urls" ∈ sup) (name : String) :
    Alike2 SameDefn (readElements E reg kind sup (.map es) name) (readElements E reg' kind sup (.map fs) name) := by
  simp only [readElements, h.keys hd hu, get_map, ok_bind, h.plain "element_data_type" (by decide),
    h.plain "elements_data_size" (by decide), h.plain "elements_terminator" (by decide),
    h.plain "number_of_elements" (by decide)]
  refine .same _ fun _ => .ite (.error _) (.ite (.error _) (.ite (.error _) ?_))
  refine (resolve_reworded hr _).bind fun e e' he => ?_
  refine (readHdr_reworded h hd hu name).bind fun a a' ha => ?_
  refine .same _ fun _ => .same _ fun _ => .same _ fun _ => .same _ fun _ => .ok ?_
  simp only [SameDefn, SameHdr, Defn.bare, Hdr.bare, Hdr.mk.injEq] at ha he ⊢
  simp [ha, he, orderOrNative_same he]

/-- The registries have the same definitions but for descriptions. -/
abbrev SameLookups (E : Env) (reg reg' : Registry) : Prop :=
  ∀ s, (reg.getByName E s).map Defn.bare = (reg'.getByName E s).map Defn.bare

theorem readString_reworded {u : Bool} {es fs : List (Key × Yaml)} (h : Entries u es fs) {E : Env}
    {reg reg' : Registry} (hr : SameLookups E reg reg') {m : Bool} (hm : u = true → m = false) (name : String) :
    Alike2 SameDefn (readString E reg m (.map es) name) (readString E reg' m (.map fs) name) := by
  simp only [readString, get_map, ok_bind, h.plain "encoding" (by decide)]
  refine (readElements_reworded h hr _ ?_ ?_ name).bind fun a a' ha => .ite (.error _) (.same _ fun enc => ?_)
  · cases m <;> decide
  · intro hu; rw [hm hu]; decide
  · cases a <;> cases a' <;> simp only [SameDefn, Defn.bare, reduceCtorEq, Defn.seq.injEq] at ha <;>
      first
      | (obtain ⟨h1, rfl, h2⟩ := ha
         exact .ok (by simp only [SameDefn, Defn.bare, h1, h2]))
      | exact .ok (by simp only [SameDefn, Defn.bare, ha])

theorem RewordedAll_iff {l l' : List Yaml} (h : RewordedAll l l') : All2 (Reworded false) l l' := by
  induction l generalizing l' with
  | nil => cases h; exact .nil
  | cons y l ih => cases h with | cons h t => exact .cons h (ih t)

theorem addValues_reworded {l l' : List Yaml} (h : All2 (Reworded false) l l') (b : EnumBuilder) :
    addValues b l' = addValues b l := by
  induction h generalizing b with
  | nil => rfl
  | cons h t ih =>
    cases h with
    | same y => simp only [addValues, ih]
    | mapping h =>
      simp only [addValues, ih, get_map, ok_bind, Entries.plain h "aliases" (by decide),
        Entries.plain h "name" (by decide), Entries.plain h "number" (by decide)]

theorem list_truthy {l l' : List Yaml} (h : All2 (Reworded false) l l') :
    (Yaml.list l').truthy = (Yaml.list l).truthy := by
  cases h <;> rfl

theorem readEnumeration_reworded {u : Bool} {es fs : List (Key × Yaml)} (h : Entries u es fs) (m : Bool)
    (name : String) :
    Alike2 SameDefn (readEnumeration m (.map es) name) (readEnumeration m (.map fs) name) := by
  unfold readEnumeration
  refine .ite (.error _) ?_
  simp only [get_map, ok_bind]
  have hh := readHdr_reworded h (sup := valuesEnumeration) (by decide) (fun _ => by decide) name
  rcases h.values with hv | ⟨l, l', h1, h2, hv⟩
  · rw [hv]
    refine .ite (.error _) (hh.bind fun a a' ha => .same _ fun _ => .same _ fun _ => .ok ?_)
    simp only [SameDefn, Defn.bare, Defn.enumeration.injEq]
    exact ⟨ha, trivial⟩
  · have hv := RewordedAll_iff hv
    simp only [h1, h2, list_truthy hv, Yaml.iter, ok_bind, addValues_reworded hv]
    refine .ite (.error _) (hh.bind fun a a' ha => .same _ fun _ => .ok ?_)
    simp only [SameDefn, Defn.bare, Defn.enumeration.injEq]
    exact ⟨ha, trivial⟩

theorem readConstant_reworded {u : Bool} {es fs : List (Key × Yaml)} (h : Entries u es fs) (m : Bool)
    (name : String) : Alike2 SameDefn (readConstant m (.map es) name) (readConstant m (.map fs) name) := by
  unfold readConstant
  refine .ite (.error _) ?_
  simp only [get_map, ok_bind, h.plain "value" (by decide)]
  refine .ite (.error _) ?_
  refine (readHdr_reworded h (by decide) (fun _ => by decide) name).bind fun a a' ha => .ok ?_
  simp only [SameDefn, Defn.bare, Defn.constant.injEq]
  exact ⟨ha, trivial⟩

theorem readFormat_reworded {u : Bool} {es fs : List (Key × Yaml)} (h : Entries u es fs) (m : Bool)
    (name : String) : Alike2 SameDefn (readFormat m (.map es) name) (readFormat m (.map fs) name) := by
  unfold readFormat
  refine .ite (.error _) ?_
  refine (readHdr_reworded h (by decide) (fun _ => by decide) name).bind fun a a' ha => ?_
  simp only [getD_map, ok_bind, h.plainD "layout" (by decide), readAttrs_reworded h]
  refine .same _ fun _ => .same _ fun _ => .same _ fun _ => .ok ?_
  simp only [SameDefn, Defn.bare, Defn.format.injEq]
  exact ⟨ha, trivial, trivial⟩

theorem readPadding_reworded {u : Bool} {es fs : List (Key × Yaml)} (h : Entries u es fs) (E : Env)
    {m : Bool} (hm : u = true → m = false) (name : String) :
    Alike2 SameDefn (readPadding E m (.map es) name) (readPadding E m (.map fs) name) := by
  unfold readPadding
  cases m with
  | false => exact .error _
  | true =>
    have hu : u = true → "urls" ∈ valuesPadding := fun h => absurd (hm h) (by decide)
    simp only [Bool.not_true, Bool.false_eq_true, if_false]
    refine (readHdr_reworded h (by decide) hu name).bind fun a a' ha => ?_
    simp only [get_map, ok_bind, h.plain "alignment_size" (by decide)]
    refine .ite (.error _) ?_
    cases E.toInt (entry es "alignment_size") with
    | error e => cases e <;> exact .error _
    | ok i =>
      refine .ite (.error _) ?_
      cases entry es "alignment_size" <;> first
        | exact .error _
        | exact .ok (by simp only [SameDefn, Defn.bare, Defn.padding.injEq]; exact ⟨ha, trivial⟩)

theorem readBoolean_reworded {u : Bool} {es fs : List (Key × Yaml)} (h : Entries u es fs) (E : Env)
    {m : Bool} (hm : u = true → m = false) (name : String) :
    Alike2 SameDefn (readBoolean E m (.map es) name) (readBoolean E m (.map fs) name) := by
  unfold readBoolean
  refine (readFixed_reworded h E _ _ _ _ hm name).bind fun a a' ha => ?_
  obtain ⟨a1, a2, a3⟩ := a
  obtain ⟨b1, b2, b3⟩ := a'
  obtain ⟨h1, h2⟩ := ha
  simp only [Prod.mk.injEq] at h1 h2
  exact .ok (by simp only [SameDefn, Defn.bare, Defn.prim.injEq]; exact ⟨h1, trivial, h2⟩)

theorem readCharacter_reworded {u : Bool} {es fs : List (Key × Yaml)} (h : Entries u es fs) (E : Env)
    {m : Bool} (hm : u = true → m = false) (name : String) :
    Alike2 SameDefn (readCharacter E m (.map es) name) (readCharacter E m (.map fs) name) := by
  unfold readCharacter
  refine (readFixed_reworded h E _ _ _ _ hm name).bind fun a a' ha => ?_
  obtain ⟨a1, a2, a3⟩ := a
  obtain ⟨b1, b2, b3⟩ := a'
  obtain ⟨h1, h2⟩ := ha
  simp only [Prod.mk.injEq] at h1 h2
  exact .ok (by simp only [SameDefn, Defn.bare, Defn.prim.injEq]; exact ⟨h1, trivial, h2⟩)

theorem readFloat_reworded {u : Bool} {es fs : List (Key × Yaml)} (h : Entries u es fs) (E : Env)
    {m : Bool} (hm : u = true → m = false) (name : String) :
    Alike2 SameDefn (readFloat E m (.map es) name) (readFloat E m (.map fs) name) := by
  unfold readFloat
  refine (readFixed_reworded h E _ _ _ _ hm name).bind fun a a' ha => ?_
  obtain ⟨a1, a2, a3⟩ := a
  obtain ⟨b1, b2, b3⟩ := a'
  obtain ⟨h1, h2⟩ := ha
  simp only [Prod.mk.injEq] at h1 h2
  exact .ok (by simp only [SameDefn, Defn.bare, Defn.prim.injEq]; exact ⟨h1, trivial, h2⟩)

theorem readUuid_reworded {u : Bool} {es fs : List (Key × Yaml)} (h : Entries u es fs) (E : Env)
    {m : Bool} (hm : u = true → m = false) (name : String) :
    Alike2 SameDefn (readUuid E m (.map es) name) (readUuid E m (.map fs) name) := by
  unfold readUuid
  refine (readFixed_reworded h E _ _ _ _ hm name).bind fun a a' ha => ?_
  obtain ⟨a1, a2, a3⟩ := a
  obtain ⟨b1, b2, b3⟩ := a'
  obtain ⟨h1, h2⟩ := ha
  simp only [Prod.mk.injEq] at h1 h2
  exact .ok (by simp only [SameDefn, Defn.bare, Defn.uuid.injEq]; exact ⟨h1, h2⟩)

theorem readInteger_reworded {u : Bool} {es fs : List (Key × Yaml)} (h : Entries u es fs) (E : Env)
    {m : Bool} (hm : u = true → m = false) (name : String) :
    Alike2 SameDefn (readInteger E m (.map es) name) (readInteger E m (.map fs) name) := by
  have hat := h.attributes
  unfold readInteger
  refine (readFixed_reworded h E _ _ _ _ hm name).bind fun a a' ha => ?_
  obtain ⟨a1, a2, a3⟩ := a
  obtain ⟨b1, b2, b3⟩ := a'
  obtain ⟨h1, h2⟩ := ha
  simp only [Prod.mk.injEq] at h1 h2
  simp only [get_map, ok_bind, hat.truthy, readSignedness, hat.getD]
  refine .ite (.same _ fun _ => .ok ?_) (.ok ?_) <;>
    (simp only [SameDefn, Defn.bare, Defn.prim.injEq]; exact ⟨h1, trivial, h2⟩)

theorem resolve_all {E : Env} {reg reg' : Registry} (hr : SameLookups E reg reg') {u : Bool} {y y' : Yaml}
    (h : Reworded u y y') : Alike2 SameDefn (resolve E reg y) (resolve E reg' y') := by
  cases h with
  | same => exact resolve_reworded hr _
  | mapping h => exact .error _

theorem addFamily_reworded {E : Env} {reg reg' : Registry} (hr : SameLookups E reg reg') {l l' : List Yaml}
    (h : All2 (Reworded false) l l') {acc acc' : List Defn} (ha : acc.map Defn.bare = acc'.map Defn.bare) :
    Alike2 (fun a a' => a.map Defn.bare = a'.map Defn.bare) (addFamily E reg acc l) (addFamily E reg' acc' l') := by
  induction h generalizing acc acc' with
  | nil => exact .ok ha
  | cons h t ih =>
    simp only [addFamily]
    refine (resolve_all hr h).bind fun d d' hd => ?_
    rw [name_same hd, names_bare ha]
    exact .ite (.error _) (ih (by simp only [List.map_append, ha, List.map_cons, hd]))

theorem addGroup_reworded {E : Env} {reg reg' : Registry} (hr : SameLookups E reg reg') (i : String)
    {l l' : List Yaml} (h : All2 (Reworded false) l l') {acc acc' : List Defn}
    (ha : acc.map Defn.bare = acc'.map Defn.bare) :
    Alike2 (fun a a' => a.map Defn.bare = a'.map Defn.bare) (addGroup E reg i acc l)
      (addGroup E reg' i acc' l') := by
  induction h generalizing acc acc' with
  | nil => exact .ok ha
  | cons h t ih =>
    simp only [addGroup]
    refine (resolve_all hr h).bind fun d d' hd => ?_
    have hm : d.members?.map (·.map Defn.bare) = d'.members?.map (·.map Defn.bare) := by
      rw [← bare_members, hd, bare_members]
    rw [name_same hd, names_bare ha]
    generalize d.members? = ms at hm ⊢
    generalize d'.members? = ms' at hm ⊢
    cases ms <;> cases ms' <;> simp only [Option.map_none, Option.map_some, reduceCtorEq, Option.some.injEq] at hm
    · exact .error _
    · simp only [names_bare hm]
      exact .ite (.error _) (.ite (.error _) (ih (by simp only [List.map_append, ha, List.map_cons, hd])))

/-- The items of the key `members`. -/
theorem Entries.items {u : Bool} {es fs : List (Key × Yaml)} (h : Entries u es fs) :
    (entry fs "members").truthy = (entry es "members").truthy ∧
      Alike2 (All2 (Reworded false)) (entry es "members").iter (entry fs "members").iter := by
  rcases h.members with h | ⟨l, l', h1, h2, hl⟩
  · rw [h]
    refine ⟨rfl, ?_⟩
    cases (entry es "members").iter with
    | error e => exact .error e
    | ok l =>
      refine .ok ?_
      induction l with
      | nil => exact .nil
      | cons y l ih => exact .cons (.same y) ih
  · rw [h1, h2]
    exact ⟨list_truthy (RewordedAll_iff hl), .ok (RewordedAll_iff hl)⟩

theorem readFamily_reworded {u : Bool} {es fs : List (Key × Yaml)} (h : Entries u es fs) {E : Env}
    {reg reg' : Registry} (hr : SameLookups E reg reg') (m : Bool) (name : String) :
    Alike2 SameDefn (readFamily E reg m (.map es) name) (readFamily E reg' m (.map fs) name) := by
  have hi := h.items
  unfold readFamily
  refine .ite (.error _) ?_
  simp only [h.keys (sup := valuesFamily) (by decide) (fun _ => by decide), get_map, ok_bind,
    h.plain "base" (by decide), hi.1]
  refine .same _ fun _ => .ite (.error _) ?_
  refine (resolve_reworded hr _).bind fun b b' hb => ?_
  refine (readHdr_reworded h (by decide) (fun _ => by decide) name).bind fun a a' ha => ?_
  refine .ite (.error _) (hi.2.bind fun l l' hl => ?_)
  refine (addFamily_reworded hr hl (acc := []) (acc' := []) rfl).bind fun ms ms' hms => .ok ?_
  simp only [SameDefn, SameHdr, Defn.bare, bareAll_map, Defn.family.injEq] at ha hb ⊢
  exact ⟨ha, hb, hms⟩

theorem readGroup_reworded {u : Bool} {es fs : List (Key × Yaml)} (h : Entries u es fs) {E : Env}
    {reg reg' : Registry} (hr : SameLookups E reg reg') (m : Bool) (name : String) :
    Alike2 SameDefn (readGroup E reg m (.map es) name) (readGroup E reg' m (.map fs) name) := by
  have hi := h.items
  unfold readGroup
  refine .ite (.error _) ?_
  simp only [h.keys (sup := valuesGroup) (by decide) (fun _ => by decide), get_map, ok_bind,
    h.plain "base" (by decide), h.plain "identifier" (by decide), h.plain "default" (by decide), hi.1]
  refine .same _ fun _ => .ite (.error _) ?_
  refine (resolve_reworded hr _).bind fun b b' hb => .ite (.error _) ?_
  have hdf : Alike2 (fun d d' => bareOpt d = bareOpt d') (readDefault E reg (entry es "default"))
      (readDefault E reg' (entry es "default")) := by
    unfold readDefault
    refine .ite (.ok rfl) ?_
    have := resolve_reworded hr (entry es "default")
    generalize resolve E reg (entry es "default") = x at this
    generalize resolve E reg' (entry es "default") = x' at this
    cases this with
    | error e => exact .error e
    | ok h => exact .ok (congrArg some h)
  refine hdf.bind fun df df' hdf => .same _ fun ident => ?_
  refine (readHdr_reworded h (by decide) (fun _ => by decide) name).bind fun a a' ha => ?_
  refine .ite (.error _) (hi.2.bind fun l l' hl => ?_)
  refine (addGroup_reworded hr ident hl (acc := []) (acc' := []) rfl).bind fun ms ms' hms => .ok ?_
  have ho := orderOrNative_same hb
  simp only [SameDefn, SameHdr, Defn.bare, bareAll_map, Defn.group.injEq, Hdr.bare, Hdr.mk.injEq] at ha hb ⊢
  exact ⟨⟨ha.1, ho.symm, ha.2.2⟩, hb, trivial, hdf, hms⟩

theorem addMembers_reworded {rm rm' : Yaml → Except Err Defn} {l l' : List Yaml}
    (h : All2 (Reworded false) l l')
    (hrm : ∀ y y', Reworded false y y' → Alike2 SameDefn (rm y) (rm' y')) {b b' : Builder}
    (hb : b.members.map Defn.bare = b'.members.map Defn.bare) :
    Alike2 (fun b b' => b.members.map Defn.bare = b'.members.map Defn.bare) (addMembers rm b l)
      (addMembers rm' b' l') := by
  induction h generalizing b b' with
  | nil => exact .ok hb
  | cons h t ih =>
    rename_i y y' l l'
    simp only [addMembers]
    have hs : y'.get "section" = y.get "section" := by
      cases h with
      | same => rfl
      | mapping h => rw [get_map, get_map, Entries.plain h "section" (by decide)]
    rw [hs]
    refine .same _ fun sect => .ite (.same _ fun n => ih hb) ((hrm _ _ h).bind fun d d' hd => ?_)
    simp only [Builder.addMember, name_same hd, names_bare hb]
    cases b'.members.any (·.name == d.name) with
    | true => exact .error _
    | false => exact ih (by simp only [List.map_append, hb, List.map_cons, List.map_nil, hd])

theorem readWithMembers_reworded {u : Bool} {es fs : List (Key × Yaml)} (h : Entries u es fs)
    {rm rm' : Yaml → Except Err Defn}
    (hrm : ∀ y y', Reworded false y y' → Alike2 SameDefn (rm y) (rm' y')) (isUnion : Bool) (name : String) :
    Alike2 SameDefn (readWithMembers rm isUnion (.map es) name) (readWithMembers rm' isUnion (.map fs) name) := by
  have hi := h.items
  simp only [readWithMembers, get_map, ok_bind, hi.1, readAttrs_reworded h]
  refine .ite (.error _) ?_
  refine (readHdr_reworded h (by decide) (fun _ => by decide) name).bind fun a a' ha => .same _ fun o => ?_
  refine hi.2.bind fun l l' hl => (addMembers_reworded hl hrm rfl).bind fun b b' hb => .ok ?_
  simp only [SameHdr, Hdr.bare, Hdr.mk.injEq] at ha
  cases isUnion <;>
    simp only [Bool.false_eq_true, if_false, if_true, SameDefn, Defn.bare, bareAll_map, Hdr.bare, hb, ha]

theorem readTyped_reworded {u : Bool} {es fs : List (Key × Yaml)} (h : Entries u es fs) {E : Env}
    {reg reg' : Registry} (hr : SameLookups E reg reg') {rm rm' : Bool → Yaml → Except Err Defn}
    (hrm : ∀ c y y', Reworded false y y' → Alike2 SameDefn (rm c y) (rm' c y')) (t : TypeInd) {m : Bool}
    (hm : u = true → m = false) (name : String) :
    Alike2 SameDefn (readTyped E reg rm t m (.map es) name) (readTyped E reg' rm' t m (.map fs) name) := by
  cases t with
  | boolean => exact readBoolean_reworded h E hm name
  | character => exact readCharacter_reworded h E hm name
  | constant => exact readConstant_reworded h m name
  | enumeration => exact readEnumeration_reworded h m name
  | floatingPoint => exact readFloat_reworded h E hm name
  | format => exact readFormat_reworded h m name
  | integer => exact readInteger_reworded h E hm name
  | padding => exact readPadding_reworded h E hm name
  | sequence =>
    refine readElements_reworded h hr _ ?_ ?_ name
    · cases m <;> decide
    · intro hu; rw [hm hu]; decide
  | stream =>
    refine readElements_reworded h hr _ ?_ ?_ name
    · cases m <;> decide
    · intro hu; rw [hm hu]; decide
  | string => exact readString_reworded h hr hm name
  | «structure» => exact .ite (.error _) (readWithMembers_reworded h (hrm true) false name)
  | family => exact readFamily_reworded h hr m name
  | group => exact readGroup_reworded h hr m name
  | union => exact readWithMembers_reworded h (hrm false) true name
  | uuid => exact readUuid_reworded h E hm name

theorem supportedValue_reworded {u : Bool} {y y' : Yaml} (h : Reworded u y y') :
    supportedValue y' = supportedValue y := by
  cases h <;> rfl

theorem supportedValues_reworded {u : Bool} {es fs : List (Key × Yaml)} (h : Entries u es fs) (value : Yaml) :
    supportedValues value (entry fs "values") = supportedValues value (entry es "values") ∧
      (entry fs "values").isNone = (entry es "values").isNone := by
  rcases h.values with h | ⟨l, l', h1, h2, hl⟩
  · rw [h]; exact ⟨rfl, rfl⟩
  · rw [h1, h2]
    refine ⟨?_, rfl⟩
    rename RewordedAll l l' => hl'
    have hl := RewordedAll_iff hl'
    have hm : l'.mapM supportedValue = l.mapM supportedValue := by
      clear h1 h2 hl'
      induction hl with
      | nil => rfl
      | cons h t ih => rw [List.mapM_cons, List.mapM_cons, supportedValue_reworded h, ih]
    simp only [supportedValues, valueList, Yaml.isNone, Bool.and_false, Bool.false_eq_true, if_false,
      list_truthy hl, Yaml.iter, ok_bind, hm]

theorem readMember_nameless {E : Env} {reg : Registry} (f : Nat) (c : Bool) {es : List (Key × Yaml)}
    (h1 : entry es "name" = .null) (h2 : entry es "type" = .null) :
    readMember E reg (f + 1) c (.map es) = .error .reader := by
  simp only [readMember, get_map, ok_bind, h1, h2]
  split <;> rfl

theorem readDefinition_nameless {E : Env} {reg : Registry} {es : List (Key × Yaml)}
    (h1 : entry es "name" = .null) : readDefinition E reg (.map es) = .error .reader := by
  simp only [readDefinition, get_map, ok_bind, h1]
  split <;> rfl

theorem Entries.refl (u : Bool) (es : List (Key × Yaml)) : Entries u es es := fun _ => .same _

theorem Entries.truthy {u : Bool} {es fs : List (Key × Yaml)} (h : Entries u es fs) :
    (Yaml.map fs).truthy = (Yaml.map es).truthy ∨
      ∀ k, k ∉ ["description", "urls", "members", "values", "attributes"] →
        entry es k = .null ∧ entry fs k = .null := by
  have h0 : ∀ k, entry [] k = .null := fun _ => rfl
  cases es with
  | nil => exact .inr fun k hk => ⟨h0 k, by rw [h.plain k hk, h0]⟩
  | cons e es =>
    cases fs with
    | nil => exact .inr fun k hk => ⟨by rw [← h.plain k hk, h0], h0 k⟩
    | cons f fs => exact .inl rfl

theorem readMember_mapping {E : Env} {reg reg' : Registry} (hr : SameLookups E reg reg') (f : Nat)
    (ih : ∀ c y y', Reworded false y y' → Alike2 SameDefn (readMember E reg f c y) (readMember E reg' f c y'))
    (c : Bool) {es fs : List (Key × Yaml)} (h : Entries false es fs) :
    Alike2 SameDefn (readMember E reg (f + 1) c (.map es)) (readMember E reg' (f + 1) c (.map fs)) := by
  rcases h.truthy with ht | hn
  · have hv := supportedValues_reworded h (entry es "value")
    simp only [readMember, ht, get_map, ok_bind, h.plain "name" (by decide), h.plain "type" (by decide),
      h.plain "data_type" (by decide), h.plain "condition" (by decide), h.plain "value" (by decide), hv.1, hv.2,
      h.keys (sup := valuesMember) (by decide) (by decide), h.plain "aliases" (by decide)]
    refine .ite (.error _) (.ite (.error _) (.same _ fun nm => .ite (.error _) (.ite (.error _)
      (.ite (.error _) (.ite (.error _) (.same _ fun sv => .ite (.same _ fun t => ?_) ?_))))))
    · refine (readTyped_reworded h hr ih t (by decide) nm).bind fun d d' hd => .same _ fun cond => ?_
      refine .ite (.ok ?_) (.ok hd)
      have ho := orderOrNative_same hd
      simp only [SameDefn, Defn.bare, Defn.member.injEq] at hd ⊢
      simp only [ho, hd, and_self]
    · refine (resolve_reworded hr _).bind fun d d' hd => .same _ fun _ => .same _ fun as => ?_
      have ho := orderOrNative_same hd
      rcases h.description with hdesc | ⟨o, o', h1, h2⟩
      · rw [hdesc]
        refine .same _ fun desc => .same _ fun dt => .same _ fun cond => .ok ?_
        simp only [SameDefn, Defn.bare, Defn.member.injEq] at hd ⊢
        simp only [ho, hd, and_self]
      · rw [h1, h2, ok_bind, ok_bind]
        refine .same _ fun dt => .same _ fun cond => .ok ?_
        simp only [SameDefn, Defn.bare, Defn.member.injEq] at hd ⊢
        simp only [ho, hd, Hdr.bare, and_self]
  · rw [readMember_nameless f c (hn "name" (by decide)).1 (hn "type" (by decide)).1,
      readMember_nameless f c (hn "name" (by decide)).2 (hn "type" (by decide)).2]
    exact .error _

theorem readMember_reworded {E : Env} {reg reg' : Registry} (hr : SameLookups E reg reg') (f : Nat) (c : Bool)
    (y y' : Yaml) (h : Reworded false y y') :
    Alike2 SameDefn (readMember E reg f c y) (readMember E reg' f c y') := by
  induction f generalizing c y y' with
  | zero => exact .error _
  | succ f ih =>
    cases h with
    | mapping h => exact readMember_mapping hr f ih c h
    | same =>
      cases y with
      | map es => exact readMember_mapping hr f ih c (Entries.refl false es)
      | _ => exact .ite (.error _) (.error _)

theorem readDefinition_mapping {E : Env} {reg reg' : Registry} (hr : SameLookups E reg reg')
    {es fs : List (Key × Yaml)} (h : Entries true es fs) :
    Alike2 SameDefn (readDefinition E reg (.map es)) (readDefinition E reg' (.map fs)) := by
  rcases h.truthy with ht | hn
  · simp only [readDefinition, ht, get_map, ok_bind, h.plain "name" (by decide), h.plain "type" (by decide)]
    refine .ite (.error _) (.ite (.error _) (.same _ fun nm => .ite (.error _) (.same _ fun t => ?_)))
    rw [readDefinition_fuel E reg _ _ (Nat.le_max_left _ (Yaml.map fs).depth),
      readDefinition_fuel E reg' _ _ (Nat.le_max_right (Yaml.map es).depth _)]
    exact readTyped_reworded h hr (readMember_reworded hr _) t (fun _ => rfl) nm
  · rw [readDefinition_nameless (hn "name" (by decide)).1, readDefinition_nameless (hn "name" (by decide)).2]
    exact .error _

theorem readDefinition_reworded {E : Env} {reg reg' : Registry} (hr : SameLookups E reg reg')
    {y y' : Yaml} (h : Reworded true y y') :
    Alike2 SameDefn (readDefinition E reg y) (readDefinition E reg' y') := by
  cases h with
  | mapping h => exact readDefinition_mapping hr h
  | same =>
    cases y with
    | map es => exact readDefinition_mapping hr (Entries.refl true es)
    | _ => exact .ite (.error _) (.error _)

/-! ### Registries -/

/-- Registries that are the same but for descriptions. -/
structure SameRegistry (reg reg' : Registry) : Prop where
  aliases : reg.aliases = reg'.aliases
  formats : reg.formats = reg'.formats
  definitions : reg.definitions.map (fun p => (p.1, p.2.bare)) = reg'.definitions.map (fun p => (p.1, p.2.bare))

theorem dictHas_bare (l : List (String × Defn)) (k : String) :
    dictHas l k = dictHas (l.map fun p => (p.1, p.2.bare)) k := by
  simp only [dictHas, List.any_map, Function.comp_def]

theorem dictGet_bare (l : List (String × Defn)) (k : String) :
    (dictGet l k).map Defn.bare = dictGet (l.map fun p => (p.1, p.2.bare)) k := by
  induction l with
  | nil => rfl
  | cons p l ih =>
    simp only [dictGet, List.map_cons, List.find?_cons] at ih ⊢
    cases p.1 == k <;> simp_all

theorem dictPut_bare (l : List (String × Defn)) (k : String) (d : Defn) :
    (dictPut l k d).map (fun p => (p.1, p.2.bare)) = dictPut (l.map fun p => (p.1, p.2.bare)) k d.bare := by
  unfold dictPut
  rw [← dictHas_bare]
  split
  · rw [List.map_map, List.map_map]
    refine List.map_congr_left fun p _ => ?_
    simp only [Function.comp]
    split <;> simp_all
  · simp only [List.map_append, List.map_cons, List.map_nil]

theorem SameRegistry.has {reg reg' : Registry} (h : SameRegistry reg reg') (k : String) :
    dictHas reg.definitions k = dictHas reg'.definitions k := by
  rw [dictHas_bare, h.definitions, ← dictHas_bare]

theorem SameRegistry.lookups {reg reg' : Registry} (h : SameRegistry reg reg') (E : Env) :
    SameLookups E reg reg' := by
  intro s
  simp only [Registry.getByName, h.has, h.aliases]
  rw [dictGet_bare, dictGet_bare, h.definitions]

theorem SameRegistry.register {reg reg' : Registry} (h : SameRegistry reg reg') (E : Env) {d d' : Defn}
    (hd : SameDefn d d') : (reg.register E d).1 = (reg'.register E d').1 ∧
      SameRegistry (reg.register E d).2 (reg'.register E d').2 := by
  have h1 := name_same hd
  have h2 : d'.hdr.aliases = d.hdr.aliases := by rw [← bare_aliases d, hd, bare_aliases]
  have h3 : d'.isFormat = d.isFormat := by rw [← bare_format d, hd, bare_format]
  simp only [Registry.register, h1, h2, h3, h.has, h.aliases]
  split
  · exact ⟨rfl, h⟩
  · split
    · exact ⟨rfl, h⟩
    · split
      · exact ⟨rfl, h⟩
      · refine ⟨rfl, rfl, ?_, ?_⟩
        · simp only [h.formats]
        · simp only [dictPut_bare, h.definitions, hd]

theorem readDocs_reworded {E : Env} {reg reg' : Registry} (hr : SameRegistry reg reg') {l l' : List Yaml}
    (h : RewordedDocs l l') :
    (readDocs E reg l).1 = (readDocs E reg' l').1 ∧ SameRegistry (readDocs E reg l).2 (readDocs E reg' l').2 := by
  induction h generalizing reg reg' with
  | nil => exact ⟨rfl, hr⟩
  | cons h t ih =>
    have := readDefinition_reworded (hr.lookups E) h
    simp only [readDocs]
    generalize readDefinition E reg _ = x at this
    generalize readDefinition E reg' _ = x' at this
    cases this with
    | error e => exact ⟨rfl, hr⟩
    | ok hd =>
      rename_i d d'
      have := hr.register E hd
      simp only
      generalize reg.register E d = p at this
      generalize reg'.register E d' = p' at this
      obtain ⟨a, r⟩ := p
      obtain ⟨a', r'⟩ := p'
      obtain ⟨h1, h2⟩ := this
      simp only at h1 h2
      subst h1
      cases a with
      | error e => exact ⟨rfl, h2⟩
      | ok a => exact ih h2

theorem readFileObject_reworded {E : Env} {reg reg' : Registry} (hr : SameRegistry reg reg') {f f' : YamlFile}
    (h : RewordedDocs f.docs f'.docs) (he : f.ending = f'.ending) :
    (readFileObject E reg f).1 = (readFileObject E reg' f').1 ∧
      SameRegistry (readFileObject E reg f).2 (readFileObject E reg' f').2 := by
  have := readDocs_reworded (E := E) hr h
  simp only [readFileObject, ← he]
  generalize readDocs E reg f.docs = p at this
  generalize readDocs E reg' f'.docs = p' at this
  obtain ⟨a, r⟩ := p
  obtain ⟨a', r'⟩ := p'
  obtain ⟨h1, h2⟩ := this
  simp only at h1 h2
  subst h1
  cases a with
  | error e => exact ⟨rfl, h2⟩
  | ok a => cases f.ending <;> exact ⟨rfl, h2⟩

end Dtf
