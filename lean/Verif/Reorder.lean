import Verif.Fabric
/-!
Definition files that differ in the order of keys.
-/
namespace Dtf

namespace Spec

mutual
/-- Definitions, members and the like that differ only in the order in which their keys are written. As in every
YAML mapping, no key is written twice. -/
inductive Reordered : Yaml → Yaml → Prop
  | same (y) : Reordered y y
  | mapping {es gs fs : List (Key × Yaml)} (hn : (es.map (·.1)).Nodup) (h : ReorderedEntries es gs) (hp : gs.Perm fs) :
      Reordered (.map es) (.map fs)
inductive ReorderedEntries : List (Key × Yaml) → List (Key × Yaml) → Prop
  | nil : ReorderedEntries [] []
  | cons {k y y' es fs} (h : ReorderedAt k y y') (t : ReorderedEntries es fs) :
      ReorderedEntries ((k, y) :: es) ((k, y') :: fs)
/-- The same within the value of a key: in the attributes of a definition, in the members of a structure or union,
the values of an enumeration and the elements of a layout. -/
inductive ReorderedAt : Key → Yaml → Yaml → Prop
  | same {k} (y) : ReorderedAt k y y
  | attributes {y y'} (h : Reordered y y') : ReorderedAt (.str "attributes") y y'
  | items {k l l'} (hk : k ∈ ["members", "values", "layout"]) (h : ReorderedItems l l') :
      ReorderedAt (.str k) (.list l) (.list l')
inductive ReorderedItems : List Yaml → List Yaml → Prop
  | nil : ReorderedItems [] []
  | cons {y y' l l'} (h : Reordered y y') (t : ReorderedItems l l') : ReorderedItems (y :: l) (y' :: l')
end

end Spec
open Spec

theorem reorderedEntries_keys : ∀ {es fs : List (Key × Yaml)}, ReorderedEntries es fs → fs.map (·.1) = es.map (·.1)
  | _, _, .nil => rfl
  | _, _, .cons _ t => by rw [List.map_cons, List.map_cons, reorderedEntries_keys t]

theorem reorderedEntries_find : ∀ {es fs : List (Key × Yaml)}, ReorderedEntries es fs → ∀ (k : String) (dflt : Yaml),
    ReorderedAt (.str k) (((es.find? (·.1 == .str k)).map (·.2)).getD dflt)
      (((fs.find? (·.1 == .str k)).map (·.2)).getD dflt)
  | _, _, .nil, _, _ => .same _
  | _, _, .cons (k := k') h t, k, dflt => by
    simp only [List.find?_cons]
    by_cases hk : k' = .str k
    · subst hk
      simpa using h
    · have : (k' == Key.str k) = false := by simpa using hk
      rw [this]
      exact reorderedEntries_find t k dflt

/-- In a mapping without equal keys the order does not matter for what is found. -/
theorem find_perm {gs fs : List (Key × Yaml)} (hp : gs.Perm fs) (hn : (gs.map (·.1)).Nodup) (k : Key) :
    gs.find? (·.1 == k) = fs.find? (·.1 == k) := by
  induction hp with
  | nil => rfl
  | cons x _ ih =>
    simp only [List.map_cons, List.nodup_cons] at hn
    simp only [List.find?_cons, ih hn.2]
  | swap x y l =>
    simp only [List.map_cons, List.nodup_cons, List.mem_cons, not_or] at hn
    simp only [List.find?_cons]
    by_cases h1 : y.1 = k
    · have h2 : ¬ x.1 = k := fun h => hn.1.1 (h1.trans h.symm)
      rw [show (y.1 == k) = true by simpa using h1, show (x.1 == k) = false by simpa using h2]
    · rw [show (y.1 == k) = false by simpa using h1]
  | trans h1 _ ih1 ih2 =>
    exact (ih1 hn).trans (ih2 ((h1.map _).nodup_iff.1 hn))

/-- What the reader sees of a mapping. -/
structure Alike (d d' : Yaml) : Prop where
  truthy : d'.truthy = d.truthy
  isNone : d'.isNone = d.isNone
  hashable : d'.hashable = d.hashable
  lit : d'.lit = d.lit
  keys : ∀ s, checkKeys s d' = checkKeys s d
  value : ∀ k dflt, d'.getD k dflt = d.getD k dflt ∨ ∃ y y', d.getD k dflt = .ok y ∧ d'.getD k dflt = .ok y' ∧
    ReorderedAt (.str k) y y'

theorem checkKeys_perm (s : List String) {es fs : List (Key × Yaml)} (hp : (es.map (·.1)).Perm (fs.map (·.1))) :
    checkKeys s (.map fs) = checkKeys s (.map es) := by
  simp only [checkKeys, Yaml.keys]
  have hf := hp.filter fun k => !(s.any (k == .str ·))
  have h1 : ((fs.map (·.1)).filter fun k => !(s.any (k == .str ·))).isEmpty =
      ((es.map (·.1)).filter fun k => !(s.any (k == .str ·))).isEmpty := by
    rw [Bool.eq_iff_iff, List.isEmpty_iff_length_eq_zero, List.isEmpty_iff_length_eq_zero, hf.length_eq]
  have h2 : ∀ p : Key → Bool, ((fs.map (·.1)).filter fun k => !(s.any (k == .str ·))).any p =
      ((es.map (·.1)).filter fun k => !(s.any (k == .str ·))).any p := by
    intro p
    rw [Bool.eq_iff_iff, List.any_eq_true, List.any_eq_true]
    exact ⟨fun ⟨x, hx, h⟩ => ⟨x, hf.mem_iff.2 hx, h⟩, fun ⟨x, hx, h⟩ => ⟨x, hf.mem_iff.1 hx, h⟩⟩
  rw [h1, h2]

theorem reordered_alike {d d' : Yaml} (h : Reordered d d') : Alike d d' := by
  cases h with
  | same => exact ⟨rfl, rfl, rfl, rfl, fun _ => rfl, fun _ _ => .inl rfl⟩
  | @mapping es gs fs hn he hp =>
    have hk := reorderedEntries_keys he
    have hkp : (es.map (·.1)).Perm (fs.map (·.1)) := hk ▸ hp.map _
    refine ⟨?_, rfl, rfl, rfl, fun s => checkKeys_perm s hkp, fun k dflt => .inr ⟨_, _, rfl, rfl, ?_⟩⟩
    · simp only [Yaml.truthy]
      have := hkp.length_eq
      simp only [List.length_map] at this
      cases es <;> cases fs <;> simp_all
    · rw [← find_perm hp (hk ▸ hn)]
      exact reorderedEntries_find he k dflt

theorem Alike.plain {d d' : Yaml} (h : Alike d d') {k : String} (hk : k ∉ ["attributes", "members", "values", "layout"])
    (dflt : Yaml) : d'.getD k dflt = d.getD k dflt := by
  rcases h.value k dflt with h | ⟨y, y', h1, h2, h3⟩
  · exact h
  · rw [h1, h2]
    cases h3 with
    | same => rfl
    | attributes => simp at hk
    | items hk' => exact absurd (List.mem_cons_of_mem _ hk') hk

theorem Alike.get {d d' : Yaml} (h : Alike d d') {k : String} (hk : k ∉ ["attributes", "members", "values", "layout"]) :
    d'.get k = d.get k := h.plain hk .null

/-- The attributes. -/
theorem Alike.attributes {d d' : Yaml} (h : Alike d d') : (∃ e, d.get "attributes" = .error e ∧ d'.get "attributes" = .error e) ∨
    ∃ a a', d.get "attributes" = .ok a ∧ d'.get "attributes" = .ok a' ∧ Alike a a' := by
  rcases h.value "attributes" .null with h | ⟨y, y', h1, h2, h3⟩
  · cases hd : d.get "attributes" with
    | error e => exact .inl ⟨e, rfl, h.trans hd⟩
    | ok a => exact .inr ⟨a, a, rfl, h.trans hd, reordered_alike (.same _)⟩
  · refine .inr ⟨y, y', h1, h2, ?_⟩
    cases h3 with
    | same => exact reordered_alike (.same _)
    | attributes h => exact reordered_alike h
    | items hk' => simp at hk'

/-- Values that are the same or lists of the same items in another order of keys. -/
inductive Listed : Yaml → Yaml → Prop
  | same (y) : Listed y y
  | items {l l'} (h : ReorderedItems l l') : Listed (.list l) (.list l')

theorem Alike.listed {d d' : Yaml} (h : Alike d d') {k : String} (hk : k ≠ "attributes") (dflt : Yaml) :
    (∃ e, d.getD k dflt = .error e ∧ d'.getD k dflt = .error e) ∨
    ∃ a a', d.getD k dflt = .ok a ∧ d'.getD k dflt = .ok a' ∧ Listed a a' := by
  rcases h.value k dflt with h | ⟨y, y', h1, h2, h3⟩
  · cases hd : d.getD k dflt with
    | error e => exact .inl ⟨e, rfl, h.trans hd⟩
    | ok a => exact .inr ⟨a, a, rfl, h.trans hd, .same _⟩
  · refine .inr ⟨y, y', h1, h2, ?_⟩
    cases h3 with
    | same => exact .same _
    | attributes => exact absurd rfl hk
    | items _ h => exact .items h

theorem Listed.truthy {y y' : Yaml} (h : Listed y y') : y'.truthy = y.truthy := by
  cases h with
  | same => rfl
  | items h => cases h <;> rfl

theorem Listed.isNone {y y' : Yaml} (h : Listed y y') : y'.isNone = y.isNone := by
  cases h <;> rfl

/-- The items read. -/
theorem Listed.iter {y y' : Yaml} (h : Listed y y') : (∃ e, y.iter = .error e ∧ y'.iter = .error e) ∨
    ∃ l l', y.iter = .ok l ∧ y'.iter = .ok l' ∧ ReorderedItems l l' := by
  have refl : ∀ l, ReorderedItems l l := fun l => by
    induction l with
    | nil => exact .nil
    | cons y l ih => exact .cons (.same y) ih
  cases h with
  | same =>
    cases hy : y.iter with
    | error e => exact .inl ⟨e, rfl, rfl⟩
    | ok l => exact .inr ⟨l, l, rfl, rfl, refl l⟩
  | items h => exact .inr ⟨_, _, rfl, rfl, h⟩

/-! ### The reader -/

section
variable {E : Env} {reg : Registry} {d d' : Yaml} (h : Alike d d')
include h

theorem readHdr_reorder (s : List String) (n : String) : readHdr s d' n = readHdr s d n := by
  unfold readHdr
  rw [h.keys, h.get (k := "aliases") (by decide), h.get (k := "description") (by decide)]

theorem readOrder_reorder : readOrder d' = readOrder d := by
  unfold readOrder
  rw [h.plain (k := "byte_order") (by decide)]

theorem readAttrs_reorder (s : List String) : readAttrs s d' = readAttrs s d := by
  unfold readAttrs
  rcases h.attributes with ⟨e, h1, h2⟩ | ⟨a, a', h1, h2, ha⟩
  · rw [h1, h2]
  · rw [h1, h2]
    simp only [bind, Except.bind, ha.truthy, ha.keys, readOrder_reorder ha]

theorem readStorage_reorder (s : List String) (m : Bool) (n : String) : readStorage s m d' n = readStorage s m d n := by
  unfold readStorage
  rw [readHdr_reorder h, readAttrs_reorder h]

theorem readFixed_reorder (s : List String) (dflt : Yaml) (i : Size) (z : List Nat) (m : Bool) (n : String) :
    readFixed E s dflt i z m d' n = readFixed E s dflt i z m d n := by
  unfold readFixed
  rw [readStorage_reorder h]
  rcases h.attributes with ⟨e, h1, h2⟩ | ⟨a, a', h1, h2, ha⟩
  · rw [h1, h2]
  · rw [h1, h2]
    simp only [bind, Except.bind, ha.truthy, ha.plain (k := "size") (by decide), ha.plain (k := "units") (by decide)]

theorem readInteger_reorder (m : Bool) (n : String) : readInteger E m d' n = readInteger E m d n := by
  unfold readInteger
  rw [readFixed_reorder h]
  rcases h.attributes with ⟨e, h1, h2⟩ | ⟨a, a', h1, h2, ha⟩
  · rw [h1, h2]
  · rw [h1, h2]
    simp only [bind, Except.bind, ha.truthy, readSignedness, ha.plain (k := "format") (by decide)]

theorem readConstant_reorder (m : Bool) (n : String) : readConstant m d' n = readConstant m d n := by
  unfold readConstant
  rw [h.get (k := "value") (by decide)]
  simp only [readHdr_reorder h]

omit h in
theorem addValues_reorder : ∀ {l l' : List Yaml}, ReorderedItems l l' → ∀ b, addValues b l' = addValues b l
  | _, _, .nil, _ => rfl
  | _, _, .cons (y := y) (y' := y') hy t, b => by
    have hy := reordered_alike hy
    simp only [addValues, hy.get (k := "aliases") (by decide), hy.get (k := "name") (by decide),
      hy.get (k := "number") (by decide), addValues_reorder t]

theorem readEnumeration_reorder (m : Bool) (n : String) : readEnumeration m d' n = readEnumeration m d n := by
  unfold readEnumeration
  rcases h.listed (k := "values") (by decide) .null with ⟨e, h1, h2⟩ | ⟨a, a', h1, h2, ha⟩
  · simp only [Yaml.get, h1, h2, bind, Except.bind]
  · simp only [Yaml.get, h1, h2, bind, Except.bind, ha.truthy, readHdr_reorder h]
    rcases ha.iter with ⟨e, h3, h4⟩ | ⟨l, l', h3, h4, hl⟩
    · simp only [h3, h4]
    · simp only [h3, h4, addValues_reorder hl]

theorem readElements_reorder (k : SeqKind) (s : List String) (n : String) :
    readElements E reg k s d' n = readElements E reg k s d n := by
  unfold readElements
  rw [h.keys, h.get (k := "element_data_type") (by decide), h.get (k := "elements_data_size") (by decide),
    h.get (k := "elements_terminator") (by decide), h.get (k := "number_of_elements") (by decide)]
  simp only [readHdr_reorder h]

theorem readString_reorder (m : Bool) (n : String) : readString E reg m d' n = readString E reg m d n := by
  unfold readString
  rw [readElements_reorder h, h.get (k := "encoding") (by decide)]

theorem readPadding_reorder (m : Bool) (n : String) : readPadding E m d' n = readPadding E m d n := by
  unfold readPadding
  rw [readHdr_reorder h, h.get (k := "alignment_size") (by decide)]

omit h in
theorem readLayout_reorder : ∀ {l l' : List Yaml}, ReorderedItems l l' → readLayout l' = readLayout l
  | _, _, .nil => rfl
  | _, _, .cons (y := y) (y' := y') hy t => by
    have hy := reordered_alike hy
    simp only [readLayout, hy.get (k := "data_type") (by decide), hy.get (k := "offset") (by decide), hy.keys,
      readLayout_reorder t]

theorem readFormat_reorder (m : Bool) (n : String) : readFormat m d' n = readFormat m d n := by
  unfold readFormat
  rw [readHdr_reorder h, readAttrs_reorder h]
  rcases h.listed (k := "layout") (by decide) (.list []) with ⟨e, h1, h2⟩ | ⟨a, a', h1, h2, ha⟩
  · rw [h1, h2]
  · rw [h1, h2]
    simp only [bind, Except.bind]
    rcases ha.iter with ⟨e, h3, h4⟩ | ⟨l, l', h3, h4, hl⟩
    · simp only [h3, h4]
    · simp only [h3, h4, readLayout_reorder hl]

omit h in
theorem resolve_reorder {y y' : Yaml} (h : Reordered y y') : resolve E reg y' = resolve E reg y := by
  cases h <;> rfl

omit h in
theorem addFamily_reorder : ∀ {l l' : List Yaml}, ReorderedItems l l' → ∀ acc, addFamily E reg acc l' = addFamily E reg acc l
  | _, _, .nil, _ => rfl
  | _, _, .cons hy t, acc => by
    simp only [addFamily, resolve_reorder hy, addFamily_reorder t]

omit h in
theorem addGroup_reorder (i : String) : ∀ {l l' : List Yaml}, ReorderedItems l l' → ∀ acc,
    addGroup E reg i acc l' = addGroup E reg i acc l
  | _, _, .nil, _ => rfl
  | _, _, .cons hy t, acc => by
    simp only [addGroup, resolve_reorder hy, addGroup_reorder i t]

theorem readFamily_reorder (m : Bool) (n : String) : readFamily E reg m d' n = readFamily E reg m d n := by
  unfold readFamily
  rw [h.keys, h.get (k := "base") (by decide)]
  simp only [readHdr_reorder h]
  rcases h.listed (k := "members") (by decide) .null with ⟨e, h1, h2⟩ | ⟨a, a', h1, h2, ha⟩
  · simp only [Yaml.get, h1, h2]
  · simp only [Yaml.get, h1, h2, bind, Except.bind, ha.truthy]
    rcases ha.iter with ⟨e, h3, h4⟩ | ⟨l, l', h3, h4, hl⟩
    · simp only [h3, h4]
    · simp only [h3, h4, addFamily_reorder hl]

theorem readGroup_reorder (m : Bool) (n : String) : readGroup E reg m d' n = readGroup E reg m d n := by
  unfold readGroup
  rw [h.keys, h.get (k := "base") (by decide), h.get (k := "identifier") (by decide), h.get (k := "default") (by decide)]
  simp only [readHdr_reorder h]
  rcases h.listed (k := "members") (by decide) .null with ⟨e, h1, h2⟩ | ⟨a, a', h1, h2, ha⟩
  · simp only [Yaml.get, h1, h2]
  · simp only [Yaml.get, h1, h2, bind, Except.bind, ha.truthy]
    rcases ha.iter with ⟨e, h3, h4⟩ | ⟨l, l', h3, h4, hl⟩
    · simp only [h3, h4]
    · simp only [h3, h4, addGroup_reorder _ hl]

omit h in
theorem addMembers_reorder {rm : Yaml → Except Err Defn} (hrm : ∀ y y', Reordered y y' → rm y' = rm y) :
    ∀ {l l' : List Yaml}, ReorderedItems l l' → ∀ b, addMembers rm b l' = addMembers rm b l
  | _, _, .nil, _ => rfl
  | _, _, .cons hy t, b => by
    have ha := reordered_alike hy
    simp only [addMembers, ha.get (k := "section") (by decide), hrm _ _ hy, addMembers_reorder hrm t]

theorem readWithMembers_reorder {rm : Yaml → Except Err Defn} (hrm : ∀ y y', Reordered y y' → rm y' = rm y) (u : Bool)
    (n : String) : readWithMembers rm u d' n = readWithMembers rm u d n := by
  unfold readWithMembers
  rw [readHdr_reorder h, readAttrs_reorder h]
  rcases h.listed (k := "members") (by decide) .null with ⟨e, h1, h2⟩ | ⟨a, a', h1, h2, ha⟩
  · simp only [Yaml.get, h1, h2]
  · simp only [Yaml.get, h1, h2, bind, Except.bind, ha.truthy]
    rcases ha.iter with ⟨e, h3, h4⟩ | ⟨l, l', h3, h4, hl⟩
    · simp only [h3, h4]
    · simp only [h3, h4, addMembers_reorder hrm hl]

theorem readTyped_reorder {rm : Bool → Yaml → Except Err Defn} (hrm : ∀ c y y', Reordered y y' → rm c y' = rm c y)
    (t : TypeInd) (m : Bool) (n : String) : readTyped E reg rm t m d' n = readTyped E reg rm t m d n := by
  cases t with
  | boolean => simp only [readTyped, readBoolean, readFixed_reorder h]
  | character => simp only [readTyped, readCharacter, readFixed_reorder h]
  | constant => exact readConstant_reorder h m n
  | enumeration => exact readEnumeration_reorder h m n
  | floatingPoint => simp only [readTyped, readFloat, readFixed_reorder h]
  | format => exact readFormat_reorder h m n
  | integer => exact readInteger_reorder h m n
  | padding => exact readPadding_reorder h m n
  | sequence => exact readElements_reorder h _ _ _
  | stream => exact readElements_reorder h _ _ _
  | string => exact readString_reorder h m n
  | «structure» => simp only [readTyped, readWithMembers_reorder h (hrm true)]
  | family => exact readFamily_reorder h m n
  | group => exact readGroup_reorder h m n
  | union => exact readWithMembers_reorder h (hrm false) _ _
  | uuid => simp only [readTyped, readUuid, readFixed_reorder h]

omit h in
theorem supportedValue_reorder : ∀ {l l' : List Yaml}, ReorderedItems l l' → l'.mapM supportedValue = l.mapM supportedValue
  | _, _, .nil => rfl
  | _, _, .cons hy t => by
    simp only [List.mapM_cons, supportedValue_reorder t]
    cases hy <;> rfl

omit h in
theorem supportedValues_reorder (value : Yaml) {y y' : Yaml} (h : Listed y y') :
    supportedValues value y' = supportedValues value y := by
  have hl : Listed (valueList value y) (valueList value y') := by
    simp only [valueList, h.isNone]
    split
    · exact .same _
    · exact h
  unfold supportedValues
  simp only [bind, Except.bind, hl.truthy]
  rcases hl.iter with ⟨e, h3, h4⟩ | ⟨l, l', h3, h4, hl⟩
  · simp only [h3, h4]
  · simp only [h3, h4, supportedValue_reorder hl]

end

theorem readMember_reorder {E : Env} {reg : Registry} : ∀ (fuel : Nat) (c : Bool) (y y' : Yaml), Reordered y y' →
    readMember E reg fuel c y' = readMember E reg fuel c y
  | 0, _, _, _, _ => rfl
  | fuel + 1, c, y, y', hy => by
    have h := reordered_alike hy
    have ht := fun t m n => readTyped_reorder (E := E) (reg := reg) (rm := readMember E reg fuel) h (readMember_reorder fuel) t m n
    simp only [readMember, h.truthy, h.get (k := "name") (by decide), h.get (k := "type") (by decide),
      h.get (k := "data_type") (by decide), h.get (k := "condition") (by decide), h.get (k := "value") (by decide),
      h.get (k := "aliases") (by decide), h.get (k := "description") (by decide), h.keys, ht]
    rcases h.listed (k := "values") (by decide) .null with ⟨e, h1, h2⟩ | ⟨a, a', h1, h2, ha⟩
    · simp only [Yaml.get, h1, h2]
    · simp only [Yaml.get, h1, h2, bind, Except.bind, ha.isNone, fun v => supportedValues_reorder v ha]

theorem depthEntries_perm {es fs : List (Key × Yaml)} (h : es.Perm fs) : depthEntries es = depthEntries fs := by
  induction h with
  | nil => rfl
  | cons x _ ih => simp only [depthEntries, ih]
  | swap x y l => simp only [depthEntries]; omega
  | trans _ _ ih1 ih2 => exact ih1.trans ih2

mutual
theorem depth_reorder : ∀ {y y' : Yaml}, Reordered y y' → y'.depth = y.depth
  | _, _, .same _ => rfl
  | _, _, .mapping _ h hp => by
    rw [Yaml.depth, Yaml.depth, ← depthEntries_perm hp, depthEntries_reorder h]
theorem depthEntries_reorder : ∀ {es fs : List (Key × Yaml)}, ReorderedEntries es fs → depthEntries fs = depthEntries es
  | _, _, .nil => rfl
  | _, _, .cons h t => by
    rw [depthEntries, depthEntries, depthEntry, depthEntry, depthAt_reorder h, depthEntries_reorder t]
theorem depthAt_reorder : ∀ {k : Key} {y y' : Yaml}, ReorderedAt k y y' → y'.depth = y.depth
  | _, _, _, .same _ => rfl
  | _, _, _, .attributes h => depth_reorder h
  | _, _, _, .items _ h => by rw [Yaml.depth, Yaml.depth, depthList_reorder h]
theorem depthList_reorder : ∀ {l l' : List Yaml}, ReorderedItems l l' → depthList l' = depthList l
  | _, _, .nil => rfl
  | _, _, .cons h t => by rw [depthList, depthList, depth_reorder h, depthList_reorder t]
end

theorem readDefinition_reorder {E : Env} {reg : Registry} {y y' : Yaml} (hy : Reordered y y') :
    readDefinition E reg y' = readDefinition E reg y := by
  have h := reordered_alike hy
  unfold readDefinition
  rw [depth_reorder hy, h.truthy, h.get (k := "name") (by decide), h.get (k := "type") (by decide)]
  simp only [readTyped_reorder h (readMember_reorder _)]

theorem readDocs_reorder {E : Env} : ∀ {l l' : List Yaml}, ReorderedItems l l' → ∀ reg, readDocs E reg l' = readDocs E reg l
  | _, _, .nil, _ => rfl
  | _, _, .cons h t, reg => by
    simp only [readDocs, readDefinition_reorder h]
    split
    · rfl
    · split
      · rfl
      · exact readDocs_reorder t _

end Dtf
