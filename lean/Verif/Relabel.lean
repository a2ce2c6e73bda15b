import Verif.Orders
/-!
Definitions that differ in their documentation and in the names of data types.
-/
namespace Dtf

namespace Spec

/-- Whether the member of this name of a structure or union is given by the name of its type
(or with a condition or values), or with its type. -/
def givenByName (name : String) : Defn → Option Bool
  | .struct _ ms | .union _ ms => (ms.find? (·.name == name)).map fun
    | .member .. => true
    | _ => false
  | _ => none

/-- Numbers, uuids, sequences, streams, strings and structures. -/
def Inlinable : Defn → Bool
  | .prim .. | .uuid .. | .seq .. | .struct .. => true
  | _ => false

mutual
/-- Definitions that differ only in descriptions, aliases, the names of data types other than
structures, and in which members are given by the name of their type. The names of the members of
a structure or union stay the same, and so does the way in which the identifier of the members of
a structure group is given. -/
inductive Relabelled : Defn → Defn → Prop
  | prim {h h' : Hdr} (k s u) (ho : h.order = h'.order) : Relabelled (.prim h k s u) (.prim h' k s u)
  | uuid {h h' : Hdr} (s u) (ho : h.order = h'.order) : Relabelled (.uuid h s u) (.uuid h' s u)
  | padding {h h' : Hdr} (a) (ho : h.order = h'.order) : Relabelled (.padding h a) (.padding h' a)
  | seq {h h' : Hdr} (info : SeqInfo) (t : Option String) {e e' : Defn} (ho : h.order = h'.order)
      (ht : t.isSome = info.elementDataType.isSome) (he : Relabelled e e') :
      Relabelled (.seq h info e) (.seq h' { info with elementDataType := t } e')
  | struct {h h' : Hdr} {ms ms'} (hn : h.name = h'.name) (ho : h.order = h'.order) (hm : SameNamed ms ms') :
      Relabelled (.struct h ms) (.struct h' ms')
  | union {h h' : Hdr} {ms ms'} (ho : h.order = h'.order) (hm : SameNamed ms ms') :
      Relabelled (.union h ms) (.union h' ms')
  | constant {h h' : Hdr} (v) : Relabelled (.constant h v) (.constant h' v)
  | enumeration {h h' : Hdr} (vs) : Relabelled (.enumeration h vs) (.enumeration h' vs)
  | format {h h' : Hdr} (o l) : Relabelled (.format h o l) (.format h' o l)
  | family {h h' : Hdr} {b b' ms ms'} (hb : Relabelled b b') (hm : RelabelledAll ms ms') :
      Relabelled (.family h b ms) (.family h' b' ms')
  | group {h h' : Hdr} {b b' i d d' ms ms'} (ho : h.order = h'.order) (hb : Relabelled b b')
      (hd : RelabelledOpt d d') (hm : RelabelledAll ms ms') (hi : ms'.map (givenByName i) = ms.map (givenByName i)) :
      Relabelled (.group h b i d ms) (.group h' b' i d' ms')
  | member {h h' : Hdr} {d d'} (c) {t t' : Option String} (vs) (hd : Relabelled d d') (ht : t.isSome = t'.isSome) :
      Relabelled (.member h d c t vs) (.member h' d' c t' vs)
/-- The same for members, which keep their names. -/
inductive SameNamed : List Defn → List Defn → Prop
  | nil : SameNamed [] []
  | cons {d d' ds ds'} (hn : d.name = d'.name) (h : Relabelled d d') (t : SameNamed ds ds') :
      SameNamed (d :: ds) (d' :: ds')
  | named {d d' ds ds'} (h' : Hdr) (type : String) (hn : d.name = h'.name) (hi : Inlinable d = true)
      (h : Relabelled d d') (t : SameNamed ds ds') :
      SameNamed (d :: ds) (.member h' d' none (some type) none :: ds')
/-- The same for the members of families and groups. -/
inductive RelabelledAll : List Defn → List Defn → Prop
  | nil : RelabelledAll [] []
  | cons {d d' ds ds'} (h : Relabelled d d') (t : RelabelledAll ds ds') : RelabelledAll (d :: ds) (d' :: ds')
inductive RelabelledOpt : Option Defn → Option Defn → Prop
  | none : RelabelledOpt none none
  | some {d d'} (h : Relabelled d d') : RelabelledOpt (some d) (some d')
end

/-- A text without quotes, backslashes and null characters. -/
def Quiet (s : String) : Prop := ∀ c ∈ s.toList, c ≠ '"' ∧ c ≠ '\\' ∧ c ≠ '\x00'

/-- The names of data types that the documentation of a structure class shows for a
member. -/
def typeTexts : Defn → List String
  | .member _ (.seq _ info _) _ _ _ | .seq _ info _ => info.elementDataType.toList
  | .member _ _ _ t _ => t.toList
  | _ => []

/-- The types of the members of a structure can be told apart by their names, and the texts
in the documentation of its class are quiet. -/
def Told : Defn → Prop
  | .struct h ms => DistinctTypes ms ∧ Quiet h.name ∧ Quiet (h.description.getD "") ∧
    ∀ m ∈ ms, Quiet m.name ∧ Quiet (m.hdr.description.getD "") ∧ ∀ t ∈ typeTexts m, Quiet t
  | _ => True

end Spec
open Spec

/-! ### What does not change -/

theorem Spec.Relabelled.order {d d' : Defn} (h : Relabelled d d') : d'.order? = d.order? := by
  induction d using Defn.ind generalizing d' with
  | member h0 d c t vs ih => cases h with | member _ _ hd _ => simp only [Defn.order?, ih hd]
  | _ => cases h <;> simp_all [Defn.order?]

theorem Spec.Relabelled.orderOrNative {d d' : Defn} (h : Relabelled d d') : d'.orderOrNative = d.orderOrNative := by
  simp only [Defn.orderOrNative, h.order]

theorem Spec.Relabelled.composite {d d' : Defn} (h : Relabelled d d') : d'.isComposite = d.isComposite := by
  induction d using Defn.ind generalizing d' with
  | member h0 d c t vs ih => cases h with | member _ _ hd _ => simp only [Defn.isComposite, ih hd]
  | _ => cases h <;> rfl

theorem Spec.Relabelled.terminator {d d' : Defn} (h : Relabelled d d') : d'.terminator? = d.terminator? := by
  cases h <;> rfl

theorem Spec.Relabelled.pad {d d' : Defn} (h : Relabelled d d') : isPad d' = isPad d := by
  cases h <;> rfl

theorem Spec.Relabelled.target {d d' : Defn} (h : Relabelled d d') : Relabelled d.target d'.target := by
  cases h with
  | member _ _ hd _ => exact hd
  | prim k s u ho => exact .prim k s u ho
  | uuid s u ho => exact .uuid s u ho
  | padding a ho => exact .padding a ho
  | seq i t ho ht he => exact .seq i t ho ht he
  | struct hn ho hm => exact .struct hn ho hm
  | union ho hm => exact .union ho hm
  | constant v => exact .constant v
  | enumeration v => exact .enumeration v
  | format o l => exact .format o l
  | family hb hm => exact .family hb hm
  | group ho hb hd hm hi => exact .group ho hb hd hm hi

theorem Spec.Relabelled.memInfo {d d' : Defn} (h : Relabelled d d') (hn : d.name = d'.name) : d'.memInfo = d.memInfo := by
  cases h <;> simp_all [Defn.memInfo, Defn.name, Defn.hdr]

theorem Spec.SameNamed.names {ds ds' : List Defn} (h : SameNamed ds ds') : ds'.map Defn.name = ds.map Defn.name := by
  induction ds generalizing ds' with
  | nil => cases h; rfl
  | cons d ds ih =>
    cases h with
    | cons hn h t => rw [List.map_cons, List.map_cons, ih t, hn]
    | named h' type hn hi h t => rw [List.map_cons, List.map_cons, ih t, hn]; rfl

theorem Spec.SameNamed.linear {ds ds' : List Defn} (h : SameNamed ds ds') (last : Order) :
    checkLinear last ds' = checkLinear last ds := by
  induction ds generalizing ds' last with
  | nil => cases h; rfl
  | cons d ds ih =>
    cases h with
    | cons hn h t =>
      rw [checkLinear_cons, checkLinear_cons, h.composite, h.pad, h.order]
      simp only [ih t]
    | @named _ d' _ _ h' type hn hi h t =>
      have h1 : (Defn.member h' d' none (some type) none).isComposite = d.isComposite := by
        simp only [Defn.isComposite, h.composite, truthyStr, Bool.false_or]
      have h2 : isPad d = false := by cases d <;> first | rfl | cases hi
      have h3 : some (d.order?.getD .native) = d.order? := by cases d <;> first | rfl | cases hi
      rw [checkLinear_cons, checkLinear_cons, h1, h2]
      simp only [isPad, Defn.order?, h.order, h3, ih t]

theorem structSize_relabelled {ds ds' : List Defn} (h : SameNamed ds ds')
    (hd : ∀ d ∈ ds, ∀ d', Relabelled d d' → d'.byteSize = d.byteSize) (t : Int) :
    structSize t ds' = structSize t ds := by
  induction ds generalizing ds' t with
  | nil => cases h; rfl
  | cons d ds ih =>
    cases h with
    | cons hn h t' =>
      have h1 := hd d List.mem_cons_self _ h
      have h2 := ih t' fun d h => hd d (List.mem_cons_of_mem _ h)
      cases h with
      | padding a ho =>
        cases a with
        | none => simp only [structSize, Defn.byteSize]
        | some a => cases a <;> simp only [structSize, Defn.byteSize, h2]
      | _ => simp only [structSize, h1, h2]
    | @named _ d' _ _ h' type hn hi h t' =>
      have h1 := hd d List.mem_cons_self _ h
      have h2 := ih t' fun d h => hd d (List.mem_cons_of_mem _ h)
      have h3 : (Defn.member h' d' none (some type) none).byteSize = d.byteSize := by
        rw [Defn.byteSize, if_neg (by simp [truthyStr]), h1]
      cases d with
      | padding h0 a => cases hi
      | _ => simp only [structSize, h3, h2]

theorem unionSize_relabelled {ds ds' : List Defn} (h : SameNamed ds ds')
    (hd : ∀ d ∈ ds, ∀ d', Relabelled d d' → d'.byteSize = d.byteSize) (t : Int) :
    unionSize t ds' = unionSize t ds := by
  induction ds generalizing ds' t with
  | nil => cases h; rfl
  | cons d ds ih =>
    cases h with
    | cons hn h t' =>
      have h1 := hd d List.mem_cons_self _ h
      have h2 := ih t' fun d h => hd d (List.mem_cons_of_mem _ h)
      simp only [unionSize, h1, h2]
    | @named _ d' _ _ h' type hn hi h t' =>
      have h1 := hd d List.mem_cons_self _ h
      have h2 := ih t' fun d h => hd d (List.mem_cons_of_mem _ h)
      have h3 : (Defn.member h' d' none (some type) none).byteSize = d.byteSize := by
        rw [Defn.byteSize, if_neg (by simp [truthyStr]), h1]
      simp only [unionSize, h3, h2]

theorem Spec.Relabelled.size {d d' : Defn} (h : Relabelled d d') : d'.byteSize = d.byteSize := by
  induction d using Defn.ind generalizing d' with
  | seq h0 info e ih => cases h with | seq _ t ho ht he => simp only [Defn.byteSize, ih he]
  | struct h0 ms ih =>
    cases h with
    | struct hn ho hm =>
      have := structSize_relabelled hm (fun d hd d' h => ih d hd h) 0
      cases hm with
      | nil => rfl
      | cons hn h t => simpa only [Defn.byteSize] using this
      | named h' type hn hi h t => simpa only [Defn.byteSize] using this
  | union h0 ms ih =>
    cases h with
    | union ho hm =>
      have := unionSize_relabelled hm (fun d hd d' h => ih d hd h) 0
      cases hm with
      | nil => rfl
      | cons hn h t => simpa only [Defn.byteSize] using this
      | named h' type hn hi h t => simpa only [Defn.byteSize] using this
  | member h0 d c t vs ih => cases h with | member _ _ hd _ => simp only [Defn.byteSize, ih hd]
  | _ => cases h <;> simp only [Defn.byteSize]

theorem groupValues_relabelled (ident : String) {g g' : Defn} (h : Relabelled g g')
    (hi : givenByName ident g' = givenByName ident g) : groupValues ident g' = groupValues ident g := by
  have key : ∀ {ms ms' : List Defn}, SameNamed ms ms' →
      (ms.find? (·.name == ident) = none ∧ ms'.find? (·.name == ident) = none) ∨
      ∃ d d', ms.find? (·.name == ident) = some d ∧ ms'.find? (·.name == ident) = some d' ∧
        (Relabelled d d' ∨ Inlinable d = true ∧ ∃ h e c t vs, d' = .member h e c t vs) := by
    intro ms ms' h
    induction ms generalizing ms' with
    | nil => cases h; exact .inl ⟨rfl, rfl⟩
    | cons d ms ih =>
      cases h with
      | cons hn h t =>
        rw [List.find?_cons, List.find?_cons, ← hn]
        cases d.name == ident with
        | true => exact .inr ⟨_, _, rfl, rfl, .inl h⟩
        | false => exact ih t
      | @named _ d' _ _ h' type hn hi h t =>
        rw [List.find?_cons, List.find?_cons, show (Defn.member h' d' none (some type) none).name = d.name from hn.symm]
        cases d.name == ident with
        | true => exact .inr ⟨_, _, rfl, rfl, .inr ⟨hi, _, _, _, _, _, rfl⟩⟩
        | false => exact ih t
  have val : ∀ {d d' : Defn}, Relabelled d d' → ∀ f : Except Err (Option Defn) → Except Err (List Lit),
      f = (fun r => match r with
        | .error e => .error e
        | .ok none => .error .format
        | .ok (some (.member _ _ _ _ none)) => .error .format
        | .ok (some (.member _ _ _ _ (some vs))) => .ok vs
        | .ok (some _) => .error .attribute) → f (.ok (some d')) = f (.ok (some d)) := by
    intro d d' h f hf
    subst hf
    cases h with
    | member c vs hd ht => cases vs <;> rfl
    | _ => rfl
  cases h with
  | struct hn ho hm =>
    simp only [groupValues, memberByName]
    rcases key hm with ⟨h1, h2⟩ | ⟨d, d', h1, h2, hd | ⟨hd, h0, e, c, t, vs, rfl⟩⟩
    · rw [h1, h2]
    · rw [h1, h2]; exact val hd _ rfl
    · simp only [givenByName, h1, h2] at hi
      cases d <;> first | (simp at hi; done) | (simp [Inlinable] at hd; done)
  | union ho hm =>
    simp only [groupValues, memberByName]
    rcases key hm with ⟨h1, h2⟩ | ⟨d, d', h1, h2, hd | ⟨hd, h0, e, c, t, vs, rfl⟩⟩
    · rw [h1, h2]
    · rw [h1, h2]; exact val hd _ rfl
    · simp only [givenByName, h1, h2] at hi
      cases d <;> first | (simp at hi; done) | (simp [Inlinable] at hd; done)
  | _ => rfl

/-! ### Classes -/

theorem plain_quiet {s : String} (h : Quiet s) : plainText s.toList = true := by
  simp only [plainText, List.all_eq_true, Bool.and_eq_true, bne_iff_ne]
  intro c hc
  obtain ⟨h1, h2, h3⟩ := h c hc
  exact ⟨⟨h1, h2⟩, h3⟩

theorem plainText_append (a b : List Char) : plainText (a ++ b) = (plainText a && plainText b) := by
  simp only [plainText, List.all_append]

theorem plain_seqTypeText {info : SeqInfo} (h : ∀ t ∈ info.elementDataType.toList, Quiet t) :
    plainText ((seqTypeText info).getD []) = true := by
  unfold seqTypeText
  cases info.kind with
  | sequence =>
    cases ht : info.elementDataType with
    | none => rfl
    | some t =>
      have := plain_quiet (h t (by simp [ht]))
      simp only [Option.map_some, Option.getD_some, plainText_append, this]
      decide +kernel
  | _ => simp only [Option.getD_some]; decide +kernel

theorem plain_nativeTypeName (k : PrimKind) : plainText (nativeTypeName k).toList = true := by
  cases k <;> simp only [nativeTypeName] <;> decide +kernel

theorem plain_typeText {d : Defn} (h : ∀ t ∈ typeTexts d, Quiet t) :
    plainText ((memberTypeText d).getD []) = true := by
  have huuid : plainText "uuid.UUID".toList = true := by decide +kernel
  have hdt : ∀ {t : Option String}, (∀ s ∈ t.toList, Quiet s) → plainText ((t.map String.toList).getD []) = true := by
    intro t ht
    cases t with
    | none => rfl
    | some s => exact plain_quiet (ht s (by simp))
  cases d with
  | member h0 d c t vs =>
    cases d with
    | prim h0 k s u => exact plain_nativeTypeName k
    | uuid h0 s u => exact huuid
    | seq h0 info e => exact plain_seqTypeText h
    | _ => exact hdt h
  | prim h0 k s u => exact plain_nativeTypeName k
  | uuid h0 s u => exact huuid
  | seq h0 info e => exact plain_seqTypeText h
  | _ => rfl

theorem told_plain {h : Hdr} {ms : List Defn} (ht : Told (.struct h ms)) {nm : String} (hq : Quiet nm) :
    plainTexts nm h.description ms = true := by
  obtain ⟨-, -, h2, h3⟩ := ht
  simp only [plainTexts, Bool.and_eq_true, List.all_eq_true]
  exact ⟨⟨plain_quiet hq, plain_quiet h2⟩, fun m hm =>
    ⟨⟨plain_quiet (h3 m hm).1, plain_typeText (h3 m hm).2.2⟩, plain_quiet (h3 m hm).2.1⟩⟩

theorem seqTypeText_isSome (info : SeqInfo) {t : Option String} (ht : t.isSome = info.elementDataType.isSome) :
    (seqTypeText { info with elementDataType := t }).isSome = (seqTypeText info).isSome := by
  unfold seqTypeText
  cases info.kind <;> simp [ht]

theorem typeText_isSome {d d' : Defn} (h : Relabelled d d') :
    (memberTypeText d').isSome = (memberTypeText d).isSome := by
  cases h with
  | seq info t ho ht he => exact seqTypeText_isSome info ht
  | member c vs hd ht =>
    cases hd with
    | seq info t ho ht he => exact seqTypeText_isSome info ht
    | prim => rfl
    | uuid => rfl
    | _ => simp [memberTypeText, ht]
  | _ => rfl

theorem classDoc_isSome (nm : String) (description : Option String) (ms : List Defn) :
    (classDoc nm description ms).isSome = ms.all fun d => (memberTypeText d).isSome := by
  simp only [classDoc, Option.isSome_map]
  induction ms with
  | nil => rfl
  | cons d ms ih =>
    rw [List.mapM_cons, List.all_cons, ← ih]
    cases memberTypeText d with
    | none => rfl
    | some t =>
      simp only [Option.map_some, Option.isSome_some, Bool.true_and]
      cases List.mapM (fun d => Option.map (attributeLine d) (memberTypeText d)) ms <;> rfl

theorem createClass_relabelled (E : Env) {h h' : Hdr} {ms ms' : List Defn} (ht : Told (.struct h ms))
    (ht' : Told (.struct h' ms')) {nm : String} (hq : Quiet nm) (hm : SameNamed ms ms') :
    createClass E nm h'.description ms' = createClass E nm h.description ms := by
  have h1 : (classDoc nm h'.description ms').isSome = (classDoc nm h.description ms).isSome := by
    rw [classDoc_isSome, classDoc_isSome]
    clear ht ht'
    induction ms generalizing ms' with
    | nil => cases hm; rfl
    | cons d ms ih =>
      cases hm with
      | cons _ h t => rw [List.all_cons, List.all_cons, ih t, typeText_isSome h]
      | @named _ d' _ _ h' type hn hi h t =>
        have h2 : (memberTypeText (.member h' d' none (some type) none)).isSome = (memberTypeText d).isSome := by
          cases h <;> first | rfl | exact seqTypeText_isSome _ (by assumption) | (simp [Inlinable] at hi; done)
        rw [List.all_cons, List.all_cons, ih t, h2]
  unfold createClass
  rw [told_plain ht hq, told_plain ht' hq, hm.names]
  generalize classDoc nm h.description ms = a at h1 ⊢
  generalize classDoc nm h'.description ms' = b at h1 ⊢
  cases a <;> cases b <;> first | rfl | cases h1

/-! ### Maps -/

/-- The statement about one definition: under the same byte order, and the same name if it
is a structure, the maps are the same. -/
def RelabelOk (E : Env) (d : Defn) : Prop :=
  ∀ d', Relabelled d d' → d.Every Told → d'.Every Told → ∀ nm nm' o,
    ((∃ h ms, d = .struct h ms) → nm = nm' ∧ Quiet nm) → SameOutcome (createAs E nm o d) (createAs E nm' o d')

theorem quiet_append {a b : String} (ha : Quiet a) (hb : Quiet b) : Quiet (a ++ b) := by
  intro c hc
  rw [String.toList_append, List.mem_append] at hc
  rcases hc with hc | hc
  · exact ha c hc
  · exact hb c hc

theorem quiet_line : Quiet "_" := by
  intro c hc
  rw [show "_".toList = ['_'] from rfl, List.mem_singleton] at hc
  subst hc
  decide

theorem memberNameOrder_relabelled {sname : String} {so : Order} {d d' : Defn} (h : Relabelled d d')
    (hq : Quiet sname) (hd : d.Every Told) :
    (∃ x, memberNameOrder sname so d = .error x ∧ memberNameOrder sname so d' = .error x) ∨
    ∃ n n' o, memberNameOrder sname so d = .ok (n, o) ∧ memberNameOrder sname so d' = .ok (n', o) ∧
      ((∃ h ms, d = .struct h ms) → n = n' ∧ Quiet n) := by
  have hname : (∃ h ms, d = .struct h ms) → d.name = d'.name ∧ Quiet d.name := by
    rintro ⟨h0, ms, rfl⟩
    cases h with | struct hn ho hm => exact ⟨hn, hd.1.2.1⟩
  unfold memberNameOrder
  rw [h.order, h.orderOrNative]
  by_cases hn : so = .native
  · rw [if_pos hn, if_pos hn]
    exact .inr ⟨_, _, _, rfl, rfl, hname⟩
  · rw [if_neg hn, if_neg hn]
    have hcopy : (∃ h ms, d = .struct h ms) →
        "_" ++ sname ++ "_" ++ d.name = "_" ++ sname ++ "_" ++ d'.name ∧ Quiet ("_" ++ sname ++ "_" ++ d.name) :=
      fun hs => ⟨by rw [(hname hs).1],
        quiet_append (quiet_append (quiet_append quiet_line hq) quiet_line) (hname hs).2⟩
    cases d.order? with
    | none => exact .inl ⟨_, rfl, rfl⟩
    | some o =>
      cases o with
      | native => exact .inr ⟨_, _, _, rfl, rfl, hcopy⟩
      | _ => exact .inr ⟨_, _, _, rfl, rfl, hname⟩

theorem Spec.SameNamed.cons_inv {d : Defn} {ds ds' : List Defn} (h : SameNamed (d :: ds) ds') :
    ∃ (d' : Defn) (ds1 : List Defn), ds' = d' :: ds1 ∧ d'.memInfo = d.memInfo ∧ Relabelled d.target d'.target ∧
      SameNamed ds ds1 := by
  cases h with
  | cons hn h t => exact ⟨_, _, rfl, h.memInfo hn, h.target, t⟩
  | named h' type hn hi h t =>
    refine ⟨_, _, rfl, ?_, ?_, t⟩
    · cases d <;> first | (simp [Inlinable] at hi; done) | simp only [Defn.memInfo, ← hn]
    · cases d <;> first | exact h | (simp [Inlinable] at hi; done)

theorem plainMembers_relabelled (E : Env) {sname : String} (so : Order) (hq : Quiet sname) {ds ds' : List Defn}
    (h : SameNamed ds ds') (hok : ∀ d ∈ ds, RelabelOk E d.target) (hev : ∀ d ∈ ds, d.Every Told)
    (hev' : ∀ d ∈ ds', d.Every Told) :
    SameMembers (plainMembers E sname so ds) (plainMembers E sname so ds') := by
  induction ds generalizing ds' with
  | nil => cases h; exact .ok .nil
  | cons d ds ih =>
    obtain ⟨d', ds1, rfl, hinfo, htarget, t⟩ := h.cons_inv
    · have ih := ih t (fun d h => hok d (List.mem_cons_of_mem _ h)) (fun d h => hev d (List.mem_cons_of_mem _ h))
        (fun d h => hev' d (List.mem_cons_of_mem _ h))
      rw [plainMembers, plainMembers, hinfo]
      have he := (hev d List.mem_cons_self).target
      have he' := (hev' d' List.mem_cons_self).target
      rcases memberNameOrder_relabelled (so := so) htarget hq he with ⟨x, h1, h2⟩ | ⟨n, n', o, h1, h2, hs⟩
      · rw [h1, h2]; exact .error x
      · rw [h1, h2]
        simp only
        have := hok d List.mem_cons_self _ htarget he he' n n' o hs
        generalize createAs E n o d.target = r at this ⊢
        generalize createAs E n' o d'.target = r' at this ⊢
        generalize plainMembers E sname so ds = q at ih ⊢
        generalize plainMembers E sname so ds1 = q' at ih ⊢
        cases this with
        | error x => exact .error x
        | ok hm =>
          cases ih with
          | error x => exact .error x
          | ok ht => exact .ok (.cons hm ht)

theorem own_name {d d' : Defn} (h : Relabelled d d') (hd : d.Every Told) :
    (∃ h ms, d = .struct h ms) → d.name = d'.name ∧ Quiet d.name := by
  rintro ⟨h0, ms, rfl⟩
  cases h with | struct hn ho hm => exact ⟨hn, hd.1.2.1⟩

theorem createOwn_relabelled {E : Env} {d d' : Defn} (hok : RelabelOk E d) (h : Relabelled d d')
    (hd : d.Every Told) (hd' : d'.Every Told) :
    SameOutcome (createAs E d.name d.orderOrNative d) (createAs E d'.name d'.orderOrNative d') := by
  rw [h.orderOrNative]
  exact hok d' h hd hd' _ _ _ (own_name h hd)

theorem createGroup_relabelled (E : Env) (ident : String) {gs gs' : List Defn} (h : RelabelledAll gs gs')
    (hi : gs'.map (givenByName ident) = gs.map (givenByName ident)) (hok : ∀ d ∈ gs, RelabelOk E d) (hev : ∀ d ∈ gs, d.Every Told) (hev' : ∀ d ∈ gs', d.Every Told)
    (keys : List Lit) :
    (∃ x, createGroup E ident keys gs = .error x ∧ createGroup E ident keys gs' = .error x) ∨
    ∃ ks maps maps', createGroup E ident keys gs = .ok (ks, maps) ∧
      createGroup E ident keys gs' = .ok (ks, maps') ∧ SameMaps maps maps' := by
  induction gs generalizing gs' keys with
  | nil => cases h; exact .inr ⟨_, _, _, rfl, rfl, .nil⟩
  | cons g gs ih =>
    cases h with
    | @cons _ g' _ gs' h t =>
      simp only [List.map_cons, List.cons.injEq] at hi
      have ih := ih t hi.2 (fun d h => hok d (List.mem_cons_of_mem _ h)) (fun d h => hev d (List.mem_cons_of_mem _ h))
        (fun d h => hev' d (List.mem_cons_of_mem _ h))
      rw [createGroup, createGroup, groupValues_relabelled ident h hi.1]
      cases groupValues ident g with
      | error x => exact .inl ⟨x, rfl, rfl⟩
      | ok vs =>
        cases vs with
        | nil => exact ih keys
        | cons v vs =>
          simp only
          cases addKeys keys [v] with
          | error x => exact .inl ⟨x, rfl, rfl⟩
          | ok _ =>
            have := createOwn_relabelled (hok g List.mem_cons_self) h (hev g List.mem_cons_self)
              (hev' g' List.mem_cons_self)
            simp only
            generalize createAs E g.name g.orderOrNative g = r at this ⊢
            generalize createAs E g'.name g'.orderOrNative g' = r' at this ⊢
            cases this with
            | error x => exact .inl ⟨x, rfl, rfl⟩
            | ok hm =>
              simp only
              cases addKeys keys (v :: vs) with
              | error x => exact .inl ⟨x, rfl, rfl⟩
              | ok keys' =>
                simp only
                rcases ih keys' with ⟨x, h1, h2⟩ | ⟨ks, maps, maps', h1, h2, hs⟩
                · rw [h1, h2]; exact .inl ⟨x, rfl, rfl⟩
                · rw [h1, h2]
                  exact .inr ⟨_, _, _, rfl, rfl, (SameMaps.replicate hm _).append hs⟩

theorem finishSeq_retyped {E : Env} {info : SeqInfo} {t : Option String} {ei : ElemInfo} {m : DMap} :
    finishSeq E (info.retyped t) m ei = finishSeq E info m ei := rfl

theorem createAs_seq_relabelled {E : Env} {h : Hdr} {info : SeqInfo} {e : Defn} (ih : RelabelOk E e) :
    RelabelOk E (.seq h info e) := by
  intro d' hr hev hev' nm nm' o _
  cases hr with
  | @seq _ h' _ t _ e' ho ht he =>
    obtain ⟨-, hev⟩ := hev
    obtain ⟨-, hev'⟩ := hev'
    have hb : (Defn.seq h' { info with elementDataType := t } e').byteSize = (Defn.seq h info e).byteSize := by
      simp only [Defn.byteSize, he.size]
    rw [createAs, createAs, hb, he.size, he.composite, he.terminator, he.order]
    cases heo : e.order? with
    | none => exact .error _
    | some eo =>
      simp only
      have hs : (∃ h ms, e = .struct h ms) →
          (if (o ≠ .native && eo = .native && !e.isComposite : Bool) then "_" ++ nm ++ "_" ++ e.name else e.name) =
          (if (o ≠ .native && eo = .native && !e.isComposite : Bool) then "_" ++ nm' ++ "_" ++ e'.name else e'.name) ∧
          Quiet (if (o ≠ .native && eo = .native && !e.isComposite : Bool) then "_" ++ nm ++ "_" ++ e.name else e.name) := by
        intro hs
        have hn := own_name he hev hs
        obtain ⟨h0, ms, rfl⟩ := hs
        simpa [Defn.isComposite] using hn
      have := ih e' he hev hev' _ _ (if (o ≠ .native && eo = .native && !e.isComposite : Bool) then o else eo) hs
      generalize hr : createAs E _ _ e = r at this ⊢
      generalize createAs E _ _ e' = r' at this ⊢
      cases this with
      | error x => exact .error x
      | ok hm =>
        have hl : seqLinear info ⟨e.byteSize, e.isComposite, e.terminator?⟩ = true → e.isComposite = false := by
          intro hl
          cases hc : e.isComposite with
          | true => rw [hc] at hl; simp [seqLinear] at hl
          | false => rfl
        by_cases hk : info.kind = .sequence
        · exact finishSeq_same (m' := .seq { h' with name := nm', order := o } (info.retyped t) _ _ _)
            (.sequence hk hm fun h => simple_orderStr (hl h) hr hm)
            fun _ h => seqOp_same hm (simple_orderStr (hl h) hr hm) hk
        · exact finishSeq_same (m' := .seq { h' with name := nm', order := o } (info.retyped t) _ _ _)
            (.stream hk fun E off ctx => sizeHint_same E hm off ctx) fun h => absurd h hk

theorem createAs_relabelled (E : Env) (d : Defn) : RelabelOk E d := by
  suffices h : RelabelOk E d ∧ RelabelOk E d.target from h.1
  have both : ∀ {p : Prop}, p → p ∧ p := fun h => ⟨h, h⟩
  induction d using Defn.ind with
  | prim h k s u =>
    refine both ?_
    intro d' hr _ _ nm nm' o _
    cases hr
    simp only [createAs]
    split
    · exact .error _
    · exact .ok (.prim rfl)
  | uuid h s u =>
    refine both ?_
    intro d' hr _ _ nm nm' o _
    cases hr
    simp only [createAs]
    exact .ok (.uuid rfl)
  | seq h info e ih => exact ⟨createAs_seq_relabelled ih.1, createAs_seq_relabelled ih.1⟩
  | struct h ms ih =>
    refine both ?_
    intro d' hr hev hev' nm nm' o hs
    obtain ⟨rfl, hq⟩ := hs ⟨_, _, rfl⟩
    cases hr with
    | @struct _ h' _ ms' hn ho hm =>
      obtain ⟨hf, hev⟩ := hev
      obtain ⟨hf', hev'⟩ := hev'
      rw [everyDefn_iff] at hev hev'
      have hb := (Relabelled.struct hn ho hm).size
      rw [createAs, createAs, createClass_relabelled E hf hf' hq hm, hb, hm.linear,
        createMembers_plain E nm o ms hf.1 ms (fun d h => h) [] (by simp),
        createMembers_plain E nm o ms' hf'.1 ms' (fun d h => h) [] (by simp)]
      cases createClass E nm h.description ms with
      | error x => exact .error x
      | ok instOk =>
        simp only
        have := plainMembers_relabelled E o hq hm (fun d hd => (ih d hd).2) hev hev'
        generalize plainMembers E nm o ms = r at this ⊢
        generalize plainMembers E nm o ms' = r' at this ⊢
        cases this with
        | error x => exact .error x
        | ok hm =>
          simp only
          cases checkLinear o ms with
          | error x => exact .error x
          | ok linear => exact finishStruct_same (.struct rfl rfl hm) (structOp_same rfl hm)
  | group h base ident dflt ms ihb ihd ihm =>
    refine both ?_
    intro d' hr hev hev' nm nm' o _
    cases hr with
    | @group _ h' _ base' _ _ dflt' _ ms' ho hb hd hm hi =>
      simp only [Defn.Every] at hev hev'
      obtain ⟨-, eb, ed, em⟩ := hev
      obtain ⟨-, eb', ed', em'⟩ := hev'
      rw [everyDefn_iff] at em em'
      rw [everyOptDefn_iff] at ed ed'
      rw [createAs, createAs]
      have h1 : (∃ x, createOpt E dflt = .error x ∧ createOpt E dflt' = .error x) ∨
          ∃ m m', createOpt E dflt = .ok m ∧ createOpt E dflt' = .ok m' ∧ SameOpt m m' := by
        cases hd with
        | none => exact .inr ⟨_, _, rfl, rfl, .none⟩
        | @some d d' h =>
          have := createOwn_relabelled (ihd d rfl).1 h (ed d rfl) (ed' d' rfl)
          simp only [createOpt]
          generalize createAs E d.name d.orderOrNative d = r at this ⊢
          generalize createAs E d'.name d'.orderOrNative d' = r' at this ⊢
          cases this with
          | error x => exact .inl ⟨x, rfl, rfl⟩
          | ok hm => exact .inr ⟨_, _, rfl, rfl, .some hm⟩
      rcases h1 with ⟨x, h1, h2⟩ | ⟨dm, dm', h1, h2, hdm⟩
      · rw [h1, h2]; exact .error x
      · rw [h1, h2]
        simp only
        have := createOwn_relabelled ihb.1 hb eb eb'
        generalize createAs E base.name base.orderOrNative base = r at this ⊢
        generalize createAs E base'.name base'.orderOrNative base' = r' at this ⊢
        cases this with
        | error x => exact .error x
        | ok hbm =>
          have hemp : ms'.isEmpty = ms.isEmpty := by cases hm <;> rfl
          simp only [hemp]
          split
          · exact .error _
          · rcases createGroup_relabelled E ident hm hi (fun d hd => (ihm d hd).1) em em' [] with
              ⟨x, h1, h2⟩ | ⟨ks, maps, maps', h1, h2, hs⟩
            · rw [h1, h2]; exact .error x
            · rw [h1, h2]; exact .ok (.group hbm hdm hs)
  | member h d c dt vs ih =>
    refine ⟨?_, ih.1⟩
    intro d' hr _ _ nm nm' o _
    cases hr
    simp only [createAs]
    exact .ok .missing
  | padding h a =>
    refine both ?_
    intro d' hr _ _ nm nm' o _
    cases hr
    simp only [createAs]
    exact .ok .padding
  | union h ms ih =>
    refine both ?_
    intro d' hr _ _ nm nm' o _
    cases hr
    simp only [createAs]
    exact .ok .missing
  | constant h v =>
    refine both ?_
    intro d' hr _ _ nm nm' o _
    cases hr
    simp only [createAs]
    exact .ok .constant
  | enumeration h vs =>
    refine both ?_
    intro d' hr _ _ nm nm' o _
    cases hr
    simp only [createAs]
    exact .ok .enumeration
  | format h fo l =>
    refine both ?_
    intro d' hr _ _ nm nm' o _
    cases hr
    simp only [createAs]
    exact .ok .format
  | family h b ms ihb ihm =>
    refine both ?_
    intro d' hr _ _ nm nm' o _
    cases hr
    simp only [createAs]
    exact .ok .missing

end Dtf
