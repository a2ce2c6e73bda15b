import Verif.Orders
import Verif.RoundTrip
import Verif.Refine
/-!
Definitions whose members may have more values.
-/
namespace Dtf

namespace Spec

/-- All values allowed by the first list of supported values are allowed by the second; no list,
and the empty list, allow all. -/
inductive Allows : Option (List Lit) → Option (List Lit) → Prop
  | all (vs) : Allows vs none
  | empty (vs) : Allows vs (some [])
  | more {v : Lit} {vs ws : List Lit} (h : ∀ x ∈ v :: vs, x ∈ ws) : Allows (some (v :: vs)) (some ws)

/-- The supported values of the member of this name. -/
def valuesFor (name : String) : Defn → Option (Option (List Lit))
  | .struct _ ms | .union _ ms => (ms.find? (·.name == name)).map fun
    | .member _ _ _ _ vs => vs
    | _ => none
  | _ => none

mutual
/-- The second definition allows members of structures more values, but for the identifiers of the
members of structure groups; all else is the same. -/
inductive Loosened : Defn → Defn → Prop
  | same (d) : Loosened d d
  | seq (h : Hdr) (info : SeqInfo) {e e' : Defn} (he : Loosened e e') : Loosened (.seq h info e) (.seq h info e')
  | struct (h : Hdr) {ms ms'} (hm : LoosenedAll ms ms') : Loosened (.struct h ms) (.struct h ms')
  | group (h : Hdr) {b b'} (i : String) {d d' ms ms'} (hb : Loosened b b') (hd : LoosenedOpt d d')
      (hm : LoosenedAll ms ms') (hi : ms'.map (valuesFor i) = ms.map (valuesFor i)) :
      Loosened (.group h b i d ms) (.group h b' i d' ms')
  | member (h : Hdr) {d d'} (c t) {vs vs'} (hd : Loosened d d') (hv : Allows vs vs') :
      Loosened (.member h d c t vs) (.member h d' c t vs')
inductive LoosenedAll : List Defn → List Defn → Prop
  | nil : LoosenedAll [] []
  | cons {d d' ds ds'} (h : Loosened d d') (t : LoosenedAll ds ds') : LoosenedAll (d :: ds) (d' :: ds')
inductive LoosenedOpt : Option Defn → Option Defn → Prop
  | none : LoosenedOpt none none
  | some {d d'} (h : Loosened d d') : LoosenedOpt (some d) (some d')
end

end Spec
open Spec

/-! ### What does not change -/

theorem Spec.Allows.refl (vs : Option (List Lit)) : Allows vs vs := by
  match vs with
  | none => exact .all _
  | some [] => exact .empty _
  | some (v :: vs) => exact .more fun _ h => h

theorem Spec.Loosened.hdr {d d' : Defn} (h : Loosened d d') : d'.hdr = d.hdr := by cases h <;> rfl

theorem Spec.Loosened.name {d d' : Defn} (h : Loosened d d') : d'.name = d.name := by cases h <;> rfl

theorem Spec.Loosened.order {d d' : Defn} (h : Loosened d d') : d'.order? = d.order? := by
  induction d using Defn.ind generalizing d' with
  | member h0 d c t vs ih =>
    cases h with
    | same => rfl
    | member _ _ _ hd hv => simp only [Defn.order?, ih hd]
  | _ => cases h <;> rfl

theorem Spec.Loosened.orderOrNative {d d' : Defn} (h : Loosened d d') : d'.orderOrNative = d.orderOrNative := by
  simp only [Defn.orderOrNative, h.order]

theorem Spec.Loosened.composite {d d' : Defn} (h : Loosened d d') : d'.isComposite = d.isComposite := by
  induction d using Defn.ind generalizing d' with
  | member h0 d c t vs ih =>
    cases h with
    | same => rfl
    | member _ _ _ hd hv => simp only [Defn.isComposite, ih hd]
  | _ => cases h <;> rfl

theorem Spec.Loosened.terminator {d d' : Defn} (h : Loosened d d') : d'.terminator? = d.terminator? := by
  cases h <;> rfl

theorem Spec.Loosened.pad {d d' : Defn} (h : Loosened d d') : isPad d' = isPad d := by cases h <;> rfl

theorem Spec.Loosened.target {d d' : Defn} (h : Loosened d d') : Loosened d.target d'.target := by
  cases h with
  | same => exact .same _
  | seq h info he => exact .seq h info he
  | struct h hm => exact .struct h hm
  | group h i hb hd hm hi => exact .group h i hb hd hm hi
  | member h c t hd hv => exact hd

theorem Spec.Loosened.text {d d' : Defn} (h : Loosened d d') : memberTypeText d' = memberTypeText d := by
  cases h with
  | member h c t hd hv => cases hd <;> rfl
  | _ => rfl

theorem Spec.LoosenedAll.names {ds ds' : List Defn} (h : LoosenedAll ds ds') : ds'.map Defn.name = ds.map Defn.name := by
  induction ds generalizing ds' with
  | nil => cases h; rfl
  | cons d ds ih => cases h with | cons h t => rw [List.map_cons, List.map_cons, ih t, h.name]

theorem Spec.LoosenedAll.linear {ds ds' : List Defn} (h : LoosenedAll ds ds') (last : Order) :
    checkLinear last ds' = checkLinear last ds := by
  induction ds generalizing ds' last with
  | nil => cases h; rfl
  | cons d ds ih =>
    cases h with
    | cons h t =>
      rw [checkLinear_cons, checkLinear_cons, h.composite, h.pad, h.order]
      simp only [ih t]

theorem structSize_loosened {ds ds' : List Defn} (h : LoosenedAll ds ds')
    (hd : ∀ d ∈ ds, ∀ d', Loosened d d' → d'.byteSize = d.byteSize) (t : Int) :
    structSize t ds' = structSize t ds := by
  induction ds generalizing ds' t with
  | nil => cases h; rfl
  | cons d ds ih =>
    cases h with
    | cons h t' =>
      have h1 := hd d List.mem_cons_self _ h
      have h2 := ih t' fun d h => hd d (List.mem_cons_of_mem _ h)
      cases h with
      | same =>
        cases d with
        | padding h0 a =>
          cases a with
          | none => simp only [structSize, Defn.byteSize]
          | some a => cases a <;> simp only [structSize, Defn.byteSize, h2]
        | _ => simp only [structSize, h2]
      | _ => simp only [structSize, h1, h2]

theorem Spec.Loosened.size {d d' : Defn} (h : Loosened d d') : d'.byteSize = d.byteSize := by
  induction d using Defn.ind generalizing d' with
  | seq h0 info e ih =>
    cases h with
    | same => rfl
    | seq _ _ he => simp only [Defn.byteSize, ih he]
  | struct h0 ms ih =>
    cases h with
    | same => rfl
    | struct _ hm =>
      have := structSize_loosened hm (fun d hd d' h => ih d hd h) 0
      cases hm with
      | nil => rfl
      | cons h t => simpa only [Defn.byteSize] using this
  | member h0 d c t vs ih =>
    cases h with
    | same => rfl
    | member _ _ _ hd hv => simp only [Defn.byteSize, ih hd]
  | group h0 b i dflt ms => cases h <;> rfl
  | _ => cases h; rfl

theorem createClass_loosened (E : Env) (nm : String) (x : Option String) {ms ms' : List Defn} (hm : LoosenedAll ms ms') :
    createClass E nm x ms' = createClass E nm x ms := by
  have h1 : (ms'.mapM fun d => (memberTypeText d).map (attributeLine d)) =
      ms.mapM fun d => (memberTypeText d).map (attributeLine d) := by
    induction ms generalizing ms' with
    | nil => cases hm; rfl
    | cons d ms ih =>
      cases hm with
      | @cons _ d' _ _ h t =>
        have : attributeLine d' = attributeLine d := by
          funext s; unfold attributeLine; rw [h.name, h.hdr]
        rw [List.mapM_cons, List.mapM_cons, ih t]
        simp only [h.text, this]
  have h2 : plainTexts nm x ms' = plainTexts nm x ms := by
    unfold plainTexts
    congr 1
    clear h1
    induction ms generalizing ms' with
    | nil => cases hm; rfl
    | cons d ms ih =>
      cases hm with
      | cons h t => rw [List.all_cons, List.all_cons, ih t, h.name, h.text, h.hdr]
  have h3 : classDoc nm x ms' = classDoc nm x ms := by rw [classDoc, classDoc, h1]
  unfold createClass
  rw [hm.names, h2, h3]

theorem groupValues_loosened (ident : String) {g g' : Defn} (h : Loosened g g')
    (hi : valuesFor ident g' = valuesFor ident g) : groupValues ident g' = groupValues ident g := by
  have key : ∀ {ms ms' : List Defn}, LoosenedAll ms ms' →
      (ms.find? (·.name == ident) = none ∧ ms'.find? (·.name == ident) = none) ∨
      ∃ d d', ms.find? (·.name == ident) = some d ∧ ms'.find? (·.name == ident) = some d' ∧ Loosened d d' := by
    intro ms ms' h
    induction ms generalizing ms' with
    | nil => cases h; exact .inl ⟨rfl, rfl⟩
    | cons d ms ih =>
      cases h with
      | cons h t =>
        rw [List.find?_cons, List.find?_cons, h.name]
        cases d.name == ident with
        | true => exact .inr ⟨_, _, rfl, rfl, h⟩
        | false => exact ih t
  cases h with
  | struct h0 hm =>
    simp only [groupValues, memberByName]
    simp only [valuesFor] at hi
    rcases key hm with ⟨h1, h2⟩ | ⟨d, d', h1, h2, hd⟩
    · rw [h1, h2]
    · rw [h1, h2] at hi ⊢
      cases hd with
      | member h c t hd hv =>
        simp only [Option.map_some, Option.some.injEq] at hi
        subst hi
        rename_i vs
        cases vs <;> rfl
      | _ => rfl
  | _ => rfl

/-! ### Maps -/

/-- What is kept of a member that may have more values. -/
def LooserInfo (i i' : MemInfo) : Prop := i'.name = i.name ∧ i'.condition = i.condition ∧ Allows i.values i'.values

inductive LooserInfos : List MemInfo → List MemInfo → Prop
  | nil : LooserInfos [] []
  | cons {i i' is is'} (h : LooserInfo i i') (t : LooserInfos is is') : LooserInfos (i :: is) (i' :: is')

mutual
/-- Maps of which the second allows members of structures more values. -/
inductive Looser : DMap → DMap → Prop
  | same (m) : Looser m m
  | seq {h info ei b e e'} (he : Looser e e') (hl : seqLinear info ei = true → e = e') :
      Looser (.seq h info ei b e) (.seq h info ei b e')
  | struct {h b l i infos infos' maps maps'} (hi : LooserInfos infos infos') (hm : LooserMaps maps maps')
      (hl : l = true → maps = maps') : Looser (.struct h b l i infos maps) (.struct h b l i infos' maps')
  | group {h ident base base' dflt dflt' keys maps maps'} (hb : Looser base base') (hd : LooserOpt dflt dflt')
      (hm : LooserMaps maps maps') : Looser (.group h ident base dflt keys maps) (.group h ident base' dflt' keys maps')
inductive LooserMaps : List DMap → List DMap → Prop
  | nil : LooserMaps [] []
  | cons {m m' ms ms'} (h : Looser m m') (t : LooserMaps ms ms') : LooserMaps (m :: ms) (m' :: ms')
inductive LooserOpt : Option DMap → Option DMap → Prop
  | none : LooserOpt none none
  | some {m m'} (h : Looser m m') : LooserOpt (some m) (some m')
end

theorem LooserInfos.names {is is' : List MemInfo} (h : LooserInfos is is') :
    is'.map (·.name) = is.map (·.name) := by
  induction is generalizing is' with
  | nil => cases h; rfl
  | cons i is ih => cases h with | cons h t => rw [List.map_cons, List.map_cons, ih t, h.1]

theorem LooserInfos.length {is is' : List MemInfo} (h : LooserInfos is is') : is'.length = is.length := by
  simpa using congrArg List.length h.names

theorem valueOk_looser {i i' : MemInfo} (h : LooserInfo i i') {v : Val} (hv : valueOk i v = true) : valueOk i' v = true := by
  obtain ⟨-, -, h⟩ := h
  unfold valueOk at hv ⊢
  generalize i.values = a at h hv
  generalize i'.values = b at h ⊢
  cases h with
  | all => rfl
  | empty => rfl
  | @more x vs ws h =>
    cases ws with
    | nil => rfl
    | cons w ws =>
      simp only [pyIn, List.any_eq_true] at hv ⊢
      obtain ⟨y, hy, he⟩ := hv
      exact ⟨y, h y hy, he⟩

theorem linearValues_looser {is is' : List MemInfo} (h : LooserInfos is is') (maps : List DMap) (vs : List Val) :
    linearValues is maps vs = linearValues is' maps vs ∨ linearValues is maps vs = none := by
  induction is generalizing is' maps vs with
  | nil => cases h; exact .inl rfl
  | cons i is ih =>
    cases h with
    | @cons _ i' _ is' h t =>
      cases vs with
      | nil => exact .inl (by simp only [linearValues])
      | cons v vs =>
        cases maps with
        | nil => exact .inl rfl
        | cons m maps =>
          cases m with
          | prim hd k s u =>
            simp only [linearValues]
            cases mapValue k v with
            | none => exact .inl rfl
            | some x =>
              simp only
              cases hv : valueOk i x with
              | false => exact .inr (by simp)
              | true =>
                rw [valueOk_looser h hv]
                rcases ih t maps vs with h1 | h1
                · rw [h1]; exact .inl rfl
                · rw [h1]; exact .inr rfl
          | _ => exact .inl rfl

/-! ### Mapping -/

/-- The same outcome, or the first is an error in the data. -/
def SameOrRejected {α : Type} (r r' : Except Err α) : Prop := r = r' ∨ r = .error .mapping

theorem seqParse_looser {step step' : Nat → PRes} (hs : ∀ off, SameOrRejected (step off) (step' off)) (len : Nat)
    (num ds : Option Int) (term : Option Lit) (fuel off used index : Nat) (last : Val) :
    SameOrRejected (seqParse step len num ds term fuel off used index last)
      (seqParse step' len num ds term fuel off used index last) := by
  induction fuel generalizing off used index last with
  | zero => exact .inl rfl
  | succ fuel ih =>
    simp only [seqParse]
    split
    · exact .inl rfl
    · rcases hs off with h | h
      · rw [h]
        cases step' off with
        | error e => exact .inl rfl
        | ok x =>
          obtain ⟨v, n⟩ := x
          simp only
          cases atTerm term v with
          | true => exact .inl rfl
          | false =>
            simp only [Bool.false_eq_true, if_false]
            rcases ih (off + n) (used + n) (index + 1) v with h | h
            · rw [h]; exact .inl rfl
            · rw [h]; exact .inr rfl
      · rw [h]; exact .inr rfl

theorem linearStruct_looser (E : Env) (h : Hdr) (b : Option Int) (op : Option Op) (i : Bool) {infos infos' : List MemInfo}
    (hi : LooserInfos infos infos') (maps : List DMap) (bs : Bytes) (off : Nat) :
    SameOrRejected (linearStructParse E h b op i infos maps bs off) (linearStructParse E h b op i infos' maps bs off) := by
  unfold linearStructParse
  rw [hi.names]
  cases b with
  | none => exact .inl rfl
  | some n =>
    simp only
    split
    · exact .inl rfl
    · cases op.bind fun op => op.readFrom E (bs.drop off) with
      | none => exact .inl rfl
      | some vs =>
        simp only
        rcases linearValues_looser hi maps vs with h | h
        · rw [h]; exact .inl rfl
        · rw [h]; exact .inr rfl

theorem missing_looser {m m' : Option DMap} (h : LooserOpt m m') : groupMapMissing m = groupMapMissing m' := by
  cases h with
  | none => rfl
  | some h => cases h <;> rfl

theorem nthMissing_looser : ∀ {ms ms' : List DMap}, LooserMaps ms ms' → ∀ i : Nat,
    groupMapMissing ms[i]? = groupMapMissing ms'[i]?
  | _, _, .nil, _ => rfl
  | _, _, .cons h _, 0 => by cases h <;> rfl
  | _, _, .cons _ t, i + 1 => by simpa using nthMissing_looser t i

mutual
/-- A map reads what a looser one reads, or rejects it. -/
theorem parse_looser (E : Env) : ∀ {m m' : DMap}, Looser m m' → ∀ bs off depth ns,
    SameOrRejected (parse E m bs off depth ns) (parse E m' bs off depth ns)
  | _, _, .same m, _, _, _, _ => .inl rfl
  | _, _, .seq (h := h) (info := info) (ei := ei) (b := b) (e := e) (e' := e') he hl, bs, off, depth, ns => by
    have hs : ∀ off, SameOrRejected (parse E e bs off (depth + 1) []) (parse E e' bs off (depth + 1) []) :=
      fun off => parse_looser E he bs off (depth + 1) []
    simp only [parse]
    cases info.kind with
    | stream => exact .inl rfl
    | string enc => exact .inl rfl
    | sequence =>
      simp only
      by_cases h1 : seqLinear info ei = true
      · cases hl h1; exact .inl rfl
      · rw [if_neg h1, if_neg h1, compositeSeqParse, compositeSeqParse]
        split
        · exact .inl rfl
        · rcases (seqRules E info ei ns).1 with x | ⟨ds, term, num⟩
          · exact .inl rfl
          · simp only
            rcases seqParse_looser hs bs.length num ds term (seqFuel bs.length off num 0) off 0 0 .pyNone with h | h
            · rw [h]; exact .inl rfl
            · rw [h]; exact .inr rfl
  | _, _, .struct (h := h) (b := b) (l := l) (i := i) (infos := infos) (infos' := infos') (maps := maps) (maps' := maps') hi hm hl, bs, off, depth, ns => by
    have h1 := fun off used attrs => members_looser E hm hi h.name bs depth ns off used attrs
    have h2 := hi.names
    have h3 := hi.length
    simp only [parse]
    cases l with
    | true =>
      cases hl rfl
      have : (DMap.struct h b true i infos maps).op = (DMap.struct h b true i infos' maps).op := by
        simp only [DMap.op, DMap.operation, DMap.orderStr, DMap.fmt]
      rw [if_pos rfl, if_pos rfl, this]
      exact linearStruct_looser E h b _ i hi maps bs off
    | false =>
      rw [if_neg Bool.false_ne_true, if_neg Bool.false_ne_true]
      split
      · exact .inl rfl
      · split
        · exact .inl rfl
        · rw [h2, h3]
          split
          · exact .inl rfl
          · rcases h1 off 0 (newInstance (infos.map (·.name))) with h | h
            · rw [h]; exact .inl rfl
            · rw [h]; exact .inr rfl
  | _, _, .group (h := h) (ident := ident) (base := base) (base' := base') (keys := keys) hb hd hm, bs, off, depth, ns => by
    have h1 := parse_looser E hb bs off depth []
    have h2 := fun i => nth_looser E hm i bs off depth
    have h3 := opt_looser E hd bs off depth
    simp only [parse]
    rcases h1 with h1 | h1
    · rw [h1]
      rcases parse E base' bs off depth [] with x | ⟨v, n⟩
      · exact .inl rfl
      · simp only
        cases getAttr v ident with
        | pyNone => exact .inl rfl
        | _ =>
          simp only
          rw [missing_looser hd]
          split
          · rename_i i _
            rw [nthMissing_looser hm]
            split
            · exact .inl rfl
            · rcases h2 i with h | h
              · rw [h]; exact .inl rfl
              · rw [h]; exact .inr rfl
          · split
            · exact .inl rfl
            · rcases h3 with h | h
              · rw [h]; exact .inl rfl
              · rw [h]; exact .inr rfl
    · rw [h1]; exact .inr rfl
theorem nth_looser (E : Env) : ∀ {ms ms' : List DMap}, LooserMaps ms ms' → ∀ i bs off depth,
    SameOrRejected (parseNth E ms i bs off depth) (parseNth E ms' i bs off depth)
  | _, _, .nil, _, _, _, _ => .inl rfl
  | _, _, .cons h t, i, bs, off, depth => by
    cases i with
    | zero => exact parse_looser E h bs off depth []
    | succ i => exact nth_looser E t i bs off depth
theorem opt_looser (E : Env) : ∀ {m m' : Option DMap}, LooserOpt m m' → ∀ bs off depth,
    SameOrRejected (parseOpt E m bs off depth) (parseOpt E m' bs off depth)
  | _, _, .none, _, _, _ => .inl rfl
  | _, _, .some h, bs, off, depth => parse_looser E h bs off depth []
theorem members_looser (E : Env) : ∀ {ms ms' : List DMap}, LooserMaps ms ms' → ∀ {is is' : List MemInfo},
    LooserInfos is is' → ∀ cls bs depth outer off used attrs,
    SameOrRejected (parseMembers E cls bs depth outer is ms off used attrs)
      (parseMembers E cls bs depth outer is' ms' off used attrs)
  | _, _, .nil, _, _, _, _, _, _, _, _, _, _ => .inl rfl
  | _, _, .cons h t, _, _, .nil, _, _, _, _, _, _, _ => .inl rfl
  | _, _, .cons (m' := m') h t, _, _, .cons (i := i) (i' := i') hi ti, cls, bs, depth, outer, off, used, attrs => by
    have h1 := fun ns => parse_looser E h bs off (depth + 1) ns
    have h2 := fun off used attrs => members_looser E t ti cls bs depth outer off used attrs
    have hc : evalCondition E i' = evalCondition E i := by
      funext ns; simp only [evalCondition, hi.2.1]
    rw [parseMembers.eq_def, parseMembers.eq_def]
    simp only
    rw [hc]
    cases evalCondition E i (structNs cls attrs outer) with
    | error x => exact .inl rfl
    | ok c =>
      cases c with
      | false => exact h2 ..
      | true =>
        simp only
        rcases h1 (structNs cls attrs outer) with h | h
        · rw [h]
          rcases parse E m' bs off (depth + 1) (structNs cls attrs outer) with x | ⟨v, n⟩
          · exact .inl rfl
          · simp only
            cases hv : valueOk i v with
            | false => exact .inr rfl
            | true =>
              rw [valueOk_looser hi hv, hi.1]
              exact h2 ..
        · rw [h]; exact .inr rfl
end

/-! ### Folding -/

mutual
/-- They write the same. -/
theorem fold_looser (E : Env) : ∀ {m m' : DMap}, Looser m m' → ∀ v ns, fold E m v ns = fold E m' v ns
  | _, _, .same m, _, _ => rfl
  | _, _, .seq (info := info) (ei := ei) he hl, v, ns => by
    simp only [fold]
    cases info.kind with
    | sequence =>
      simp only
      by_cases h1 : seqLinear info ei = true
      · cases hl h1; rfl
      · rw [if_neg h1, if_neg h1]
    | _ => rfl
  | _, _, .struct (h := h) (b := b) (l := l) (i := i) (infos := infos) (infos' := infos') (maps := maps) hi hm hl, v, ns => by
    have h1 := foldMembers_looser E hm hi v
    simp only [fold, h1, hi.names]
    cases l with
    | true =>
      cases hl rfl
      have : (DMap.struct h b true i infos maps).op = (DMap.struct h b true i infos' maps).op := by
        simp only [DMap.op, DMap.operation, DMap.orderStr, DMap.fmt]
      rw [this]
    | false => rfl
  | _, _, .group _ _ _, _, _ => by simp only [fold]
theorem foldMembers_looser (E : Env) : ∀ {ms ms' : List DMap}, LooserMaps ms ms' → ∀ {is is' : List MemInfo},
    LooserInfos is is' → ∀ v, foldMembers E v is ms = foldMembers E v is' ms'
  | _, _, .nil, _, _, _, _ => rfl
  | _, _, .cons _ _, _, _, .nil, _ => rfl
  | _, _, .cons h t, _, _, .cons hi ti, v => by
    have h1 := fold_looser E h
    have h2 := foldMembers_looser E t ti v
    rw [foldMembers.eq_def, foldMembers.eq_def]
    simp only [hi.1, h2]
    cases h with
    | same m => rfl
    | _ => simp only [h1]
end

/-! ### Creating maps -/

inductive LooserOutcome : Except Err DMap → Except Err DMap → Prop
  | ok {m m' : DMap} (h : Looser m m') : LooserOutcome (.ok m) (.ok m')
  | error (x : Err) : LooserOutcome (.error x) (.error x)

inductive LooserMembers : Except Err (List MemInfo × List DMap) → Except Err (List MemInfo × List DMap) → Prop
  | ok {is is' ms ms'} (hi : LooserInfos is is') (hm : LooserMaps ms ms') : LooserMembers (.ok (is, ms)) (.ok (is', ms'))
  | error (x : Err) : LooserMembers (.error x) (.error x)

theorem LooserMaps.replicate {m m' : DMap} (h : Looser m m') : ∀ n : Nat,
    LooserMaps (List.replicate n m) (List.replicate n m')
  | 0 => .nil
  | n + 1 => .cons h (LooserMaps.replicate h n)

theorem LooserMaps.append : ∀ {ms ms' ns ns' : List DMap}, LooserMaps ms ms' → LooserMaps ns ns' →
    LooserMaps (ms ++ ns) (ms' ++ ns')
  | _, _, _, _, .nil, h => h
  | _, _, _, _, .cons h t, h' => .cons h (LooserMaps.append t h')

theorem simple_loosened (E : Env) {d d' : Defn} (hc : d.isComposite = false) (h : Loosened d d') (n : String) (o : Order) :
    createAs E n o d = createAs E n o d' := by
  cases h with
  | same => rfl
  | member => simp only [createAs]
  | _ => cases hc

theorem memberNameOrder_loosened (sname : String) (so : Order) {d d' : Defn} (h : Loosened d d') :
    memberNameOrder sname so d' = memberNameOrder sname so d := by
  simp only [memberNameOrder, h.order, h.orderOrNative, h.name]

theorem memInfo_loosened {d d' : Defn} (h : Loosened d d') : LooserInfo d.memInfo d'.memInfo := by
  cases h with
  | same => exact ⟨rfl, rfl, .refl _⟩
  | member h c t hd hv => exact ⟨rfl, rfl, hv⟩
  | _ => exact ⟨rfl, rfl, .refl _⟩

/-- The statement about one definition. -/
def LoosenOk (E : Env) (d : Defn) : Prop :=
  ∀ d', Loosened d d' → d.Every TypesDistinct → d'.Every TypesDistinct → ∀ nm o,
    LooserOutcome (createAs E nm o d) (createAs E nm o d')

theorem plainMembers_loosened (E : Env) (sname : String) (so : Order) {ds ds' : List Defn} (h : LoosenedAll ds ds')
    (hok : ∀ d ∈ ds, LoosenOk E d.target) (hev : ∀ d ∈ ds, d.Every TypesDistinct) (hev' : ∀ d ∈ ds', d.Every TypesDistinct) :
    LooserMembers (plainMembers E sname so ds) (plainMembers E sname so ds') ∧
      ((∀ d ∈ ds, d.target.isComposite = false) → ∀ r r', plainMembers E sname so ds = .ok r →
        plainMembers E sname so ds' = .ok r' → r.2 = r'.2) := by
  induction ds generalizing ds' with
  | nil => cases h; exact ⟨.ok .nil .nil, fun _ r r' h h' => by cases h; cases h'; rfl⟩
  | cons d ds ih =>
    cases h with
    | @cons _ d' _ ds' h t =>
      obtain ⟨ih1, ih2⟩ := ih t (fun d h => hok d (List.mem_cons_of_mem _ h)) (fun d h => hev d (List.mem_cons_of_mem _ h))
        (fun d h => hev' d (List.mem_cons_of_mem _ h))
      rw [plainMembers, plainMembers, memberNameOrder_loosened sname so h.target]
      rcases memberNameOrder sname so d.target with x | ⟨n, o⟩
      · exact ⟨.error x, fun _ r r' h => by cases h⟩
      · simp only
        have hm := hok d List.mem_cons_self _ h.target (hev d List.mem_cons_self).target
          (hev' d' List.mem_cons_self).target n o
        have hsim : d.target.isComposite = false → createAs E n o d.target = createAs E n o d'.target :=
          fun hc => simple_loosened E hc h.target n o
        generalize createAs E n o d.target = r at hm hsim ⊢
        generalize createAs E n o d'.target = r' at hm hsim ⊢
        cases hm with
        | error x => exact ⟨.error x, fun _ r r' h => by cases h⟩
        | @ok m m' hm =>
          simp only
          generalize plainMembers E sname so ds = q at ih1 ih2 ⊢
          generalize plainMembers E sname so ds' = q' at ih1 ih2 ⊢
          cases ih1 with
          | error x => exact ⟨.error x, fun _ r r' h => by cases h⟩
          | ok hi hms =>
            refine ⟨.ok (.cons (memInfo_loosened h) hi) (.cons hm hms), fun hc r r' h1 h2 => ?_⟩
            cases h1
            cases h2
            have h3 := hsim (hc d List.mem_cons_self)
            have h4 := ih2 (fun d h => hc d (List.mem_cons_of_mem _ h)) _ _ rfl rfl
            simp only at h4 ⊢
            cases h3
            rw [h4]

theorem createOwn_loosened {E : Env} {d d' : Defn} (hok : LoosenOk E d) (h : Loosened d d')
    (hev : d.Every TypesDistinct) (hev' : d'.Every TypesDistinct) :
    LooserOutcome (createAs E d.name d.orderOrNative d) (createAs E d'.name d'.orderOrNative d') := by
  rw [h.name, h.orderOrNative]
  exact hok d' h hev hev' _ _

theorem createGroup_loosened (E : Env) (ident : String) {gs gs' : List Defn} (h : LoosenedAll gs gs')
    (hi : gs'.map (valuesFor ident) = gs.map (valuesFor ident)) (hok : ∀ d ∈ gs, LoosenOk E d)
    (hev : ∀ d ∈ gs, d.Every TypesDistinct) (hev' : ∀ d ∈ gs', d.Every TypesDistinct) (keys : List Lit) :
    (∃ x, createGroup E ident keys gs = .error x ∧ createGroup E ident keys gs' = .error x) ∨
    ∃ ks maps maps', createGroup E ident keys gs = .ok (ks, maps) ∧
      createGroup E ident keys gs' = .ok (ks, maps') ∧ LooserMaps maps maps' := by
  induction gs generalizing gs' keys with
  | nil => cases h; exact .inr ⟨_, _, _, rfl, rfl, .nil⟩
  | cons g gs ih =>
    cases h with
    | @cons _ g' _ gs' h t =>
      simp only [List.map_cons, List.cons.injEq] at hi
      have ih := ih t hi.2 (fun d h => hok d (List.mem_cons_of_mem _ h)) (fun d h => hev d (List.mem_cons_of_mem _ h))
        (fun d h => hev' d (List.mem_cons_of_mem _ h))
      rw [createGroup, createGroup, groupValues_loosened ident h hi.1]
      cases groupValues ident g with
      | error x => exact .inl ⟨x, rfl, rfl⟩
      | ok vs =>
        cases vs with
        | nil => exact ih keys
        | cons v vs =>
          simp only
          cases addKeys keys [v] with
          | error x => exact .inl ⟨x, rfl, rfl⟩
          | ok _ =>
            have := createOwn_loosened (hok g List.mem_cons_self) h (hev g List.mem_cons_self)
              (hev' g' List.mem_cons_self)
            simp only
            generalize createAs E g.name g.orderOrNative g = r at this ⊢
            generalize createAs E g'.name g'.orderOrNative g' = r' at this ⊢
            cases this with
            | error x => exact .inl ⟨x, rfl, rfl⟩
            | ok hm =>
              simp only
              cases addKeys keys (v :: vs) with
              | error x => exact .inl ⟨x, rfl, rfl⟩
              | ok keys' =>
                simp only
                rcases ih keys' with ⟨x, h1, h2⟩ | ⟨ks, maps, maps', h1, h2, hs⟩
                · rw [h1, h2]; exact .inl ⟨x, rfl, rfl⟩
                · rw [h1, h2]
                  exact .inr ⟨_, _, _, rfl, rfl, (LooserMaps.replicate hm _).append hs⟩

theorem LooserOutcome.refl (r : Except Err DMap) : LooserOutcome r r := by
  cases r with
  | error x => exact .error x
  | ok m => exact .ok (.same m)

/-- The maps of a definition and a looser one. -/
theorem createAs_loosened (E : Env) (d : Defn) : LoosenOk E d ∧ LoosenOk E d.target := by
  have both : ∀ {d : Defn}, d.target = d → LoosenOk E d → LoosenOk E d ∧ LoosenOk E d.target := by
    intro d h hd; rw [h]; exact ⟨hd, hd⟩
  induction d using Defn.ind with
  | seq h info e ih =>
    refine both rfl fun d' hr hev hev' nm o => ?_
    cases hr with
    | same => exact .refl _
    | @seq _ _ _ e' he =>
      simp only [Defn.Every] at hev hev'
      have hb : (Defn.seq h info e').byteSize = (Defn.seq h info e).byteSize := (Loosened.seq h info he).size
      rw [createAs, createAs, he.order, he.composite, he.name, he.size, he.terminator, hb]
      cases e.order? with
      | none => exact .error _
      | some eo =>
        simp only
        have hm := fun n o => ih.1 e' he hev.2 hev'.2 n o
        have hsim := fun hc n o => simple_loosened E (d := e) hc he n o
        generalize (if (decide (o ≠ Order.native) && decide (eo = Order.native) && !e.isComposite) = true
          then "_" ++ nm ++ "_" ++ e.name else e.name) = n
        generalize (if (decide (o ≠ Order.native) && decide (eo = Order.native) && !e.isComposite) = true
          then o else eo) = o'
        have hm := hm n o'
        have hsim := fun hc => hsim hc n o'
        generalize createAs E n o' e = r at hm hsim ⊢
        generalize createAs E n o' e' = r' at hm hsim ⊢
        cases hm with
        | error x => exact .error x
        | @ok m m' hm =>
          simp only
          have hlin : seqLinear info ⟨e.byteSize, e.isComposite, e.terminator?⟩ = true → m = m' := by
            intro hl
            have : e.isComposite = false := by
              simp only [seqLinear, Bool.not_eq_true', Bool.or_eq_false_iff] at hl
              exact hl.1.1.1
            cases hsim this
            rfl
          have hs := fun h b => Looser.seq (h := h) (b := b) hm hlin
          unfold finishSeq
          split
          · exact .error _
          · cases info.kind with
            | sequence =>
              simp only
              split
              · rename_i hl
                cases hlin hl
                exact .refl _
              · exact .ok (hs _ _)
            | _ =>
              simp only
              split
              · exact .error _
              · exact .ok (hs _ _)
  | struct h ms ih =>
    refine both rfl fun d' hr hev hev' nm o => ?_
    cases hr with
    | same => exact .refl _
    | @struct _ _ ms' hm =>
      have hb : (Defn.struct h ms').byteSize = (Defn.struct h ms).byteSize := (Loosened.struct h hm).size
      simp only [Defn.Every] at hev hev'
      obtain ⟨hf, hev⟩ := hev
      obtain ⟨hf', hev'⟩ := hev'
      rw [everyDefn_iff] at hev hev'
      rw [createAs, createAs, createClass_loosened E nm h.description hm, hb, hm.linear,
        createMembers_plain E nm o ms hf ms (fun d h => h) [] (by simp),
        createMembers_plain E nm o ms' hf' ms' (fun d h => h) [] (by simp)]
      cases createClass E nm h.description ms with
      | error x => exact .error x
      | ok instOk =>
        simp only
        obtain ⟨h1, h2⟩ := plainMembers_loosened E nm o hm (fun d hd => (ih d hd).2) hev hev'
        generalize plainMembers E nm o ms = r at h1 h2 ⊢
        generalize plainMembers E nm o ms' = r' at h1 h2 ⊢
        cases h1 with
        | error x => exact .error x
        | @ok is is' maps maps' hi hm =>
          simp only
          cases hl : checkLinear o ms with
          | error x => exact .error x
          | ok linear =>
            simp only
            have hlin : linear = true → maps = maps' := by
              intro he
              subst he
              exact h2 (fun d hd => (checkLinear_true hl d hd).2.1) _ _ rfl rfl
            unfold finishStruct
            cases linear with
            | false => exact .ok (.struct hi hm hlin)
            | true =>
              cases hlin rfl
              have hop : ∀ h b, (DMap.struct h b true instOk is maps).operation =
                  (DMap.struct h b true instOk is' maps).operation := by
                intro h b; simp only [DMap.operation, DMap.orderStr, DMap.fmt]
              rw [if_pos rfl, if_pos rfl, hop]
              split
              · exact .error _
              · exact .ok (.struct hi hm hlin)
  | group h base ident dflt ms ihb ihd ihm =>
    refine both rfl fun d' hr hev hev' nm o => ?_
    cases hr with
    | same => exact .refl _
    | @group _ _ base' _ _ dflt' _ ms' hb hd hm hi =>
      simp only [Defn.Every] at hev hev'
      obtain ⟨-, eb, ed, em⟩ := hev
      obtain ⟨-, eb', ed', em'⟩ := hev'
      rw [everyDefn_iff] at em em'
      rw [everyOptDefn_iff] at ed ed'
      rw [createAs, createAs]
      have h1 : (∃ x, createOpt E dflt = .error x ∧ createOpt E dflt' = .error x) ∨
          ∃ m m', createOpt E dflt = .ok m ∧ createOpt E dflt' = .ok m' ∧ LooserOpt m m' := by
        cases hd with
        | none => exact .inr ⟨_, _, rfl, rfl, .none⟩
        | @some d d' h =>
          have := createOwn_loosened (ihd d rfl).1 h (ed d rfl) (ed' d' rfl)
          simp only [createOpt]
          generalize createAs E d.name d.orderOrNative d = r at this ⊢
          generalize createAs E d'.name d'.orderOrNative d' = r' at this ⊢
          cases this with
          | error x => exact .inl ⟨x, rfl, rfl⟩
          | ok hm => exact .inr ⟨_, _, rfl, rfl, .some hm⟩
      rcases h1 with ⟨x, h1, h2⟩ | ⟨dm, dm', h1, h2, hdm⟩
      · rw [h1, h2]; exact .error x
      · rw [h1, h2]
        simp only
        have := createOwn_loosened ihb.1 hb eb eb'
        generalize createAs E base.name base.orderOrNative base = r at this ⊢
        generalize createAs E base'.name base'.orderOrNative base' = r' at this ⊢
        cases this with
        | error x => exact .error x
        | ok hbm =>
          have hemp : ms'.isEmpty = ms.isEmpty := by cases hm <;> rfl
          simp only [hemp]
          split
          · exact .error _
          · rcases createGroup_loosened E ident hm hi (fun d hd => (ihm d hd).1) em em' [] with
              ⟨x, h1, h2⟩ | ⟨ks, maps, maps', h1, h2, hs⟩
            · rw [h1, h2]; exact .error x
            · rw [h1, h2]; exact .ok (.group hbm hdm hs)
  | member h d c dt vs ih =>
    refine ⟨?_, ih.1⟩
    intro d' hr _ _ nm o
    cases hr <;> (simp only [createAs]; exact .refl _)
  | _ =>
    refine both rfl fun d' hr _ _ nm o => ?_
    cases hr
    exact .refl _

end Dtf
