import Verif.Loosen
import Verif.Props.Complete
import Verif.Props.Expressions
import Verif.VariableMap
/-!
# Property C105: supported values only reject

`Loosened d d'` (module `Loosen`): `d'` allows members of structures more values than `d`, and is
otherwise the same.
-/
namespace Dtf
open Spec

/-- **C105** A definition maps every byte stream like one whose members may have more values, or
rejects it with a mapping error: what it maps, the other maps to the same value with the same size;
what the other maps or rejects, it maps or rejects in the same way, or with a mapping error. -/
theorem C105_mapped (E : Env) (d d' : Defn) (h : Loosened d d') (hd : d.Every TypesDistinct)
    (hd' : d'.Every TypesDistinct) {m m' : DMap} (hm : createMap E d = .ok m) (hm' : createMap E d' = .ok m')
    (bs : Bytes) (off depth : Nat) {c : Ctx} (hc : c.Clean) :
    (∀ v n, ((mapStream E m bs off depth c).1 = .ok v ∧ (mapStream E m bs off depth c).2.byteSize = some n) →
      (mapStream E m' bs off depth c).1 = .ok v ∧ (mapStream E m' bs off depth c).2.byteSize = some n) ∧
    (∀ v n, ((mapStream E m' bs off depth c).1 = .ok v ∧ (mapStream E m' bs off depth c).2.byteSize = some n) →
      ((mapStream E m bs off depth c).1 = .ok v ∧ (mapStream E m bs off depth c).2.byteSize = some n) ∨
        (mapStream E m bs off depth c).1 = .error .mapping) ∧
    ∀ e, (mapStream E m' bs off depth c).1 = .error e →
      (mapStream E m bs off depth c).1 = .error e ∨ (mapStream E m bs off depth c).1 = .error .mapping := by
  have hl := createOwn_loosened (createAs_loosened E d).1 h hd hd'
  rw [createMap] at hm hm'
  rw [hm, hm'] at hl
  cases hl with
  | ok hl =>
    have hp := parse_looser E hl bs off depth c.values
    simp only [mapped_iff hc, mapStream_error hc]
    rcases hp with hp | hp
    · rw [hp]
      exact ⟨fun _ _ h => h, fun _ _ h => .inl h, fun _ h => .inl h⟩
    · rw [hp]
      exact ⟨(fun _ _ h => nomatch h), fun _ _ _ => .inr rfl, fun _ _ => .inr rfl⟩

/-- A map can be created for one exactly if it can be for the other, and the errors are the same. -/
theorem C105_created (E : Env) (d d' : Defn) (h : Loosened d d') (hd : d.Every TypesDistinct)
    (hd' : d'.Every TypesDistinct) :
    ((∃ m, createMap E d = .ok m) ↔ ∃ m', createMap E d' = .ok m') ∧
      ∀ e, createMap E d = .error e ↔ createMap E d' = .error e := by
  have hl := createOwn_loosened (createAs_loosened E d).1 h hd hd'
  rw [createMap, createMap]
  generalize createAs E d.name d.orderOrNative d = r at hl ⊢
  generalize createAs E d'.name d'.orderOrNative d' = r' at hl ⊢
  cases hl with
  | error x => exact ⟨⟨fun ⟨_, h⟩ => (nomatch h), fun ⟨_, h⟩ => (nomatch h)⟩, fun _ => Iff.rfl⟩
  | ok h => exact ⟨⟨fun _ => ⟨_, rfl⟩, fun _ => ⟨_, rfl⟩⟩, fun _ => ⟨(fun h => nomatch h), (fun h => nomatch h)⟩⟩

/-- Supported values do not matter for folding. -/
theorem C105_folded (E : Env) (d d' : Defn) (h : Loosened d d') (hd : d.Every TypesDistinct)
    (hd' : d'.Every TypesDistinct) {m m' : DMap} (hm : createMap E d = .ok m) (hm' : createMap E d' = .ok m')
    (v : Val) (ns : Namespace) : fold E m' v ns = fold E m v ns := by
  have hl := createOwn_loosened (createAs_loosened E d).1 h hd hd'
  rw [createMap] at hm hm'
  rw [hm, hm'] at hl
  cases hl with
  | ok hl => exact (fold_looser E hl v ns).symm

mutual
theorem sizeHint_looser (E : Env) : ∀ {m m' : DMap}, Looser m m' → ∀ off ctx, sizeHint E m' off ctx = sizeHint E m off ctx
  | _, _, .same _, _, _ => rfl
  | _, _, .seq (e := e) (e' := e') he _, off, ctx => by
    have : (fun c => sizeHint E e' 0 c) = fun c => sizeHint E e 0 c := funext fun c => sizeHint_looser E he 0 c
    simp only [sizeHint, this]
  | _, _, .struct hi hm _, off, ctx => by simp only [sizeHint, hi.names, hintMembers_looser E hm]
  | _, _, .group (maps := ms) (maps' := ms') hb _ hm, off, ctx => by
    have : ∀ i, groupMapMissing ms'[i]? = groupMapMissing ms[i]? := fun i => (nthMissing_looser hm i).symm
    simp only [sizeHint, sizeHint_looser E hb, hintNth_looser E hm, this]
theorem hintNth_looser (E : Env) : ∀ {ms ms' : List DMap}, LooserMaps ms ms' → ∀ i off ctx,
    hintNth E ms' i off ctx = hintNth E ms i off ctx
  | _, _, .nil, _, _, _ => rfl
  | _, _, .cons h t, i, off, ctx => by
    cases i with
    | zero => simp only [hintNth, sizeHint_looser E h]
    | succ i => simp only [hintNth, hintNth_looser E t]
theorem hintMembers_looser (E : Env) : ∀ {ms ms' : List DMap}, LooserMaps ms ms' → ∀ skip total sub,
    hintMembers E ms' skip total sub = hintMembers E ms skip total sub
  | _, _, .nil, _, _, _ => rfl
  | _, _, .cons h t, skip, total, sub => by
    cases skip with
    | zero => simp only [hintMembers, sizeHint_looser E h, hintMembers_looser E t]
    | succ skip => simp only [hintMembers, hintMembers_looser E t]
end

/-- **C105** Supported values do not matter for size hints, whatever the context. -/
theorem C105_hints (E : Env) (d d' : Defn) (h : Loosened d d') (hd : d.Every TypesDistinct)
    (hd' : d'.Every TypesDistinct) {m m' : DMap} (hm : createMap E d = .ok m) (hm' : createMap E d' = .ok m')
    (c : Ctx) : getSizeHint E m' c = getSizeHint E m c := by
  have hl := createOwn_loosened (createAs_loosened E d).1 h hd hd'
  rw [createMap] at hm hm'
  rw [hm, hm'] at hl
  cases hl with
  | ok hl =>
    rw [getSizeHint, getSizeHint, sizeHint_looser E hl]
    congr 2
    cases hl <;> rfl

/-! ### Nothing else is rejected -/

namespace Spec

/-- A member without its supported values. -/
def anyValue : Defn → Defn
  | .member h d c t _ => .member h d c t none
  | d => d

/-- A type of which no value is `None`. -/
def Graspable : Defn → Prop
  | .uuid _ _ _ | .group _ _ _ _ _ => False
  | _ => True

end Spec

theorem mapValue_present {k : PrimKind} {v x : Val} (hv : v ≠ .pyNone) (h : mapValue k v = some x) : x ≠ .pyNone := by
  cases k with
  | boolean a b =>
    have key : ∀ (p q r t : Bool),
        (if p = true then some (Val.bool false) else if q = true then some (.bool true)
          else if r = true then some (.bool false) else if t = true then some (.bool true) else none) = some x →
        x ≠ .pyNone := by
      intro p q r t h
      cases p <;> cases q <;> cases r <;> cases t <;> cases h <;> exact fun h => nomatch h
    exact key _ _ _ _ h
  | character =>
    simp only [mapValue] at h
    split at h
    · split at h
      · cases h; exact fun h => nomatch h
      · cases h
    · cases h
  | floatingPoint => cases h; exact hv
  | integer s => cases h; exact hv

/-- A map of which no value is `None`. -/
def NoNone (m : DMap) : Prop := (∀ h s u, m ≠ .uuid h s u) ∧ ∀ h i b d k ms, m ≠ .group h i b d k ms

theorem parse_present {E : Env} {m : DMap} {bs : Bytes} {off depth : Nat} {ns : Namespace} {v : Val} {n : Nat}
    (hm : NoNone m) (h : parse E m bs off depth ns = .ok (v, n)) : v ≠ .pyNone := by
  cases m with
  | missing => cases h
  | prim hd k s u =>
    simp only [parse, primParse] at h
    split at h
    · cases h
    · split at h
      · cases h
      · split at h
        · cases h
        · rename_i x hx
          cases h
          unfold primRead at hx
          split at hx
          · cases hx
          · split at hx
            · cases hx
            · exact mapValue_present (unpackOne_ne _ _ _ _) hx
  | uuid hd s u => exact absurd rfl (hm.1 hd s u)
  | padding hd a =>
    simp only [parse, paddingParse] at h
    split at h
    · cases h
    · split at h
      · cases h
      · cases h; exact fun h => nomatch h
  | seq hd info ei b e =>
    simp only [parse] at h
    split at h
    · split at h
      · cases h
      · cases h; exact fun h => nomatch h
    · unfold stringParse at h
      split at h
      · cases h
      · split at h
        · cases h
        · split at h
          · cases h
          · cases h; exact fun h => nomatch h
    · split at h
      · unfold linearSeqParse at h
        split at h
        · cases h
        · split at h
          · cases h
          · split at h
            · cases h
            · split at h
              · split at h
                · cases h
                · cases h; exact fun h => nomatch h
              · cases h
      · unfold compositeSeqParse at h
        split at h
        · cases h
        · split at h
          · cases h
          · split at h
            · cases h
            · cases h; exact fun h => nomatch h
  | struct hd b l i infos maps =>
    simp only [parse] at h
    split at h
    · unfold linearStructParse at h
      split at h
      · cases h
      · split at h
        · cases h
        · split at h
          · cases h
          · split at h
            · cases h
            · split at h
              · cases h
              · split at h
                · cases h; exact fun h => nomatch h
                · cases h
    · split at h
      · cases h
      · split at h
        · cases h
        · split at h
          · cases h
          · split at h
            · cases h
            · cases h; exact fun h => nomatch h
  | constant _ => cases h
  | enumeration _ _ => cases h
  | format _ _ => cases h
  | group hd i b d k ms => exact absurd rfl (hm.2 hd i b d k ms)

/-- What the values of the whole structure must be. -/
def MemberFits (attrs : List (String × Val)) (i : MemInfo) : Prop :=
  ∀ v, nsGet attrs i.name = some v → valueOk i v = true ∨ (v = .pyNone ∧ i.values ≠ none)

theorem members_keep {E : Env} {cls : String} {bs : Bytes} {depth : Nat} {outer : Namespace} {is : List MemInfo}
    {maps : List DMap} {off used : Nat} {attrs attrs' : List (String × Val)} {n : Nat}
    (h : parseMembers E cls bs depth outer is maps off used attrs = .ok (attrs', n)) {k : String}
    (hk : k ∉ is.map (·.name)) : nsGet attrs' k = nsGet attrs k := by
  induction maps generalizing is off used attrs with
  | nil => rw [parseMembers.eq_def] at h; cases h; rfl
  | cons m maps ih =>
    rw [parseMembers.eq_def] at h
    cases is with
    | nil => cases h; rfl
    | cons i is =>
      simp only [List.map_cons, List.mem_cons, not_or] at hk
      simp only at h
      split at h
      · cases h
      · exact ih h hk.2
      · split at h
        · cases h
        · split at h
          · cases h
          · rw [ih h hk.2, setAttr, nsGet_nsSet_ne hk.1]

theorem members_exact {E : Env} {cls : String} {bs : Bytes} {depth : Nat} {outer : Namespace} {ds : List Defn}
    {maps : List DMap} (hm : All2 (fun d m => d.memInfo.values ≠ none → NoNone m) ds maps)
    (hnd : (ds.map Defn.name).Nodup) {off used : Nat} {attrs attrs' : List (String × Val)} {n : Nat}
    (h : parseMembers E cls bs depth outer ((ds.map anyValue).map Defn.memInfo) maps off used attrs = .ok (attrs', n))
    (hf : ∀ d ∈ ds, MemberFits attrs' d.memInfo) :
    parseMembers E cls bs depth outer (ds.map Defn.memInfo) maps off used attrs = .ok (attrs', n) := by
  have hany : ∀ d : Defn, (anyValue d).memInfo.name = d.memInfo.name ∧
      (anyValue d).memInfo.condition = d.memInfo.condition ∧ (anyValue d).memInfo.values = none := by
    intro d; cases d <;> exact ⟨rfl, rfl, rfl⟩
  induction hm generalizing off used attrs with
  | nil => exact h
  | @cons d m ds maps hdm hm ih =>
    obtain ⟨hn, hcond, hvals⟩ := hany d
    simp only [List.map_cons, List.nodup_cons] at hnd h ⊢
    rw [parseMembers.eq_def] at h ⊢
    simp only at h ⊢
    have hc : evalCondition E (anyValue d).memInfo = evalCondition E d.memInfo := by
      funext ns; simp only [evalCondition, hcond]
    rw [hc] at h
    cases hev : evalCondition E d.memInfo (structNs cls attrs outer) with
    | error x => rw [hev] at h; cases h
    | ok b =>
      rw [hev] at h
      cases b with
      | false => exact ih hnd.2 h fun d hd => hf d (List.mem_cons_of_mem _ hd)
      | true =>
        simp only at h ⊢
        cases hp : parse E m bs off (depth + 1) (structNs cls attrs outer) with
        | error x => rw [hp] at h; cases h
        | ok r =>
          obtain ⟨v, k⟩ := r
          rw [hp] at h
          simp only at h ⊢
          have hok' : valueOk (anyValue d).memInfo v = true := by simp only [valueOk, hvals]
          rw [hok', hn] at h
          simp only [Bool.not_true, Bool.false_eq_true, if_false] at h
          have hkeep := members_keep h (k := d.memInfo.name) (by
            intro hx
            apply hnd.1
            simp only [List.map_map, List.mem_map, Function.comp] at hx ⊢
            obtain ⟨x, hx, he⟩ := hx
            rw [(hany x).1, memInfo_name, memInfo_name] at he
            exact ⟨x, hx, he⟩)
          rw [setAttr, nsGet_nsSet_self] at hkeep
          have hok : valueOk d.memInfo v = true := by
            rcases hf d List.mem_cons_self v hkeep with h | ⟨h1, h2⟩
            · exact h
            · exact absurd h1 (parse_present (hdm h2) hp)
          rw [hok]
          simp only [Bool.not_true, Bool.false_eq_true, if_false]
          exact ih hnd.2 h fun d hd => hf d (List.mem_cons_of_mem _ hd)

theorem linear_exact {ds : List Defn} {maps : List DMap} {vs xs : List Val} (hv : ∀ v ∈ vs, v ≠ .pyNone)
    (hnd : (ds.map Defn.name).Nodup) (h : linearValues ((ds.map anyValue).map Defn.memInfo) maps vs = some xs)
    (hf : ∀ d ∈ ds, MemberFits (fill (ds.map Defn.name) xs) d.memInfo) :
    linearValues (ds.map Defn.memInfo) maps vs = some xs := by
  induction ds generalizing maps vs xs with
  | nil => exact h
  | cons d ds ih =>
    cases vs with
    | nil => simpa only [List.map_cons, linearValues] using h
    | cons v vs =>
      cases maps with
      | nil => cases h
      | cons m maps =>
        cases m with
        | prim hd k s u =>
          simp only [List.map_cons, linearValues] at h ⊢
          simp only [List.map_cons, List.nodup_cons] at hnd
          cases hx : mapValue k v with
          | none => rw [hx] at h; cases h
          | some x =>
            rw [hx] at h
            have hok' : valueOk (anyValue d).memInfo x = true := by cases d <;> rfl
            simp only [hok', if_true] at h ⊢
            rw [Option.map_eq_some_iff] at h
            obtain ⟨ys, hy, rfl⟩ := h
            have hd0 := hf d List.mem_cons_self x (by
              simp only [List.map_cons, fill, memInfo_name, nsGet, List.find?_cons, beq_self_eq_true, Option.map_some])
            have hok : valueOk d.memInfo x = true := by
              rcases hd0 with h | ⟨h1, -⟩
              · exact h
              · exact absurd h1 (mapValue_present (hv v List.mem_cons_self) hx)
            rw [hok, ih (fun v h => hv v (List.mem_cons_of_mem _ h)) hnd.2 hy fun e he w hw => ?_]
            · rfl
            · refine hf e (List.mem_cons_of_mem _ he) w ?_
              simp only [List.map_cons, fill, nsGet]
              rw [List.find?_cons_of_neg]
              · exact hw
              · rw [memInfo_name]
                intro hq
                apply hnd.1
                have hq : d.name = e.name := beq_iff_eq.mp hq
                rw [hq]
                exact List.mem_map_of_mem he
        | _ => cases h

theorem createMembers_any (E : Env) (sname : String) (so : Order) (ds : List Defn) (cache : List (String × DMap)) :
    createMembers E sname so cache (ds.map anyValue) =
      match createMembers E sname so cache ds with
      | .error x => .error x
      | .ok (_, maps) => .ok ((ds.map anyValue).map Defn.memInfo, maps) := by
  induction ds generalizing cache with
  | nil => rfl
  | cons d ds ih =>
    have ht : (anyValue d).target = d.target := by cases d <;> rfl
    rw [List.map_cons, createMembers_cons, createMembers_cons, ht]
    rcases memberNameOrder sname so d.target with x | ⟨n, o⟩
    · rfl
    · simp only
      cases cache.find? (·.1 == n) with
      | some p =>
        simp only [ih]
        rcases createMembers E sname so ((n, p.2) :: cache) ds with x | ⟨is, ms⟩ <;> rfl
      | none =>
        simp only
        cases createAs E n o d.target with
        | error x => rfl
        | ok m =>
          simp only [ih]
          rcases createMembers E sname so ((n, m) :: cache) ds with x | ⟨is, ms⟩ <;> rfl

theorem loosened_any : ∀ ms : List Defn, LoosenedAll ms (ms.map anyValue)
  | [] => .nil
  | d :: ms => by
    refine .cons ?_ (loosened_any ms)
    cases d <;> first | exact .same _ | exact .member _ _ _ (.same _) (.all _)

theorem infos_any : ∀ ms : List Defn, LooserInfos (ms.map Defn.memInfo) ((ms.map anyValue).map Defn.memInfo)
  | [] => .nil
  | d :: ms => by
    refine .cons ?_ (infos_any ms)
    cases d <;> exact ⟨rfl, rfl, .all _⟩

theorem LooserMaps.refl : ∀ maps : List DMap, LooserMaps maps maps
  | [] => .nil
  | m :: maps => .cons (.same m) (LooserMaps.refl maps)

theorem args_length {ns : List String} {xs : List Val} {attrs : List (String × Val)}
    (h : newInstanceArgs ns xs = some attrs) : xs.length ≤ ns.length := by
  induction xs generalizing ns attrs with
  | nil => exact Nat.zero_le _
  | cons x xs ih =>
    cases ns with
    | nil => cases h
    | cons n ns =>
      rw [newInstanceArgs, Option.map_eq_some_iff] at h
      obtain ⟨a, ha, -⟩ := h
      exact Nat.succ_le_succ (ih ha)

theorem noNone_created {E : Env} {n : String} {o : Order} {d : Defn} {m : DMap} (hd : Graspable d)
    (h : createAs E n o d = .ok m) : NoNone m := by
  cases d with
  | uuid => cases hd
  | group => cases hd
  | seq hd info e =>
    obtain ⟨-, -, -, -, -, rfl, -⟩ := createAs_seq h
    exact ⟨(fun _ _ _ h => nomatch h), (fun _ _ _ _ _ _ h => nomatch h)⟩
  | struct hd ms =>
    obtain ⟨-, -, -, -, -, -, -, rfl, -⟩ := createAs_struct h
    exact ⟨(fun _ _ _ h => nomatch h), (fun _ _ _ _ _ _ h => nomatch h)⟩
  | prim hd k s u =>
    simp only [createAs] at h
    split at h
    · cases h
    · cases h
      exact ⟨(fun _ _ _ h => nomatch h), (fun _ _ _ _ _ _ h => nomatch h)⟩
  | _ =>
    simp only [createAs] at h
    cases h
    exact ⟨(fun _ _ _ h => nomatch h), (fun _ _ _ _ _ _ h => nomatch h)⟩

theorem never_none {E : Env} {nm : String} {o : Order} {ms : List Defn} {maps : List DMap}
    (hmo : All2 (MapOf E nm o) ms maps) (hnn : ∀ d ∈ ms, d.memInfo.values ≠ none → Graspable d.target) :
    All2 (fun d m => d.memInfo.values ≠ none → NoNone m) ms maps := by
  induction hmo with
  | nil => exact .nil
  | @cons d m ms maps hdm hmo ih =>
    refine .cons (fun hv => ?_) (ih fun d hd => hnn d (List.mem_cons_of_mem _ hd))
    obtain ⟨n, o, -, hcr⟩ := hdm
    exact noNone_created (hnn d List.mem_cons_self hv) hcr

/-- A structure maps a byte stream to a value exactly if it does without the supported values of
its members, and every member has one of its supported values, or has a condition and is absent. -/
theorem C105_exact (E : Env) (nm : String) (o : Order) (h : Hdr) (ms : List Defn) (hdt : DistinctTypes ms)
    (hnn : ∀ d ∈ ms, d.memInfo.values ≠ none → Graspable d.target) {m m' : DMap}
    (hm : createAs E nm o (.struct h ms) = .ok m) (hm' : createAs E nm o (.struct h (ms.map anyValue)) = .ok m')
    (bs : Bytes) (off depth : Nat) {c : Ctx} (hc : c.Clean) (v : Val) (n : Nat) :
    ((mapStream E m bs off depth c).1 = .ok v ∧ (mapStream E m bs off depth c).2.byteSize = some n) ↔
      ((mapStream E m' bs off depth c).1 = .ok v ∧ (mapStream E m' bs off depth c).2.byteSize = some n) ∧
        ∀ d ∈ ms, ∀ vals, d.memInfo.values = some vals → vals ≠ [] →
          (∃ x ∈ vals, Equals (getAttr v d.name) x) ∨
            (getAttr v d.name = .pyNone ∧ ∃ cond, d.memInfo.condition = some cond ∧ cond ≠ "") := by
  have hm0 := hm
  have hlo := loosened_any ms
  obtain ⟨io, infos, maps, l, hcls, hmem, hlin, rfl, -⟩ := createAs_struct hm
  obtain ⟨io', infos', maps', l', hcls', hmem', hlin', rfl, -⟩ := createAs_struct hm'
  rw [createClass_loosened E nm h.description hlo, hcls] at hcls'
  rw [hlo.linear, hlin] at hlin'
  rw [createMembers_any, hmem] at hmem'
  cases hcls'
  cases hlin'
  cases hmem'
  rw [(Loosened.struct h hlo).size]
  have hall := (createMembers_all E nm o (fun _ => True) ms
    (fun _ _ _ _ _ _ => trivial) [] (by simp) _ _ hmem)
  obtain ⟨rfl, hlen, -⟩ := hall
  have hnd := (createClass_nodup hcls).1
  have hmo := createMembers_mapOf E nm o ms hdt ms (fun d hd => hd) [] (by simp) _ _ hmem
  have hnames : (ms.map Defn.memInfo).map (·.name) = ms.map Defn.name := by simp [memInfo_name]
  have hinfos := infos_any ms
  constructor
  · intro hx
    refine ⟨?_, fun d hd vals hv hne => C19_supported E nm o h ms _ hm0 bs off depth c hc v hx.1 d hd vals hv hne⟩
    rw [mapped_iff hc] at hx ⊢
    rcases parse_looser E (Looser.struct hinfos (LooserMaps.refl maps) fun _ => rfl) bs off depth c.values with hp | hp
    · rw [← hp]; exact hx
    · rw [hp] at hx; cases hx
  · rintro ⟨hx, hs⟩
    rw [mapped_iff hc] at hx ⊢
    have hfit : ∀ cls attrs, v = .struct cls attrs → ∀ d ∈ ms, MemberFits attrs d.memInfo := by
      intro cls attrs hv d hd w hw
      subst hv
      rw [memInfo_name] at hw
      have hg : getAttr (.struct cls attrs) d.name = w := by simp only [getAttr, hw, Option.getD_some]
      by_cases h0 : d.memInfo.values = none
      · left; simp only [valueOk, h0]
      · rcases Classical.em (Supported d w) with h1 | h1
        · exact .inl (valueOk_iff.mpr h1)
        · right
          refine ⟨?_, h0⟩
          unfold Supported at h1
          simp only [Classical.not_forall] at h1
          obtain ⟨vals, hv1, hv2, hv3⟩ := h1
          rcases hs d hd vals hv1 hv2 with h2 | ⟨h2, -⟩
          · exact absurd (by simpa only [hg, ← pyEq_iff] using h2) hv3
          · rw [← hg]; exact h2
    simp only [parse] at hx ⊢
    cases l with
    | true =>
      rw [if_pos rfl] at hx ⊢
      have hop : ∀ H b, (DMap.struct H b true io (ms.map Defn.memInfo) maps).op =
          (DMap.struct H b true io ((ms.map anyValue).map Defn.memInfo) maps).op := by
        intro H b; simp only [DMap.op, DMap.operation, DMap.orderStr, DMap.fmt]
      rw [hop]
      unfold linearStructParse at hx ⊢
      rw [hinfos.names] at hx
      split at hx
      · cases hx
      · rename_i k _
        simp only
        split at hx
        · cases hx
        · rename_i hts
          rw [if_neg hts]
          split at hx
          · cases hx
          · rename_i vs hvs
            split at hx
            · cases hx
            · rename_i xs hxs
              have hvn : ∀ v ∈ vs, v ≠ .pyNone := by
                generalize (DMap.struct _ _ _ _ _ _).op = op at hvs
                cases op with
                | none => cases hvs
                | some op =>
                  simp only [Option.bind_some, Op.readFrom] at hvs
                  split at hvs
                  · cases hvs
                  · cases hvs; exact unpackAll_ne _ _ _ _
              split at hx
              · cases hx
              · rename_i attrs hat
                split at hx
                · rename_i hio
                  cases hx
                  have hfl := args_length hat
                  have hat2 := newInstanceArgs_fill _ _ hfl
                  rw [hat] at hat2
                  cases hat2
                  rw [linear_exact hvn hnd hxs (by rw [← hnames]; exact hfit _ _ rfl)]
                  simp only [hat, hio, if_true]
                · cases hx
    | false =>
      rw [if_neg Bool.false_ne_true] at hx ⊢
      rw [hinfos.names, hinfos.length] at hx
      split at hx
      · cases hx
      · rename_i h1
        rw [if_neg h1]
        split at hx
        · cases hx
        · rename_i h2
          rw [if_neg h2]
          split at hx
          · cases hx
          · rename_i h3
            rw [if_neg h3]
            split at hx
            · cases hx
            · rename_i attrs k hpm
              cases hx
              have hno := never_none hmo hnn
              rw [members_exact hno hnd hpm (hfit _ _ rfl)]

/-! ### An example -/

/-- Two numbers of a byte, the first of certain values. -/
def exChecked (vs : Option (List Lit)) : Defn :=
  .struct { name := "T", order := .little }
    [.member { name := "c" } exU8 none (some "uint8") vs,
      .member { name := "e" } exU8 none (some "uint8") none]

theorem exChecked_loosened : Loosened (exChecked (some [.int 5, .int 7])) (exChecked (some [.int 7, .int 9, .int 5])) :=
  .struct _ (.cons (.member _ _ _ (.same _) (.more (by simp))) (.cons (.same _) .nil))

theorem exChecked_distinct (vs : Option (List Lit)) : (exChecked vs).Every TypesDistinct := by
  refine ⟨?_, ⟨trivial, trivial⟩, ⟨trivial, trivial⟩, trivial⟩
  simp [TypesDistinct, DistinctTypes, Defn.target, Defn.name, Defn.hdr, exU8]

/-- What the theorem says for this definition. The value 5 is allowed by both, 9 by the looser one. -/
example : ∃ m m', createMap exEnv (exChecked (some [.int 5, .int 7])) = .ok m ∧
    createMap exEnv (exChecked (some [.int 7, .int 9, .int 5])) = .ok m' ∧
    (mapStream exEnv m [5, 1] 0 0 {}).1 = .ok (.struct "T" [("c", .int 5), ("e", .int 1)]) ∧
    (mapStream exEnv m' [5, 1] 0 0 {}).1 = .ok (.struct "T" [("c", .int 5), ("e", .int 1)]) ∧
    (mapStream exEnv m [9, 1] 0 0 {}).1 = .error .mapping ∧
    (mapStream exEnv m' [9, 1] 0 0 {}).1 = .ok (.struct "T" [("c", .int 9), ("e", .int 1)]) ∧
    fold exEnv m (.struct "T" [("c", .int 9), ("e", .int 1)]) [] =
      fold exEnv m' (.struct "T" [("c", .int 9), ("e", .int 1)]) [] := by
  have h1 : ∃ m, createMap exEnv (exChecked (some [.int 5, .int 7])) = .ok m ∧
      ((mapStream exEnv m [5, 1] 0 0 {}).1 = .ok (.struct "T" [("c", .int 5), ("e", .int 1)]) ∧
        (mapStream exEnv m [5, 1] 0 0 {}).2.byteSize = some 2) ∧
      (mapStream exEnv m [9, 1] 0 0 {}).1 = .error .mapping := ⟨_, rfl, ⟨rfl, rfl⟩, rfl⟩
  have h2 : ∃ m, createMap exEnv (exChecked (some [.int 7, .int 9, .int 5])) = .ok m ∧
      (mapStream exEnv m [9, 1] 0 0 {}).1 = .ok (.struct "T" [("c", .int 9), ("e", .int 1)]) := ⟨_, rfl, rfl⟩
  obtain ⟨m, hm, h3, h4⟩ := h1
  obtain ⟨m', hm', h5⟩ := h2
  refine ⟨m, m', hm, hm', h3.1, ?_, h4, h5, ?_⟩
  · exact ((C105_mapped exEnv _ _ exChecked_loosened (exChecked_distinct _) (exChecked_distinct _) hm hm'
      [5, 1] 0 0 (c := {}) rfl).1 _ _ h3).1
  · exact (C105_folded exEnv _ _ exChecked_loosened (exChecked_distinct _) (exChecked_distinct _) hm hm' _ _).symm

/-- The hypotheses of `C105_exact` are met by this definition. -/
example : DistinctTypes [Defn.member { name := "c" } exU8 none (some "uint8") (some [.int 5, .int 7]),
      .member { name := "e" } exU8 none (some "uint8") none] ∧
    ∀ d ∈ [Defn.member { name := "c" } exU8 none (some "uint8") (some [.int 5, .int 7]),
      .member { name := "e" } exU8 none (some "uint8") none], d.memInfo.values ≠ none → Graspable d.target := by
  refine ⟨by simp [DistinctTypes, Defn.target, Defn.name, Defn.hdr, exU8], ?_⟩
  intro d hd _
  simp only [List.mem_cons, List.not_mem_nil, or_false] at hd
  rcases hd with rfl | rfl <;> exact trivial

/-- `Graspable` is needed: a UUID without byte order maps to `None`, which is rejected if other
values are asked for, although it looks like a member that is absent. -/
theorem C105_none_refuted : ∃ (h : Hdr) (ms : List Defn) (m m' : DMap), DistinctTypes ms ∧
    createAs exEnvE "T" .native (.struct h ms) = .ok m ∧
    createAs exEnvE "T" .native (.struct h (ms.map anyValue)) = .ok m' ∧
    (mapStream exEnvE m (List.replicate 17 1) 0 0 {}).1 = .error .mapping ∧
    (mapStream exEnvE m' (List.replicate 17 1) 0 0 {}).1 = .ok (.struct "T" [("a", .int 1), ("u", .pyNone)]) := by
  refine ⟨{ name := "T" }, [.member { name := "a" } exU8 none (some "uint8") none,
    .member { name := "u" } (.uuid { name := "uuid" } (.bytes 16) "bytes") (some "T.a == 1") (some "uuid") (some [.int 1])],
    _, _, ?_, rfl, rfl, rfl, rfl⟩
  simp [DistinctTypes, Defn.target, Defn.name, Defn.hdr, exU8]

end Dtf
