import Verif.Props.Unroll
/-!
# Property C91: optional members

A structure with conditional members is, for every outcome of the conditions, the structure
of the members that are present.
-/
namespace Dtf

namespace Spec

/-- The member without its condition. -/
def unconditional : Defn → Defn
  | .member h d _ t vs => .member h d none t vs
  | d => d

/-- The items marked `true`. -/
def chosen {α : Type} : List Bool → List α → List α
  | true :: bs, x :: xs => x :: chosen bs xs
  | false :: bs, _ :: xs => chosen bs xs
  | _, _ => []

/-- `mask` says which of the members `ms` of structure `cls` are present when their values are
`vs`: conditions are evaluated with the members before them; members that are not present are
`None`. -/
def Turnout (E : Env) (cls : String) (ms : List Defn) (outer : Namespace) (mask : List Bool) (vs : List Val) : Prop :=
  mask.length = ms.length ∧ vs.length = ms.length ∧ ∀ (i : Nat) (d : Defn) (b : Bool), ms[i]? = some d → mask[i]? = some b →
    Present E (scope cls (ms.map Defn.name) (vs.take i) outer) d b ∧ (b = false → vs[i]? = some .pyNone)

/-- The expressions of the types of the members `ms` that are present do not notice that the
others are gone. -/
def Unmissed (E : Env) (cls : String) (ms : List Defn) (outer : Namespace) (mask : List Bool) (vs : List Val) : Prop :=
  ∀ x ∈ namesUsedByAll (chosen mask (ms.map Defn.target)), ∀ i : Nat,
    Indifferent E (scope cls (ms.map Defn.name) (vs.take i) outer)
      (scope cls (chosen mask (ms.map Defn.name)) (chosen mask (vs.take i)) outer) x

end Spec
open Spec

theorem unconditional_target (d : Defn) : (unconditional d).target = d.target := by cases d <;> rfl
theorem unconditional_name (d : Defn) : (unconditional d).name = d.name := by cases d <;> rfl
theorem unconditional_values (d : Defn) : (unconditional d).memInfo.values = d.memInfo.values := by cases d <;> rfl
theorem unconditional_condition (d : Defn) : (unconditional d).memInfo.condition = none := by cases d <;> rfl

theorem mem_chosen {α : Type} {mask : List Bool} {xs : List α} {x : α} (h : x ∈ chosen mask xs) : x ∈ xs := by
  induction xs generalizing mask with
  | nil => cases mask with
    | nil => simp [chosen] at h
    | cons b _ => cases b <;> simp [chosen] at h
  | cons y ys ih =>
    cases mask with
    | nil => simp [chosen] at h
    | cons b mask =>
      cases b with
      | false => exact List.mem_cons_of_mem _ (ih h)
      | true =>
        simp only [chosen, List.mem_cons] at h
        rcases h with rfl | h
        · exact List.mem_cons_self
        · exact List.mem_cons_of_mem _ (ih h)

theorem chosen_map {α β : Type} (f : α → β) (mask : List Bool) (xs : List α) :
    chosen mask (xs.map f) = (chosen mask xs).map f := by
  induction xs generalizing mask with
  | nil => cases mask with
    | nil => rfl
    | cons b _ => cases b <;> rfl
  | cons y ys ih =>
    cases mask with
    | nil => rfl
    | cons b mask => cases b <;> simp [chosen, ih]

theorem chosen_nil {α : Type} (mask : List Bool) : chosen mask ([] : List α) = [] := by
  cases mask with
  | nil => rfl
  | cons b _ => cases b <;> rfl

theorem present_unique {E : Env} {ns : Namespace} {d : Defn} {a b : Bool} (h : Present E ns d a)
    (h' : Present E ns d b) : a = b := by
  cases h with
  | always hc =>
    cases h' with
    | always => rfl
    | cond hc' hn => rcases hc with hc | hc <;> rw [hc] at hc' <;> cases hc'; exact absurd rfl hn
  | cond hc hn he =>
    cases h' with
    | always hc' => rcases hc' with hc' | hc' <;> rw [hc'] at hc <;> cases hc; exact absurd rfl hn
    | cond hc' hn' he' =>
      rw [hc] at hc'
      cases hc'
      rw [he] at he'
      cases he'
      rfl

/-- The layouts of all members and of those present, after the values `R` and `R'`. -/
theorem layout_chosen {E : Env} {bs : Bytes} {depth : Nat} {outer : Namespace} {cls : String} {so : Order}
    {names names' : List String} {ms : List Defn} {mask : List Bool} {vs R R' : List Val} {p e : Nat}
    (hl : mask.length = ms.length) (hv : vs.length = ms.length)
    (ho : ∀ (i : Nat) (d : Defn) (b : Bool), ms[i]? = some d → mask[i]? = some b →
      Present E (scope cls names (R ++ vs.take i) outer) d b ∧ (b = false → vs[i]? = some .pyNone))
    (hS : ∀ x ∈ namesUsedByAll (chosen mask (ms.map Defn.target)), ∀ i : Nat,
      Indifferent E (scope cls names (R ++ vs.take i) outer) (scope cls names' (R' ++ chosen mask (vs.take i)) outer) x) :
    Layout E bs depth outer cls so names R ms p (R ++ vs) e ↔
      Layout E bs depth outer cls so names' R' (chosen mask (ms.map unconditional)) p (R' ++ chosen mask vs) e := by
  induction ms generalizing mask vs R R' p with
  | nil =>
    obtain rfl := List.eq_nil_of_length_eq_zero hl
    obtain rfl := List.eq_nil_of_length_eq_zero hv
    simp only [chosen, List.append_nil]
    constructor <;> intro h <;> cases h <;> exact .done _ _
  | cons d ms ih =>
    obtain ⟨b, mask, rfl⟩ : ∃ b m, mask = b :: m := by
      cases mask with
      | nil => simp at hl
      | cons b m => exact ⟨b, m, rfl⟩
    obtain ⟨v, vs, rfl⟩ : ∃ v ws, vs = v :: ws := by
      cases vs with
      | nil => simp at hv
      | cons v ws => exact ⟨v, ws, rfl⟩
    obtain ⟨hp, hnone⟩ := ho 0 d b rfl rfl
    simp only [List.take_zero, List.append_nil] at hp
    have ho' : ∀ (i : Nat) (d : Defn) (b : Bool), ms[i]? = some d → mask[i]? = some b →
        Present E (scope cls names ((R ++ [v]) ++ vs.take i) outer) d b ∧ (b = false → vs[i]? = some .pyNone) := by
      intro i d b h1 h2
      have := ho (i + 1) d b (by simpa using h1) (by simpa using h2)
      simpa [List.append_assoc] using this
    cases b with
    | false =>
      have hv0 := hnone rfl
      simp only [List.getElem?_cons_zero] at hv0
      cases hv0
      have ih := ih (mask := mask) (vs := vs) (R := R ++ [.pyNone]) (R' := R') (p := p) (by simpa using hl)
        (by simpa using hv) ho' (fun x hx i => by
          have := hS x (by simpa [chosen] using hx) (i + 1)
          simpa [chosen, List.append_assoc] using this)
      simp only [chosen, List.map_cons]
      rw [← ih]
      constructor
      · intro h
        cases h with
        | absent _ h => simpa [List.append_assoc] using h
        | present hc => exact absurd (present_unique hc hp) (by simp)
      · intro h
        exact .absent hp (by simpa [List.append_assoc] using h)
    | true =>
      have hx0 : ∀ x ∈ namesUsedBy d.target, Indifferent E (scope cls names R outer) (scope cls names' R' outer) x := by
        intro x hx
        have := hS x (by simp only [chosen, List.map_cons, namesUsedByAll, List.mem_append]; exact .inl hx) 0
        simpa [chosen] using this
      have hstep : ∀ m, MapOf E cls so d m → ∀ w k,
          ((mapStream E m bs p (depth + 1) { values := scope cls names R outer }).1 = .ok w ∧
            (mapStream E m bs p (depth + 1) { values := scope cls names R outer }).2.byteSize = some k) ↔
          ((mapStream E m bs p (depth + 1) { values := scope cls names' R' outer }).1 = .ok w ∧
            (mapStream E m bs p (depth + 1) { values := scope cls names' R' outer }).2.byteSize = some k) := by
        rintro m ⟨n, o, -, hcr⟩ w k
        rw [mapped_iff (c := { values := scope cls names R outer }) rfl,
          mapped_iff (c := { values := scope cls names' R' outer }) rfl]
        simp only [createAs_unmoved E d.target (namesUsedBy d.target) (fun _ h => h) n o m (.inl hcr) bs p (depth + 1) _ _ hx0]
      have ih := fun p => ih (mask := mask) (vs := vs) (R := R ++ [v]) (R' := R' ++ [v]) (p := p) (by simpa using hl)
        (by simpa using hv) ho' (fun x hx i => by
          have := hS x (by simp only [chosen, List.map_cons, namesUsedByAll, List.mem_append]; exact .inr hx) (i + 1)
          simpa [chosen, List.append_assoc] using this)
      have hmo : ∀ m, MapOf E cls so (unconditional d) m ↔ MapOf E cls so d m := by
        intro m; unfold MapOf; rw [unconditional_target]
      have hsu : ∀ w, Supported (unconditional d) w ↔ Supported d w := by
        intro w; unfold Supported; rw [unconditional_values]
      simp only [chosen, List.map_cons]
      constructor
      · intro h
        cases h with
        | absent hc => exact absurd (present_unique hc hp) (by simp)
        | @present _ _ _ _ _ _ k m w hc hm h1 h2 hs h =>
          obtain ⟨rest, hr, -⟩ := Layout.prefix h
          simp only [List.append_assoc, List.singleton_append] at hr
          cases List.append_cancel_left hr
          obtain ⟨g1, g2⟩ := (hstep m hm v k).1 ⟨h1, h2⟩
          refine .present (.always (.inl (unconditional_condition d))) ((hmo m).2 hm) g1 g2 ((hsu v).2 hs) ?_
          have := (ih (p + k)).1 (by simpa [List.append_assoc] using h)
          simpa [List.append_assoc] using this
      · intro h
        cases h with
        | absent hc => exact absurd (present_unique hc (.always (.inl (unconditional_condition d)))) (by simp)
        | @present _ _ _ _ _ _ k m w hc hm h1 h2 hs h =>
          obtain ⟨rest, hr, -⟩ := Layout.prefix h
          simp only [List.append_assoc, List.singleton_append] at hr
          cases List.append_cancel_left hr
          obtain ⟨g1, g2⟩ := (hstep m ((hmo m).1 hm) v k).2 ⟨h1, h2⟩
          refine .present hp ((hmo m).1 hm) g1 g2 ((hsu v).1 hs) ?_
          have := (ih (p + k)).2 (by simpa [List.append_assoc] using h)
          simpa [List.append_assoc] using this

/-- Structures map to what `Layout` says. -/
theorem mapped_layout {E : Env} {nm : String} {o : Order} {h : Hdr} {ms : List Defn} {m : DMap}
    (hdt : DistinctTypes ms) (hone : OneOrder E o ms) (hm : createAs E nm o (.struct h ms) = .ok m)
    (hnames : nm ≠ "super" ∧ ∀ d ∈ ms, d.name ≠ "super" ∧ d.name ≠ nm)
    {bs : Bytes} {off depth : Nat} (hd : depth ≤ 10) {c : Ctx} (hc : c.Clean) {v : Val} {n : Nat} :
    ((mapStream E m bs off depth c).1 = .ok v ∧ (mapStream E m bs off depth c).2.byteSize = some n) ↔
      ∃ vs, vs.length = ms.length ∧ v = .struct nm ((ms.map Defn.name).zip vs) ∧
        Layout E bs depth c.values nm o (ms.map Defn.name) [] ms off vs (off + n) := by
  obtain ⟨maps, io, hmo, hcls, hpi⟩ := struct_parse_iff hdt hone hm
  rw [mapped_iff hc]
  constructor
  · intro hp
    obtain ⟨-, attrs, hpm, rfl⟩ := (hpi bs off depth c.values v n).1 hp
    rw [← fill_nil] at hpm
    obtain ⟨ws, e, h4, h5, h6, h7⟩ := layout_of_members E nm o bs depth c.values _ ms maps hmo [] rfl
      (createClass_nodup hcls).1 [] rfl off 0 n attrs hpm
    obtain rfl : e = off + n := by omega
    simp only [List.nil_append] at h4 h5 h7
    exact ⟨ws, by simpa using h7, by rw [h5, fill_zip _ _ h7], h4⟩
  · rintro ⟨vs, hl, rfl, hL⟩
    obtain ⟨h4, h5⟩ := members_of_layout E nm o bs depth c.values _ ms maps hmo [] rfl (createClass_nodup hcls).1 [] rfl
      off 0 _ _ hL
    rw [fill_nil] at h5
    have := (hpi bs off depth c.values _ _).2 (createClass_inst hcls hnames) hd _ h5 rfl
    rw [List.nil_append, fill_zip _ _ (show vs.length = (ms.map Defn.name).length by simpa using hl)] at this
    rw [this]
    congr 2
    omega

theorem zip_inj {names : List String} {us vs : List Val} (h1 : us.length = names.length)
    (h2 : vs.length = names.length) (h : names.zip us = names.zip vs) : us = vs := by
  have := congrArg (List.map Prod.snd) h
  rwa [List.map_snd_zip (by omega), List.map_snd_zip (by omega)] at this

theorem chosen_length {α β : Type} {mask : List Bool} {xs : List α} {ys : List β} (h : xs.length = ys.length) :
    (chosen mask xs).length = (chosen mask ys).length := by
  induction xs generalizing mask ys with
  | nil =>
    obtain rfl := List.eq_nil_of_length_eq_zero h.symm
    rw [chosen_nil, chosen_nil]
    rfl
  | cons x xs ih =>
    cases ys with
    | nil => simp at h
    | cons y ys =>
      cases mask with
      | nil => rfl
      | cons b mask => cases b <;> simp [chosen, ih (mask := mask) (ys := ys) (by simpa using h)]

theorem layout_turnout {E : Env} {bs : Bytes} {depth : Nat} {outer : Namespace} {cls : String} {so : Order}
    {names : List String} {ms : List Defn} {R ws : List Val} {p e : Nat}
    (h : Layout E bs depth outer cls so names R ms p ws e) :
    ∃ (mask : List Bool) (vs : List Val), ws = R ++ vs ∧ mask.length = ms.length ∧ vs.length = ms.length ∧
      ∀ (i : Nat) (d : Defn) (b : Bool), ms[i]? = some d → mask[i]? = some b →
        Present E (scope cls names (R ++ vs.take i) outer) d b ∧ (b = false → vs[i]? = some .pyNone) := by
  induction h with
  | done => exact ⟨[], [], by simp, rfl, rfl, by simp⟩
  | @absent R ws d ms p e hc _ ih =>
    obtain ⟨mask, vs, rfl, h1, h2, h3⟩ := ih
    refine ⟨false :: mask, .pyNone :: vs, by simp, by simp [h1], by simp [h2], ?_⟩
    intro i d' b hd hb
    cases i with
    | zero => simp at hd hb; subst hd hb; simpa using hc
    | succ i =>
      have := h3 i d' b (by simpa using hd) (by simpa using hb)
      simpa [List.append_assoc] using this
  | @present R ws d ms p e k m v hc _ _ _ _ _ ih =>
    obtain ⟨mask, vs, rfl, h1, h2, h3⟩ := ih
    refine ⟨true :: mask, v :: vs, by simp, by simp [h1], by simp [h2], ?_⟩
    intro i d' b hd hb
    cases i with
    | zero => simp at hd hb; subst hd hb; simpa using hc
    | succ i =>
      have := h3 i d' b (by simpa using hd) (by simpa using hb)
      simpa [List.append_assoc] using this

/-- **C91** Whenever a structure can be mapped, its conditions have an outcome, and the members that
are not present are `None`. -/
theorem C91_outcome (E : Env) (nm : String) (o : Order) (h : Hdr) (ms : List Defn) (hdt : DistinctTypes ms)
    (hone : OneOrder E o ms) (hnames : nm ≠ "super" ∧ ∀ d ∈ ms, d.name ≠ "super" ∧ d.name ≠ nm) (m : DMap)
    (hm : createAs E nm o (.struct h ms) = .ok m) (bs : Bytes) (off depth : Nat) (hd : depth ≤ 10) (c : Ctx)
    (hc : c.Clean) (v : Val) (hv : (mapStream E m bs off depth c).1 = .ok v) :
    ∃ mask vs, v = .struct nm ((ms.map Defn.name).zip vs) ∧ Turnout E nm ms c.values mask vs := by
  obtain ⟨n, -, hb⟩ := mapStream_ok hc hv
  obtain ⟨vs, hl, rfl, hL⟩ := (mapped_layout hdt hone hm hnames hd hc).1 ⟨hv, hb⟩
  obtain ⟨mask, us, hus, h1, h2, h3⟩ := layout_turnout hL
  rw [List.nil_append] at hus
  subst hus
  exact ⟨mask, _, rfl, h1, h2, by simpa using h3⟩

/-- **C91** For an outcome of its conditions, a structure has the values `vs` exactly if the structure of
the members present, without conditions, has those of `vs`, and both take the same bytes. -/
theorem C91_chosen (E : Env) (nm : String) (o : Order) (h h' : Hdr) (ms : List Defn) (mask : List Bool)
    (hdt : DistinctTypes ms) (hone : OneOrder E o ms) (hone' : OneOrder E o (chosen mask (ms.map unconditional)))
    (hnames : nm ≠ "super" ∧ ∀ d ∈ ms, d.name ≠ "super" ∧ d.name ≠ nm) (m m' : DMap)
    (hm : createAs E nm o (.struct h ms) = .ok m)
    (hm' : createAs E nm o (.struct h' (chosen mask (ms.map unconditional))) = .ok m')
    (bs : Bytes) (off depth : Nat) (hd : depth ≤ 10) (c : Ctx) (hc : c.Clean) (vs : List Val)
    (ho : Turnout E nm ms c.values mask vs) (hu : Unmissed E nm ms c.values mask vs) (n : Nat) :
    ((mapStream E m bs off depth c).1 = .ok (.struct nm ((ms.map Defn.name).zip vs)) ∧
      (mapStream E m bs off depth c).2.byteSize = some n) ↔
    ((mapStream E m' bs off depth c).1 =
        .ok (.struct nm ((chosen mask (ms.map Defn.name)).zip (chosen mask vs))) ∧
      (mapStream E m' bs off depth c).2.byteSize = some n) := by
  obtain ⟨h1, h2, h3⟩ := ho
  have hsub : ∀ d ∈ chosen mask (ms.map unconditional), ∃ x ∈ ms, d = unconditional x := by
    intro d hd
    obtain ⟨x, hx, rfl⟩ := List.mem_map.1 (mem_chosen hd)
    exact ⟨x, hx, rfl⟩
  have hdt' : DistinctTypes (chosen mask (ms.map unconditional)) := by
    refine ⟨fun x hx y hy hxy => ?_, fun x hx => ?_⟩
    · obtain ⟨x, hx', rfl⟩ := hsub x hx
      obtain ⟨y, hy', rfl⟩ := hsub y hy
      rw [unconditional_target, unconditional_target] at hxy ⊢
      exact hdt.1 x hx' y hy' hxy
    · obtain ⟨x, hx', rfl⟩ := hsub x hx
      rw [unconditional_target]
      exact hdt.2 x hx'
  have hnames' : nm ≠ "super" ∧ ∀ d ∈ chosen mask (ms.map unconditional), d.name ≠ "super" ∧ d.name ≠ nm := by
    refine ⟨hnames.1, fun d hd => ?_⟩
    obtain ⟨x, hx, rfl⟩ := hsub d hd
    rw [unconditional_name]
    exact hnames.2 x hx
  have hnn : (chosen mask (ms.map unconditional)).map Defn.name = chosen mask (ms.map Defn.name) := by
    rw [← chosen_map, List.map_map]
    congr 1
    exact List.map_congr_left fun d _ => unconditional_name d
  have hcl : (chosen mask vs).length = (chosen mask (ms.map unconditional)).length := chosen_length (by simpa using h2)
  have key := layout_chosen (E := E) (bs := bs) (depth := depth) (outer := c.values) (cls := nm) (so := o)
    (names := ms.map Defn.name) (names' := chosen mask (ms.map Defn.name)) (R := []) (R' := []) (p := off) (e := off + n)
    h1 h2 (by simpa using h3) (by simpa [Unmissed] using hu)
  simp only [List.nil_append] at key
  rw [mapped_layout hdt hone hm hnames hd hc, mapped_layout hdt' hone' hm' hnames' hd hc, hnn]
  constructor
  · rintro ⟨us, hl, he, hL⟩
    simp only [Val.struct.injEq, true_and] at he
    cases zip_inj (by simpa using h2) (by simpa using hl) he
    exact ⟨_, hcl, rfl, key.1 hL⟩
  · rintro ⟨us, hl, he, hL⟩
    simp only [Val.struct.injEq, true_and] at he
    have hlen : (chosen mask (ms.map Defn.name)).length = (chosen mask (ms.map unconditional)).length :=
      chosen_length (by simp)
    cases zip_inj (by omega) (by omega) he
    exact ⟨_, h2, rfl, key.2 hL⟩

/-- A number, an optional number and a stream of as many bytes as the first number says. -/
def exOptions : List Defn :=
  [.member { name := "a" } exU8 none (some "uint8") none,
    .member { name := "b" } exU16 (some "T.a == 1") (some "uint16") none,
    .seq { name := "s" } { kind := .stream, elementDataType := some "uint8", dataSizeExpr := some "T.a" } exU8]

/-- The outcome when the number is 2: the optional number is not there. -/
theorem exTurnout : Turnout exEnvE "T" exOptions [] [true, false, true] [.int 2, .pyNone, .bytes [5, 6]] := by
  refine ⟨rfl, rfl, ?_⟩
  intro i d b hd hb
  match i, hd, hb with
  | 0, hd, hb => cases hd; cases hb; exact ⟨.always (.inl rfl), by simp⟩
  | 1, hd, hb => cases hd; cases hb; exact ⟨.cond rfl (by decide) rfl, fun _ => rfl⟩
  | 2, hd, hb => cases hd; cases hb; exact ⟨.always (.inl rfl), by simp⟩
  | i + 3, hd, hb => simp [exOptions] at hd

theorem exUnmissed : Unmissed exEnvE "T" exOptions [] [true, false, true] [.int 2, .pyNone, .bytes [5, 6]] := by
  intro x hx i fs
  have hx : x = "T.a" := by
    simp [namesUsedByAll, namesUsedBy, exOptions, chosen, Defn.target, exU8] at hx
    exact hx
  subst hx
  simp only [exEnvE, show ¬ ("T.a" = "T.a == 1") by decide, if_false, if_pos]
  rw [inside_own (by decide), inside_own (by decide)]
  match i with
  | 0 => rfl
  | 1 => rfl
  | 2 => rfl
  | i + 3 => rfl

example : ∃ m m', createMap exEnvE (.struct { name := "T", order := .little } exOptions) = .ok m ∧
    createMap exEnvE (.struct { name := "T", order := .little } (chosen [true, false, true] (exOptions.map unconditional))) =
      .ok m' ∧ DistinctTypes exOptions ∧ OneOrder exEnvE .little exOptions ∧
    OneOrder exEnvE .little (chosen [true, false, true] (exOptions.map unconditional)) ∧
    (mapStream exEnvE m [2, 5, 6, 7] 0 0 {}).1 =
      .ok (.struct "T" [("a", .int 2), ("b", .pyNone), ("s", .bytes [5, 6])]) ∧
    (mapStream exEnvE m' [2, 5, 6, 7] 0 0 {}).1 = .ok (.struct "T" [("a", .int 2), ("s", .bytes [5, 6])]) ∧
    (mapStream exEnvE m' [2, 5, 6, 7] 0 0 {}).2.byteSize = some 3 := by
  exact ⟨_, _, rfl, rfl, by simp [DistinctTypes, exOptions, exU8, exU16, Defn.target, Defn.name, Defn.hdr],
    fun hh => absurd (hh exOptions[2] (by simp [exOptions])).1 (by decide),
    fun hh => absurd (hh exOptions[2] (by simp [exOptions, chosen, unconditional])).1 (by decide), rfl, rfl, rfl⟩

end Dtf
