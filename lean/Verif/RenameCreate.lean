import Verif.Rename
/-!
The maps of definitions whose structure members got other names.
-/
namespace Dtf

open Spec

/-! ### What does not change -/

theorem called_name (n : String) (d : Defn) : (called n d).name = n := by cases d <;> rfl

theorem called_order (n : String) (d : Defn) : (called n d).order? = d.order? := by cases d <;> rfl

theorem called_composite (n : String) (d : Defn) : (called n d).isComposite = d.isComposite := by cases d <;> rfl

theorem called_pad (n : String) (d : Defn) : isPad (called n d) = isPad d := by cases d <;> rfl

theorem called_size (n : String) (d : Defn) : (called n d).byteSize = d.byteSize := by
  cases d with
  | struct h ms => cases ms <;> simp only [called, Defn.byteSize]
  | union h ms => cases ms <;> simp only [called, Defn.byteSize]
  | _ => simp only [called, Defn.byteSize]

theorem createAs_called (E : Env) (nm : String) (o : Order) (n : String) (d : Defn) :
    createAs E nm o (called n d) = createAs E nm o d := by
  have hs := called_size n d
  cases d with
  | prim h k s u => simp only [called, createAs]
  | seq h info e => simp only [called] at hs; simp only [called, createAs, hs]
  | struct h ms => simp only [called] at hs; simp only [called, createAs, hs]
  | _ => simp only [called, createAs]

/-- All expressions of one definition can be rewritten. -/
def DefnFollows (E : Env) (R : Renaming) (d : Defn) : Prop := ∀ s ∈ exprsOf d, Rewritten E R s

theorem defn_name (R : Renaming) (d : Defn) : (R.defn d).name = d.name := by cases d <;> rfl

theorem defn_order (R : Renaming) (d : Defn) : (R.defn d).order? = d.order? := by
  induction d using Defn.ind with
  | member h d c t vs ih => simp only [Renaming.defn, Defn.order?, ih]
  | _ => rfl

theorem defn_pad (R : Renaming) (d : Defn) : isPad (R.defn d) = isPad d := by cases d <;> rfl

theorem defn_terminator (R : Renaming) (d : Defn) : (R.defn d).terminator? = d.terminator? := by cases d <;> rfl

variable {E : Env} {R : Renaming}

theorem defn_composite {d : Defn} (h : d.Every (DefnFollows E R)) : (R.defn d).isComposite = d.isComposite := by
  induction d using Defn.ind with
  | member h0 d c t vs ih =>
    simp only [Defn.Every] at h
    simp only [Renaming.defn, Defn.isComposite, ih h.2, truthyStr_renamed (x := c) h.1]
  | _ => rfl

theorem members_linear {ds : List Defn} (h : ∀ d ∈ ds, d.Every (DefnFollows E R)) (last : Order) :
    checkLinear last (R.members ds) = checkLinear last ds := by
  induction ds generalizing last with
  | nil => rfl
  | cons d ds ih =>
    rw [Renaming.members, checkLinear_cons, checkLinear_cons, called_composite, called_pad, called_order,
      defn_composite (h d List.mem_cons_self), defn_pad, defn_order]
    simp only [ih fun d hd => h d (List.mem_cons_of_mem _ hd)]

theorem structSize_renamed {ds : List Defn} (h : ∀ d ∈ ds, (R.defn d).byteSize = d.byteSize) (t : Int) :
    structSize t (R.members ds) = structSize t ds := by
  induction ds generalizing t with
  | nil => rfl
  | cons d ds ih =>
    have ih := ih fun d hd => h d (List.mem_cons_of_mem _ hd)
    have h1 := called_size (R.member d.name) (R.defn d)
    rw [h d List.mem_cons_self] at h1
    rw [Renaming.members]
    cases d with
    | padding h0 a =>
      simp only [Renaming.defn, called]
      cases a with
      | none => simp only [structSize, Defn.byteSize]
      | some a => cases a <;> simp only [structSize, Defn.byteSize, ih]
    | _ =>
      simp only [Renaming.defn, called] at h1 ⊢
      simp only [structSize, h1, ih]

theorem unionSize_renamed {ds : List Defn} (h : ∀ d ∈ ds, (R.defn d).byteSize = d.byteSize) (t : Int) :
    unionSize t (R.members ds) = unionSize t ds := by
  induction ds generalizing t with
  | nil => rfl
  | cons d ds ih =>
    rw [Renaming.members]
    simp only [unionSize, called_size, h d List.mem_cons_self, ih fun d hd => h d (List.mem_cons_of_mem _ hd)]

theorem defn_size {d : Defn} (h : d.Every (DefnFollows E R)) : (R.defn d).byteSize = d.byteSize := by
  induction d using Defn.ind with
  | seq h0 info e ih =>
    simp only [Defn.Every] at h
    rw [Renaming.defn, Defn.byteSize, Defn.byteSize, ih h.2]
    rfl
  | struct h0 ms ih =>
    simp only [Defn.Every] at h
    rw [everyDefn_iff] at h
    have := structSize_renamed (R := R) (ds := ms) (fun d hd => ih d hd (h.2 d hd)) 0
    cases ms with
    | nil => rfl
    | cons m ms =>
      rw [Renaming.defn, Renaming.members, Defn.byteSize, Defn.byteSize]
      rwa [Renaming.members] at this
  | union h0 ms ih =>
    simp only [Defn.Every] at h
    rw [everyDefn_iff] at h
    have := unionSize_renamed (R := R) (ds := ms) (fun d hd => ih d hd (h.2 d hd)) 0
    cases ms with
    | nil => rfl
    | cons m ms =>
      rw [Renaming.defn, Renaming.members, Defn.byteSize, Defn.byteSize]
      rwa [Renaming.members] at this
  | member h0 d c t vs ih =>
    simp only [Defn.Every] at h
    simp only [Renaming.defn, Defn.byteSize, ih h.2, truthyStr_renamed (x := c) h.1]
  | _ => rfl

theorem groupValues_renamed (hf : ∀ a b, R.member a = R.member b → a = b) (ident : String) (g : Defn) :
    groupValues (R.member ident) (R.defn g) = groupValues ident g := by
  have key : ∀ ms : List Defn, (R.members ms).find? (·.name == R.member ident) =
      (ms.find? (·.name == ident)).map fun d => called (R.member d.name) (R.defn d) := by
    intro ms
    induction ms with
    | nil => rfl
    | cons d ms ih =>
      rw [Renaming.members, List.find?_cons, List.find?_cons, called_name, beq_injective hf]
      cases d.name == ident with
      | true => rfl
      | false => exact ih
  have val : ∀ r : Option Defn,
      (match (Except.ok (r.map fun d => called (R.member d.name) (R.defn d)) : Except Err (Option Defn)) with
        | .error e => .error e
        | .ok none => .error .format
        | .ok (some (.member _ _ _ _ none)) => .error .format
        | .ok (some (.member _ _ _ _ (some vs))) => .ok vs
        | .ok (some _) => .error .attribute : Except Err (List Lit)) =
      (match (Except.ok r : Except Err (Option Defn)) with
        | .error e => .error e
        | .ok none => .error .format
        | .ok (some (.member _ _ _ _ none)) => .error .format
        | .ok (some (.member _ _ _ _ (some vs))) => .ok vs
        | .ok (some _) => .error .attribute) := by
    intro r
    cases r with
    | none => rfl
    | some d =>
      cases d with
      | member h d c t vs => cases vs <;> rfl
      | _ => rfl
  cases g with
  | struct h ms => simp only [groupValues, Renaming.defn, memberByName, key]; exact val _
  | union h ms => simp only [groupValues, Renaming.defn, memberByName, key]; exact val _
  | _ => rfl

/-! ### Classes -/

theorem attrNamesOk_plain {E : Env} {seen ns : List String} (h : attrNamesOk E seen ns = true) {n : String} (hn : n ∈ ns) :
    n.toList.head? ≠ some '_' := by
  induction ns generalizing seen with
  | nil => cases hn
  | cons a ns ih =>
    simp only [attrNamesOk, Bool.and_eq_true] at h
    rcases List.mem_cons.mp hn with rfl | hn
    · have := h.1
      simp only [attrNameOk, Bool.and_eq_true, Bool.not_eq_true'] at this
      have := this.1.1.2
      intro hq
      rw [hq] at this
      simp at this
    · exact ih h.2 hn

/-- The name of a structure, or the name of a copy of it. -/
def NameFor (nm : String) (h : Hdr) : Prop := nm = h.name ∨ nm.toList.head? = some '_'

theorem createClass_usable {E : Env} {nm : String} {h : Hdr} {x : Option String} {ms : List Defn} {i : Bool}
    (hu : WellNamed (.struct h ms)) (hn : NameFor nm h) (hc : createClass E nm x ms = .ok i) : i = true := by
  obtain ⟨-, h1, h2, h3, -⟩ := hu
  unfold createClass at hc
  simp only at hc
  cases hv : validateClass E nm (ms.map Defn.name) with
  | error e => rw [hv] at hc; cases hc
  | ok u =>
    have hp : ∀ n ∈ ms.map Defn.name, n.toList.head? ≠ some '_' := by
      intro n hn
      unfold validateClass at hv
      repeat' split at hv
      all_goals first | (cases hv; done) | skip
      rename_i ha
      simp only [Bool.not_eq_true, Bool.not_eq_false'] at ha
      exact attrNamesOk_plain ha hn
    rw [hv] at hc
    simp only at hc
    split at hc
    · cases hc
    · split at hc
      · cases hc
      · split at hc
        · cases hc
        · cases hc
          have h4 : (ms.map Defn.name).contains "super" = false := by
            rw [Bool.eq_false_iff]; intro h; exact h1 (List.contains_iff_mem.mp h)
          have h5 : (ms.map Defn.name).contains nm = false := by
            rw [Bool.eq_false_iff]
            intro h
            have hm := List.contains_iff_mem.mp h
            rcases hn with rfl | hn
            · exact h2 hm
            · exact hp nm hm hn
          have h6 : (nm == "super") = false := by
            rw [beq_eq_false_iff_ne]
            rintro rfl
            rcases hn with hn | hn
            · exact h3 hn.symm
            · revert hn; decide
          rw [h4, h5, h6]; rfl

/-! ### Maps -/

/-- What is asked of both definitions. -/
def Both (E : Env) (R : Renaming) (d : Defn) : Prop := WellNamed d ∧ DefnFollows E R d

/-- The statement about one definition. -/
def CreateRenamed (E : Env) (R : Renaming) (d : Defn) : Prop :=
  ∀ nm nm' o m m', (∀ h ms, d = .struct h ms → nm = nm' ∧ NameFor nm h) → d.Every (Both E R) →
    (R.defn d).Every WellNamed → createAs E nm o d = .ok m → createAs E nm' o (R.defn d) = .ok m' →
    SameMap (R.map m) m'

theorem Both.follows {d : Defn} (h : d.Every (Both E R)) : d.Every (DefnFollows E R) :=
  Defn.Every.imp (fun _ h => h.2) d h

/-- The type of a renamed member is the renamed type, possibly under another name. -/
theorem target_renamed (R : Renaming) (n : String) (d : Defn) :
    ∃ n', (called n (R.defn d)).target = called n' (R.defn d.target) ∧
      ((∀ h ms, d ≠ .struct h ms) → ∀ h ms, d.target = .struct h ms → n' = h.name) := by
  cases d with
  | member h d c t vs =>
    refine ⟨d.name, ?_, ?_⟩
    · simp only [Renaming.defn, called, Defn.target]
      cases d <;> rfl
    · rintro - h ms rfl; rfl
  | struct h ms => exact ⟨n, rfl, fun hd => absurd rfl (hd h ms)⟩
  | _ => exact ⟨n, rfl, fun _ h ms hd => by simp [Defn.target] at hd⟩

theorem memInfo_renamed (R : Renaming) (d : Defn) :
    (called (R.member d.name) (R.defn d)).memInfo = R.info d.memInfo := by
  cases d <;> rfl

theorem memberNameOrder_renamed (R : Renaming) {sname : String} {so : Order} {d : Defn} {n n1 n2 : String} {o1 o2 : Order}
    (h1 : memberNameOrder sname so d = .ok (n1, o1))
    (h2 : memberNameOrder sname so (called n (R.defn d)) = .ok (n2, o2)) :
    o1 = o2 ∧ ∀ h ms, d = .struct h ms → n = h.name → n1 = n2 ∧ NameFor n1 h := by
  unfold memberNameOrder at h1 h2
  simp only [Defn.orderOrNative, called_order, defn_order, called_name] at h1 h2
  by_cases hn : so = .native
  · rw [if_pos hn] at h1 h2
    cases h1; cases h2
    exact ⟨rfl, fun h ms hd hq => by subst hd; exact ⟨hq.symm, .inl rfl⟩⟩
  · rw [if_neg hn] at h1 h2
    cases ho : d.order? with
    | none => rw [ho] at h1; cases h1
    | some x =>
      rw [ho] at h1 h2
      cases x with
      | native =>
        cases h1; cases h2
        refine ⟨rfl, fun h ms hd hq => ?_⟩
        subst hd; subst hq
        exact ⟨rfl, .inr (by simp [String.toList_append])⟩
      | little => cases h1; cases h2; exact ⟨rfl, fun h ms hd hq => by subst hd; exact ⟨hq.symm, .inl rfl⟩⟩
      | big => cases h1; cases h2; exact ⟨rfl, fun h ms hd hq => by subst hd; exact ⟨hq.symm, .inl rfl⟩⟩

theorem plainMembers_renamed {sname : String} {so : Order} {ds : List Defn}
    (hst : ∀ m ∈ ds, ∀ h ms, m ≠ .struct h ms)
    (hok : ∀ d ∈ ds, CreateRenamed E R d.target) (hev : ∀ d ∈ ds, d.Every (Both E R))
    (hev' : ∀ d ∈ ds, (R.defn d.target).Every WellNamed) {infos infos' : List MemInfo} {maps maps' : List DMap}
    (h : plainMembers E sname so ds = .ok (infos, maps))
    (h' : plainMembers E sname so (R.members ds) = .ok (infos', maps')) :
    infos' = infos.map R.info ∧ SameMaps (R.maps maps) maps' := by
  induction ds generalizing infos infos' maps maps' with
  | nil => cases h; cases h'; exact ⟨rfl, .nil⟩
  | cons d ds ih =>
    have ih := @ih (fun d h => hst d (List.mem_cons_of_mem _ h)) (fun d h => hok d (List.mem_cons_of_mem _ h))
      (fun d h => hev d (List.mem_cons_of_mem _ h)) (fun d h => hev' d (List.mem_cons_of_mem _ h))
    rw [plainMembers] at h
    rw [Renaming.members, plainMembers, memInfo_renamed] at h'
    obtain ⟨n', ht, hname⟩ := target_renamed R (R.member d.name) d
    rw [ht] at h'
    cases h1 : memberNameOrder sname so d.target with
    | error x => rw [h1] at h; cases h
    | ok p =>
      obtain ⟨n1, o1⟩ := p
      cases h2 : memberNameOrder sname so (called n' (R.defn d.target)) with
      | error x => rw [h2] at h'; cases h'
      | ok q =>
        obtain ⟨n2, o2⟩ := q
        rw [h1] at h
        rw [h2] at h'
        simp only at h h'
        obtain ⟨rfl, hs⟩ := memberNameOrder_renamed R h1 h2
        rw [createAs_called] at h'
        cases h3 : createAs E n1 o1 d.target with
        | error x => rw [h3] at h; cases h
        | ok m =>
          cases h4 : createAs E n2 o1 (R.defn d.target) with
          | error x => rw [h4] at h'; cases h'
          | ok m' =>
            rw [h3] at h
            rw [h4] at h'
            simp only at h h'
            have hm := hok d List.mem_cons_self n1 n2 o1 m m'
              (fun h0 ms hd => hs h0 ms hd (hname (hst d List.mem_cons_self) h0 ms hd))
              (hev d List.mem_cons_self).target (hev' d List.mem_cons_self) h3 h4
            cases h5 : plainMembers E sname so ds with
            | error x => rw [h5] at h; cases h
            | ok r =>
              cases h6 : plainMembers E sname so (R.members ds) with
              | error x => rw [h6] at h'; cases h'
              | ok r' =>
                rw [h5] at h
                rw [h6] at h'
                cases h; cases h'
                obtain ⟨h8, h7⟩ := ih h5 h6
                exact ⟨by rw [h8]; rfl, .cons hm h7⟩

theorem own_named {d : Defn} : ∀ h ms, d = .struct h ms → d.name = d.name ∧ NameFor d.name h := by
  rintro h ms rfl
  exact ⟨rfl, .inl rfl⟩

theorem createOwn_renamed {d : Defn} (hok : CreateRenamed E R d) (hev : d.Every (Both E R))
    (hev' : (R.defn d).Every WellNamed) {m m' : DMap} (h : createAs E d.name d.orderOrNative d = .ok m)
    (h' : createAs E (R.defn d).name (R.defn d).orderOrNative (R.defn d) = .ok m') : SameMap (R.map m) m' := by
  rw [Defn.orderOrNative, defn_order, defn_name] at h'
  exact hok _ _ _ _ _ own_named hev hev' h h'

theorem maps_append (R : Renaming) (a b : List DMap) : R.maps (a ++ b) = R.maps a ++ R.maps b := by
  induction a with
  | nil => rfl
  | cons m a ih => rw [List.cons_append, Renaming.maps, ih, Renaming.maps, List.cons_append]

theorem maps_replicate (R : Renaming) (n : Nat) (m : DMap) : R.maps (List.replicate n m) = List.replicate n (R.map m) := by
  induction n with
  | zero => rfl
  | succ n ih => rw [List.replicate_succ, List.replicate_succ, Renaming.maps, ih]

theorem createGroup_renamed (hf : ∀ a b, R.member a = R.member b → a = b) (ident : String) {gs : List Defn}
    (hok : ∀ d ∈ gs, CreateRenamed E R d) (hev : ∀ d ∈ gs, d.Every (Both E R))
    (hev' : ∀ d ∈ gs, (R.defn d).Every WellNamed) (keys : List Lit) {ks ks' : List Lit} {maps maps' : List DMap}
    (h : createGroup E ident keys gs = .ok (ks, maps))
    (h' : createGroup E (R.member ident) keys (R.defns gs) = .ok (ks', maps')) :
    ks' = ks ∧ SameMaps (R.maps maps) maps' := by
  induction gs generalizing keys ks ks' maps maps' with
  | nil => cases h; cases h'; exact ⟨rfl, .nil⟩
  | cons g gs ih =>
    have ih := @ih (fun d h => hok d (List.mem_cons_of_mem _ h)) (fun d h => hev d (List.mem_cons_of_mem _ h))
      (fun d h => hev' d (List.mem_cons_of_mem _ h))
    rw [createGroup] at h
    rw [Renaming.defns, createGroup, groupValues_renamed hf] at h'
    cases hg : groupValues ident g with
    | error x => rw [hg] at h; cases h
    | ok vs =>
      rw [hg] at h h'
      cases vs with
      | nil => exact ih keys h h'
      | cons v vs =>
        simp only at h h'
        cases hk : addKeys keys [v] with
        | error x => rw [hk] at h; cases h
        | ok k1 =>
          rw [hk] at h h'
          simp only at h h'
          cases h3 : createAs E g.name g.orderOrNative g with
          | error x => rw [h3] at h; cases h
          | ok m =>
            cases h4 : createAs E (R.defn g).name (R.defn g).orderOrNative (R.defn g) with
            | error x => rw [h4] at h'; cases h'
            | ok m' =>
              have hm := createOwn_renamed (hok g List.mem_cons_self) (hev g List.mem_cons_self)
                (hev' g List.mem_cons_self) h3 h4
              rw [h3] at h
              rw [h4] at h'
              simp only at h h'
              cases hk2 : addKeys keys (v :: vs) with
              | error x => rw [hk2] at h; cases h
              | ok k2 =>
                rw [hk2] at h h'
                simp only at h h'
                cases h5 : createGroup E ident k2 gs with
                | error x => rw [h5] at h; cases h
                | ok r =>
                  cases h6 : createGroup E (R.member ident) k2 (R.defns gs) with
                  | error x => rw [h6] at h'; cases h'
                  | ok r' =>
                    rw [h5] at h
                    rw [h6] at h'
                    cases h; cases h'
                    obtain ⟨h8, h7⟩ := ih k2 h5 h6
                    rw [maps_append, maps_replicate]
                    exact ⟨h8, (SameMaps.replicate hm _).append h7⟩

/-- The type of a renamed member. -/
theorem usable_target {d : Defn} {n : String} (hd : ∀ h ms, d ≠ .struct h ms)
    (h : (called n (R.defn d)).Every WellNamed) : (R.defn d.target).Every WellNamed := by
  cases d with
  | member h0 d c t vs => exact h.2
  | struct h0 ms => exact absurd rfl (hd h0 ms)
  | _ =>
    simp only [Renaming.defn, called, Defn.target, Defn.Every] at h ⊢
    first | exact h | exact ⟨trivial, h.2⟩

theorem members_every {ds : List Defn} (h : ∀ d ∈ R.members ds, d.Every WellNamed) (d : Defn) (hd : d ∈ ds) :
    (called (R.member d.name) (R.defn d)).Every WellNamed := by
  induction ds with
  | nil => cases hd
  | cons a ds ih =>
    rw [Renaming.members] at h
    rcases List.mem_cons.mp hd with rfl | hd
    · exact h _ List.mem_cons_self
    · exact ih (fun d hd => h d (List.mem_cons_of_mem _ hd)) hd

theorem defns_every {ds : List Defn} (h : ∀ d ∈ R.defns ds, d.Every WellNamed) (d : Defn) (hd : d ∈ ds) :
    (R.defn d).Every WellNamed := by
  induction ds with
  | nil => cases hd
  | cons a ds ih =>
    rw [Renaming.defns] at h
    rcases List.mem_cons.mp hd with rfl | hd
    · exact h _ List.mem_cons_self
    · exact ih (fun d hd => h d (List.mem_cons_of_mem _ hd)) hd

theorem createAs_seq_renamed {h : Hdr} {info : SeqInfo} {e : Defn} (ih : CreateRenamed E R e) :
    CreateRenamed E R (.seq h info e) := by
  intro nm nm' o m m' _ hev hev' hc hc'
  have hfo := Both.follows hev
  simp only [Renaming.defn, Defn.Every] at hev hev' hfo hc'
  obtain ⟨n, eo, em, hn, he, ⟨eo', ho, rfl⟩, rfl, -⟩ := createAs_seq_named hc
  obtain ⟨n2, eo2, em2, hn2, he2, ⟨eo2', ho2, rfl⟩, rfl, -⟩ := createAs_seq_named hc'
  have hsz := defn_size (E := E) (R := R) (d := .seq h info e) hfo
  rw [Renaming.defn] at hsz
  rw [defn_order, ho] at ho2
  cases ho2
  rw [defn_composite hfo.2] at he2 hn2
  rw [defn_name] at hn2
  have hm := ih _ _ _ _ _ (by
    rintro h0 ms rfl
    rw [hn rfl, hn2 rfl]
    exact ⟨rfl, .inl rfl⟩) hev.2 hev'.2 he he2
  rw [Renaming.map, hsz, defn_composite hfo.2, defn_size hfo.2, defn_terminator]
  by_cases hk : info.kind = .sequence
  · refine SameMap.sequence (t := info.elementDataType) hk hm fun hl => ?_
    have hcomp : (R.defn e).isComposite = false := by
      rw [defn_composite hfo.2]
      cases hc : e.isComposite with
      | true => rw [hc] at hl; simp [seqLinear] at hl
      | false => rfl
    exact (simple_orderStr hcomp he2 hm.symm).symm
  · exact SameMap.stream (t := info.elementDataType) hk fun E off ctx => sizeHint_same E hm off ctx

/-- The map of a renamed definition is the renamed map. -/
theorem createAs_renaming (hf : ∀ a b, R.member a = R.member b → a = b) (d : Defn) : CreateRenamed E R d := by
  suffices h : CreateRenamed E R d ∧ CreateRenamed E R d.target from h.1
  have both : ∀ {p : Prop}, p → p ∧ p := fun h => ⟨h, h⟩
  induction d using Defn.ind with
  | seq h info e ih => exact ⟨createAs_seq_renamed ih.1, createAs_seq_renamed ih.1⟩
  | struct h ms ih =>
    refine both ?_
    intro nm nm' o m m' hs hev hev' hc hc'
    obtain ⟨rfl, hn⟩ := hs h ms rfl
    have hfo := Both.follows hev
    have hsz := defn_size hfo
    simp only [Renaming.defn, Defn.Every] at hev hev' hfo hc' hsz
    rw [everyDefn_iff] at hev hev' hfo
    obtain ⟨i, infos, maps, linear, hcls, hmem, hlin, rfl, -⟩ := createAs_struct hc
    obtain ⟨i2, infos2, maps2, linear2, hcls2, hmem2, hlin2, rfl, -⟩ := createAs_struct hc'
    have hu : WellNamed (.struct h ms) := hev.1.1
    have hu2 : WellNamed (.struct h (R.members ms)) := hev'.1
    have hi : i = i2 := by rw [createClass_usable hu hn hcls, createClass_usable hu2 hn hcls2]
    subst hi
    rw [members_linear hfo.2, hlin] at hlin2
    cases hlin2
    rw [createMembers_plain E nm o _ hu.1 _ (fun d h => h) [] (by simp)] at hmem
    rw [createMembers_plain E nm o _ hu2.1 _ (fun d h => h) [] (by simp)] at hmem2
    obtain ⟨rfl, hm⟩ := plainMembers_renamed hu.2.2.2.2 (fun d hd => (ih d hd).2) hev.2
      (fun d hd => usable_target (hu.2.2.2.2 d hd) (members_every hev'.2 d hd)) hmem hmem2
    rw [Renaming.map, hsz]
    exact .struct rfl rfl hm
  | group h base ident dflt ms ihb ihd ihm =>
    refine both ?_
    intro nm nm' o m m' _ hev hev' hc hc'
    simp only [Renaming.defn, Defn.Every] at hev hev' hc'
    obtain ⟨-, eb, ed, em⟩ := hev
    obtain ⟨-, eb', ed', em'⟩ := hev'
    rw [everyDefn_iff] at em em'
    rw [everyOptDefn_iff] at ed ed'
    obtain ⟨dm, bm, keys, maps, h1, h2, -, h3, rfl⟩ := createAs_group hc
    obtain ⟨dm', bm', keys', maps', h1', h2', -, h3', rfl⟩ := createAs_group hc'
    obtain ⟨rfl, hm⟩ := createGroup_renamed hf ident (fun d hd => (ihm d hd).1) em (defns_every em') [] h3 h3'
    have hb := createOwn_renamed ihb.1 eb eb' h2 h2'
    rw [Renaming.map]
    refine .group hb ?_ hm
    cases dflt with
    | none => cases h1; cases h1'; exact .none
    | some d =>
      simp only [Renaming.defnOpt, createOpt] at h1 h1'
      split at h1
      · cases h1
      · split at h1'
        · cases h1'
        · rename_i h4 _ _ h5
          cases h1; cases h1'
          exact .some (createOwn_renamed (ihd d rfl).1 (ed d rfl) (ed' _ rfl) h4 h5)
  | member h d c t vs ih =>
    refine ⟨?_, ih.1⟩
    intro nm nm' o m m' _ _ _ hc hc'
    simp only [Renaming.defn, createAs] at hc hc'
    cases hc; cases hc'; exact .missing
  | prim h k s u =>
    refine both ?_
    intro nm nm' o m m' _ _ _ hc hc'
    simp only [Renaming.defn, createAs] at hc hc'
    split at hc
    · cases hc
    · cases hc
      split at hc'
      · cases hc'
      · cases hc'; exact .prim rfl
  | uuid h s u =>
    refine both ?_
    intro nm nm' o m m' _ _ _ hc hc'
    simp only [Renaming.defn, createAs] at hc hc'
    cases hc; cases hc'; exact .uuid rfl
  | padding h a =>
    refine both ?_
    intro nm nm' o m m' _ _ _ hc hc'
    simp only [Renaming.defn, createAs] at hc hc'
    cases hc; cases hc'; exact .padding
  | union h ms ih =>
    refine both ?_
    intro nm nm' o m m' _ _ _ hc hc'
    simp only [Renaming.defn, createAs] at hc hc'
    cases hc; cases hc'; exact .missing
  | constant h v =>
    refine both ?_
    intro nm nm' o m m' _ _ _ hc hc'
    simp only [Renaming.defn, createAs] at hc hc'
    cases hc; cases hc'; exact .constant
  | enumeration h vs =>
    refine both ?_
    intro nm nm' o m m' _ _ _ hc hc'
    simp only [Renaming.defn, createAs] at hc hc'
    cases hc; cases hc'; exact .enumeration
  | format h fo l =>
    refine both ?_
    intro nm nm' o m m' _ _ _ hc hc'
    simp only [Renaming.defn, createAs] at hc hc'
    cases hc; cases hc'; exact .format
  | family h b ms ihb ihm =>
    refine both ?_
    intro nm nm' o m m' _ _ _ hc hc'
    simp only [Renaming.defn, createAs] at hc hc'
    cases hc; cases hc'; exact .missing

/-- All expressions of a created map can be rewritten. -/
theorem createAs_follows {d : Defn} {nm : String} {o : Order} {m : DMap} (hm : createAs E nm o d = .ok m)
    (hd : d.Every (DefnFollows E R)) : m.Every (MapFollows E R) := by
  refine createAs_every (P := DefnFollows E R) (Q := MapFollows E R) ?_ d nm o m hm hd
  intro d nm o m hm hd s hs
  cases d with
  | seq h info e =>
    obtain ⟨n, eo, em, -, -, rfl, -⟩ := createAs_seq hm
    exact hd s hs
  | struct h ms =>
    obtain ⟨i, infos, maps, linear, -, hmem, -, rfl, -⟩ := createAs_struct hm
    obtain ⟨rfl, -, -⟩ := createMembers_all E nm o (fun _ => True) ms (fun _ _ _ _ _ _ => trivial) [] (by simp) _ _ hmem
    refine hd s ?_
    simp only [mapExpressions, List.filterMap_map] at hs
    simp only [exprsOf]
    have : conditionOf = (fun i : MemInfo => i.condition) ∘ Defn.memInfo := by
      funext d; cases d <;> rfl
    rw [this]
    exact hs
  | group h base ident dflt ms =>
    obtain ⟨dm, bm, keys, maps, -, -, -, -, rfl⟩ := createAs_group hm
    cases hs
  | prim h k s u =>
    simp only [createAs] at hm
    split at hm
    · cases hm
    · cases hm; cases hs
  | _ => simp only [createAs] at hm; cases hm; cases hs

end Dtf
