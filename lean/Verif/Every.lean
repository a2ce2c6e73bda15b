import Verif.Refine
/-!
Predicates over all parts of a definition or map, and their transfer from a
definition to the map created from it.
-/
namespace Dtf

/-- Two lists of the same length whose elements are related pairwise. -/
inductive All2 {α β : Type} (R : α → β → Prop) : List α → List β → Prop
  | nil : All2 R [] []
  | cons {a : α} {b : β} {as : List α} {bs : List β} (h : R a b) (t : All2 R as bs) :
      All2 R (a :: as) (b :: bs)

theorem All2.length_eq {α β : Type} {R : α → β → Prop} {as : List α} {bs : List β}
    (h : All2 R as bs) : as.length = bs.length := by
  induction h <;> simp_all

theorem All2.imp {α β : Type} {R S : α → β → Prop} {as : List α} {bs : List β}
    (h : All2 R as bs) (hi : ∀ a ∈ as, ∀ b ∈ bs, R a b → S a b) : All2 S as bs := by
  induction h with
  | nil => exact .nil
  | cons h t ih =>
    exact .cons (hi _ List.mem_cons_self _ List.mem_cons_self h)
      (ih fun a ha b hb => hi a (List.mem_cons_of_mem _ ha) b (List.mem_cons_of_mem _ hb))

mutual
/-- `P` holds for the definition and every definition it is built from. -/
def Defn.Every (P : Defn → Prop) : Defn → Prop
  | .seq h i e => P (.seq h i e) ∧ e.Every P
  | .struct h ms => P (.struct h ms) ∧ everyDefn P ms
  | .union h ms => P (.union h ms) ∧ everyDefn P ms
  | .family h b ms => P (.family h b ms) ∧ b.Every P ∧ everyDefn P ms
  | .group h b i dflt ms =>
    P (.group h b i dflt ms) ∧ b.Every P ∧ everyOptDefn P dflt ∧ everyDefn P ms
  | .member h d c dt vs => P (.member h d c dt vs) ∧ d.Every P
  | .prim h k s u => P (.prim h k s u)
  | .uuid h s u => P (.uuid h s u)
  | .padding h a => P (.padding h a)
  | .constant h v => P (.constant h v)
  | .enumeration h vs => P (.enumeration h vs)
  | .format h o l => P (.format h o l)
termination_by structural d => d
def everyDefn (P : Defn → Prop) : List Defn → Prop
  | [] => True
  | d :: ds => d.Every P ∧ everyDefn P ds
termination_by structural ds => ds
def everyOptDefn (P : Defn → Prop) : Option Defn → Prop
  | none => True
  | some d => d.Every P
termination_by structural d => d
end

mutual
/-- `P` holds for the map and every map it is built from. -/
def DMap.Every (P : DMap → Prop) : DMap → Prop
  | .missing => P .missing
  | .prim h k s u => P (.prim h k s u)
  | .uuid h s u => P (.uuid h s u)
  | .padding h a => P (.padding h a)
  | .seq h i ei b e => P (.seq h i ei b e) ∧ e.Every P
  | .struct h b l io infos maps => P (.struct h b l io infos maps) ∧ everyMap P maps
  | .constant h => P (.constant h)
  | .enumeration h vs => P (.enumeration h vs)
  | .format h l => P (.format h l)
  | .group h ident base dflt keys maps =>
    P (.group h ident base dflt keys maps) ∧ base.Every P ∧ everyOptMap P dflt ∧ everyMap P maps
termination_by structural m => m
def everyMap (P : DMap → Prop) : List DMap → Prop
  | [] => True
  | m :: ms => m.Every P ∧ everyMap P ms
termination_by structural ms => ms
def everyOptMap (P : DMap → Prop) : Option DMap → Prop
  | none => True
  | some m => m.Every P
termination_by structural m => m
end

theorem everyMap_iff (P : DMap → Prop) (ms : List DMap) :
    everyMap P ms ↔ ∀ m ∈ ms, m.Every P := by
  induction ms with
  | nil => simp [everyMap]
  | cons m ms ih => simp [everyMap, ih]

theorem everyDefn_iff (P : Defn → Prop) (ms : List Defn) :
    everyDefn P ms ↔ ∀ m ∈ ms, m.Every P := by
  induction ms with
  | nil => simp [everyDefn]
  | cons m ms ih => simp [everyDefn, ih]

theorem everyOptMap_iff (P : DMap → Prop) (o : Option DMap) :
    everyOptMap P o ↔ ∀ m, o = some m → m.Every P := by
  cases o <;> simp [everyOptMap]

theorem everyOptDefn_iff (P : Defn → Prop) (o : Option Defn) :
    everyOptDefn P o ↔ ∀ m, o = some m → m.Every P := by
  cases o <;> simp [everyOptDefn]

theorem DMap.Every.self {P : DMap → Prop} {m : DMap} (h : m.Every P) : P m := by
  cases m <;> simp only [DMap.Every] at h <;> first | exact h | exact h.1

theorem Defn.Every.self {P : Defn → Prop} {d : Defn} (h : d.Every P) : P d := by
  cases d <;> simp only [Defn.Every] at h <;> first | exact h | exact h.1

/-- Induction over data type definitions. -/
theorem Defn.ind {P : Defn → Prop}
    (prim : ∀ h k s u, P (.prim h k s u)) (uuid : ∀ h s u, P (.uuid h s u))
    (padding : ∀ h a, P (.padding h a))
    (seq : ∀ h i e, P e → P (.seq h i e))
    (struct : ∀ h ms, (∀ m ∈ ms, P m) → P (.struct h ms))
    (union : ∀ h ms, (∀ m ∈ ms, P m) → P (.union h ms))
    (constant : ∀ h v, P (.constant h v)) (enumeration : ∀ h vs, P (.enumeration h vs))
    (format : ∀ h o l, P (.format h o l))
    (family : ∀ h b ms, P b → (∀ m ∈ ms, P m) → P (.family h b ms))
    (group : ∀ h base ident dflt ms, P base → (∀ d, dflt = some d → P d) →
      (∀ m ∈ ms, P m) → P (.group h base ident dflt ms))
    (member : ∀ h d c dt vs, P d → P (.member h d c dt vs)) (d : Defn) : P d :=
  Defn.rec (motive_1 := P) (motive_2 := fun ms => ∀ m ∈ ms, P m)
    (motive_3 := fun o => ∀ d, o = some d → P d)
    prim uuid padding (fun h i e ih => seq h i e ih)
    (fun h ms ih => struct h ms ih) (fun h ms ih => union h ms ih) constant enumeration format
    (fun h b ms i1 i2 => family h b ms i1 i2)
    (fun h base ident dflt ms i1 i2 i3 => group h base ident dflt ms i1 i2 i3)
    (fun h d c dt vs ih => member h d c dt vs ih)
    (by simp) (fun m ms h1 h2 => by simp_all) (by simp) (fun d h => by simp_all) d

/-- The definition whose map is used for a structure member: the definition in a
MemberDataTypeDefinition, else the member definition itself
(dtfabric/runtime/data_maps.py:1843-1847). -/
def Defn.target : Defn → Defn
  | .member _ d _ _ _ => d
  | d => d

/-- Name, condition and supported values of a structure member. -/
def Defn.memInfo : Defn → MemInfo
  | .member h _ c _ vs => ⟨h.name, c, vs⟩
  | d => ⟨d.name, none, none⟩

theorem Defn.Every.target {P : Defn → Prop} {d : Defn} (h : d.Every P) : d.target.Every P := by
  cases d <;> simp only [Defn.target] <;> first | exact h | (simp only [Defn.Every] at h; exact h.2)

theorem createMembers_cons (E : Env) (sname : String) (so : Order) (cache : List (String × DMap))
    (d : Defn) (ds : List Defn) :
    createMembers E sname so cache (d :: ds) =
      match memberNameOrder sname so d.target with
      | .error x => .error x
      | .ok (n, o) =>
        match (match cache.find? (·.1 == n) with
          | some p => Except.ok p.2
          | none => createAs E n o d.target) with
        | .error x => .error x
        | .ok m =>
          match createMembers E sname so ((n, m) :: cache) ds with
          | .error x => .error x
          | .ok (infos, maps) => .ok (d.memInfo :: infos, m :: maps) := by
  cases d <;> rfl

/-- What a successful createMembers gives when maps satisfying `Q` are created. -/
theorem createMembers_all (E : Env) (sname : String) (so : Order) (Q : DMap → Prop)
    (ds : List Defn)
    (hQ : ∀ d ∈ ds, ∀ n o m, createAs E n o d.target = .ok m → Q m)
    (cache : List (String × DMap)) (hc : ∀ p ∈ cache, Q p.2)
    (infos : List MemInfo) (maps : List DMap)
    (h : createMembers E sname so cache ds = .ok (infos, maps)) :
    infos = ds.map Defn.memInfo ∧ maps.length = ds.length ∧ ∀ m ∈ maps, Q m := by
  induction ds generalizing cache infos maps with
  | nil => simp [createMembers] at h; obtain ⟨rfl, rfl⟩ := h; simp
  | cons d ds ih =>
    rw [createMembers_cons] at h
    split at h
    · cases h
    rename_i n o _
    split at h
    · cases h
    rename_i m hm
    split at h
    · cases h
    rename_i infos' maps' hr
    simp only [Except.ok.injEq, Prod.mk.injEq] at h
    obtain ⟨rfl, rfl⟩ := h
    have hqm : Q m := by
      split at hm
      · rename_i p hp
        cases hm
        exact hc p (List.mem_of_find?_eq_some hp)
      · exact hQ d List.mem_cons_self _ _ _ hm
    obtain ⟨h1, h2, h3⟩ := ih (fun d hd => hQ d (List.mem_cons_of_mem _ hd)) _
      (by intro p hp; simp only [List.mem_cons] at hp; rcases hp with rfl | hp
          · exact hqm
          · exact hc p hp) infos' maps' hr
    refine ⟨by simp [h1], by simp [h2], ?_⟩
    intro x hx
    simp only [List.mem_cons] at hx
    rcases hx with rfl | hx
    · exact hqm
    · exact h3 x hx

theorem createGroup_all (E : Env) (ident : String) (Q : DMap → Prop) (ds : List Defn)
    (hQ : ∀ d ∈ ds, ∀ n o m, createAs E n o d = .ok m → Q m) (keys ks : List Lit)
    (maps : List DMap) (h : createGroup E ident keys ds = .ok (ks, maps)) :
    ∀ m ∈ maps, Q m := by
  induction ds generalizing keys ks maps with
  | nil => simp [createGroup] at h; obtain ⟨rfl, rfl⟩ := h; simp
  | cons d ds ih =>
    have hq' := fun d hd => hQ d (List.mem_cons_of_mem _ hd)
    rw [createGroup] at h
    split at h
    · cases h
    · exact ih hq' _ _ _ h
    split at h
    · cases h
    split at h
    · cases h
    rename_i m hm
    split at h
    · cases h
    split at h
    · cases h
    rename_i hr
    simp only [Except.ok.injEq, Prod.mk.injEq] at h
    obtain ⟨rfl, rfl⟩ := h
    intro x hx
    simp only [List.mem_append, List.mem_replicate] at hx
    rcases hx with ⟨-, rfl⟩ | hx
    · exact hQ d List.mem_cons_self _ _ _ hm
    · exact ih hq' _ _ _ hr x hx

/-- Inversion of the creation of a sequence map. -/
theorem createAs_seq_named {E : Env} {nm : String} {o : Order} {h : Hdr} {info : SeqInfo} {e : Defn}
    {m : DMap} (hm : createAs E nm o (.seq h info e) = .ok m) :
    ∃ n eo em, (e.isComposite = true → n = e.name) ∧ createAs E n eo e = .ok em ∧
      (∃ eo', e.order? = some eo' ∧ eo = (if o ≠ .native ∧ eo' = .native ∧ e.isComposite = false
        then o else eo')) ∧
      m = .seq { h with name := nm, order := o } info ⟨e.byteSize, e.isComposite, e.terminator?⟩
        (Defn.seq h info e).byteSize em ∧
      finishSeq E info m ⟨e.byteSize, e.isComposite, e.terminator?⟩ = .ok m := by
  rw [createAs] at hm
  split at hm
  · cases hm
  rename_i eo heo
  simp only at hm
  split at hm
  · cases hm
  rename_i em hem
  have hfin : ∀ m' ei, finishSeq E info m' ei = .ok m → m' = m := by
    intro m' ei hf
    unfold finishSeq at hf
    split at hf
    · cases hf
    split at hf
    · split at hf
      · cases hf
      · exact Except.ok.inj hf
    · split at hf
      · cases hf
      · exact Except.ok.inj hf
    · split at hf
      · split at hf
        · cases hf
        · exact Except.ok.inj hf
      · exact Except.ok.inj hf
  have := hfin _ _ hm
  subst this
  refine ⟨_, _, em, ?_, hem, ⟨eo, heo, ?_⟩, rfl, hm⟩
  · intro hc
    simp [hc]
  cases o <;> cases eo <;> cases e.isComposite <;> simp

/-- The same without the name the element map is created under. -/
theorem createAs_seq {E : Env} {nm : String} {o : Order} {h : Hdr} {info : SeqInfo} {e : Defn}
    {m : DMap} (hm : createAs E nm o (.seq h info e) = .ok m) :
    ∃ n eo em, createAs E n eo e = .ok em ∧
      (∃ eo', e.order? = some eo' ∧ eo = (if o ≠ .native ∧ eo' = .native ∧ e.isComposite = false
        then o else eo')) ∧
      m = .seq { h with name := nm, order := o } info ⟨e.byteSize, e.isComposite, e.terminator?⟩
        (Defn.seq h info e).byteSize em ∧
      finishSeq E info m ⟨e.byteSize, e.isComposite, e.terminator?⟩ = .ok m :=
  let ⟨n, eo, em, _, h⟩ := createAs_seq_named hm
  ⟨n, eo, em, h⟩

/-- Inversion of the creation of a structure map. -/
theorem createAs_struct {E : Env} {nm : String} {o : Order} {h : Hdr} {ms : List Defn}
    {m : DMap} (hm : createAs E nm o (.struct h ms) = .ok m) :
    ∃ instOk infos maps linear, createClass E nm h.description ms = .ok instOk ∧
      createMembers E nm o [] ms = .ok (infos, maps) ∧ checkLinear o ms = .ok linear ∧
      m = .struct { h with name := nm, order := o } (Defn.struct h ms).byteSize linear instOk
        infos maps ∧ (linear = true → ∃ op, m.operation = .ok op) := by
  rw [createAs] at hm
  split at hm
  · cases hm
  rename_i instOk hcls
  split at hm
  · cases hm
  rename_i infos maps hmem
  split at hm
  · cases hm
  rename_i linear hlin
  refine ⟨instOk, infos, maps, linear, hcls, hmem, hlin, ?_⟩
  unfold finishStruct at hm
  split at hm
  · split at hm
    · cases hm
    · rename_i op hop
      cases hm
      exact ⟨rfl, fun _ => ⟨_, hop⟩⟩
  · cases hm
    exact ⟨rfl, fun h => absurd h (by assumption)⟩

/-- Inversion of the creation of a group map. -/
theorem createAs_group {E : Env} {nm : String} {o : Order} {h : Hdr} {base : Defn}
    {ident : String} {dflt : Option Defn} {ms : List Defn} {m : DMap}
    (hm : createAs E nm o (.group h base ident dflt ms) = .ok m) :
    ∃ dm bm keys maps, createOpt E dflt = .ok dm ∧
      createAs E base.name base.orderOrNative base = .ok bm ∧
      ms ≠ [] ∧ createGroup E ident [] ms = .ok (keys, maps) ∧
      m = .group { h with name := nm, order := o } ident bm dm keys maps := by
  rw [createAs] at hm
  split at hm
  · cases hm
  rename_i dm hdm
  split at hm
  · cases hm
  rename_i bm hbm
  split at hm
  · cases hm
  rename_i hne
  split at hm
  · cases hm
  rename_i keys maps hg
  cases hm
  exact ⟨dm, bm, keys, maps, hdm, hbm, by simpa using hne, hg, rfl⟩

/-- A property of single maps that follows from a property of single definitions
holds for all parts of a created map. -/
theorem createAs_every {E : Env} {P : Defn → Prop} {Q : DMap → Prop}
    (hPQ : ∀ d nm o m, createAs E nm o d = .ok m → P d → Q m) (d : Defn) :
    ∀ nm o m, createAs E nm o d = .ok m → d.Every P → m.Every Q := by
  suffices h : (∀ nm o m, createAs E nm o d = .ok m → d.Every P → m.Every Q) ∧
      (∀ nm o m, createAs E nm o d.target = .ok m → d.target.Every P → m.Every Q) from h.1
  induction d using Defn.ind with
  | seq h i e ih =>
    refine ⟨?a, ?a⟩
    intro nm o m hm hd
    have hq := hPQ _ _ _ _ hm hd.self
    obtain ⟨n, eo, em, he, -, rfl, -⟩ := createAs_seq hm
    simp only [Defn.Every] at hd
    exact ⟨hq, ih.1 _ _ _ he hd.2⟩
  | struct h ms ih =>
    refine ⟨?b, ?b⟩
    intro nm o m hm hd
    have hq := hPQ _ _ _ _ hm hd.self
    obtain ⟨io, infos, maps, l, -, hmem, -, rfl, -⟩ := createAs_struct hm
    simp only [Defn.Every, everyDefn_iff] at hd
    simp only [DMap.Every, everyMap_iff]
    refine ⟨hq, (createMembers_all E nm o (·.Every Q) ms ?_ [] (by simp) infos maps hmem).2.2⟩
    intro d hdm n o' m' hm'
    exact (ih d hdm).2 _ _ _ hm' (hd.2 d hdm).target
  | group h base ident dflt ms ih1 ih2 ih3 =>
    refine ⟨?c, ?c⟩
    intro nm o m hm hd
    have hq := hPQ _ _ _ _ hm hd.self
    obtain ⟨dm, bm, keys, maps, hdm, hbm, -, hg, rfl⟩ := createAs_group hm
    simp only [Defn.Every, everyDefn_iff, everyOptDefn_iff] at hd
    simp only [DMap.Every, everyMap_iff, everyOptMap_iff]
    refine ⟨hq, ih1.1 _ _ _ hbm hd.2.1, ?_, createGroup_all E ident (·.Every Q) ms ?_ _ _ _ hg⟩
    · rintro m' rfl
      cases dflt with
      | none => simp [createOpt] at hdm
      | some d =>
        simp only [createOpt] at hdm
        split at hdm
        · cases hdm
        · rename_i hx
          cases hdm
          exact (ih2 d rfl).1 _ _ _ hx (hd.2.2.1 d rfl)
    · intro d hdm n o' m' hm'
      exact (ih3 d hdm).1 _ _ _ hm' (hd.2.2.2 d hdm)
  | member h d c dt vs ih =>
    refine ⟨?_, ih.1⟩
    intro nm o m hm hd
    have hq := hPQ _ _ _ _ hm hd.self
    simp only [createAs, Except.ok.injEq] at hm
    subst hm
    exact hq
  | prim h k s u =>
    refine ⟨?d, ?d⟩
    intro nm o m hm hd
    have hq := hPQ _ _ _ _ hm hd.self
    simp only [createAs] at hm
    split at hm
    · cases hm
    · cases hm; exact hq
  | _ =>
    refine and_self_iff.mpr ?_
    intro nm o m hm hd
    have hq := hPQ _ _ _ _ hm hd.self
    simp only [createAs, Except.ok.injEq] at hm
    subst hm
    exact hq

theorem Defn.Every.imp {P Q : Defn → Prop} (hPQ : ∀ d, P d → Q d) (d : Defn) (h : d.Every P) :
    d.Every Q := by
  induction d using Defn.ind with
  | seq hh i e ih => simp only [Defn.Every] at h ⊢; exact ⟨hPQ _ h.1, ih h.2⟩
  | struct hh ms ih =>
    simp only [Defn.Every, everyDefn_iff] at h ⊢
    exact ⟨hPQ _ h.1, fun d hd => ih d hd (h.2 d hd)⟩
  | union hh ms ih =>
    simp only [Defn.Every, everyDefn_iff] at h ⊢
    exact ⟨hPQ _ h.1, fun d hd => ih d hd (h.2 d hd)⟩
  | family hh b ms ih1 ih2 =>
    simp only [Defn.Every, everyDefn_iff] at h ⊢
    exact ⟨hPQ _ h.1, ih1 h.2.1, fun d hd => ih2 d hd (h.2.2 d hd)⟩
  | group hh b i dflt ms ih1 ih2 ih3 =>
    simp only [Defn.Every, everyDefn_iff, everyOptDefn_iff] at h ⊢
    exact ⟨hPQ _ h.1, ih1 h.2.1, fun d hd => ih2 d hd (h.2.2.1 d hd),
      fun d hd => ih3 d hd (h.2.2.2 d hd)⟩
  | member hh d c dt vs ih => simp only [Defn.Every] at h ⊢; exact ⟨hPQ _ h.1, ih h.2⟩
  | _ => simp only [Defn.Every] at h ⊢; exact hPQ _ h

theorem DMap.Every.imp {P Q : DMap → Prop} (hPQ : ∀ m, P m → Q m) (m : DMap) (h : m.Every P) :
    m.Every Q := by
  induction m using DMap.ind with
  | seq hh i ei b e ih => simp only [DMap.Every] at h ⊢; exact ⟨hPQ _ h.1, ih h.2⟩
  | struct hh b l io infos maps ih =>
    simp only [DMap.Every, everyMap_iff] at h ⊢
    exact ⟨hPQ _ h.1, fun m hm => ih m hm (h.2 m hm)⟩
  | group hh ident base dflt keys maps i1 i2 i3 =>
    simp only [DMap.Every, everyMap_iff, everyOptMap_iff] at h ⊢
    exact ⟨hPQ _ h.1, i1 h.2.1, fun m hm => i2 m hm (h.2.2.1 m hm), fun m hm => i3 m hm (h.2.2.2 m hm)⟩
  | _ => simp only [DMap.Every] at h ⊢; exact hPQ _ h

theorem DMap.Every.and {P Q : DMap → Prop} (m : DMap) (hp : m.Every P) (hq : m.Every Q) :
    m.Every fun m => P m ∧ Q m := by
  induction m using DMap.ind with
  | seq hh i ei b e ih =>
    simp only [DMap.Every] at hp hq ⊢
    exact ⟨⟨hp.1, hq.1⟩, ih hp.2 hq.2⟩
  | struct hh b l io infos maps ih =>
    simp only [DMap.Every, everyMap_iff] at hp hq ⊢
    exact ⟨⟨hp.1, hq.1⟩, fun m hm => ih m hm (hp.2 m hm) (hq.2 m hm)⟩
  | group hh ident base dflt keys maps ih1 ih2 ih3 =>
    simp only [DMap.Every, everyMap_iff, everyOptMap_iff] at hp hq ⊢
    exact ⟨⟨hp.1, hq.1⟩, ih1 hp.2.1 hq.2.1, fun m hm => ih2 m hm (hp.2.2.1 m hm) (hq.2.2.1 m hm),
      fun m hm => ih3 m hm (hp.2.2.2 m hm) (hq.2.2.2 m hm)⟩
  | _ => simp only [DMap.Every] at hp hq ⊢; exact ⟨hp, hq⟩

end Dtf
