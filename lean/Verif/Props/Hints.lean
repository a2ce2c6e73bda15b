import Verif.HintFacts
import Verif.Props.Structures
import Verif.Props.Definitions
import Verif.Props.Locality
/-!
C29: reading as many bytes as GetSizeHint asks for, until MapByteStream succeeds.
-/
namespace Dtf

namespace Spec

/-- Data types for which reading by size hints works: everything they are built
from is `Hinted`; a structure may have padding members itself; or a group without
default whose base and members are built from such types, whose base is no larger
than any member and whose members do not have null as a value of the identifier. -/
def HintedType (E : Env) (d : Defn) : Prop :=
  (d.Every fun d => FullTerminators d ∧ Ordinary d ∧ Plain d ∧ Hinted E d) ∨
  (∃ h ms, d = .struct h ms ∧ DistinctTypes ms ∧
    (∀ m ∈ ms, truthyStr m.memInfo.condition = false) ∧ (∃ m ∈ ms, ∃ h a, m = .padding h a) ∧
    (∀ m ∈ ms, (∃ h a, m = .padding h a) ∨
      m.Every fun d => FullTerminators d ∧ Ordinary d ∧ Plain d ∧ Hinted E d)) ∨
  ∃ h base ident ms, d = .group h base ident none ms ∧
    (∀ d ∈ base :: ms, d.Every fun d => FullTerminators d ∧ Ordinary d ∧ Plain d ∧ Hinted E d) ∧
    (∃ s, greatest base = some s ∧ ∀ g ∈ ms, s ≤ fewest g) ∧
    ∀ g ∈ ms, ∀ vs, IdentifierValues ident g vs → .null ∉ vs

/-- Reading the first `n` bytes of `bs` and mapping them with a fresh context; each
time the byte stream is too small reading as many bytes as GetSizeHint says:
`Retries E m bs ns n hints v` if this ends with the value `v` after the hints
`hints`. -/
inductive Retries (E : Env) (m : DMap) (bs : Bytes) (ns : Namespace) : Nat → List Nat → Val → Prop
  | done (n : Nat) (v : Val) (h : (mapStream E m (bs.take n) 0 0 { values := ns }).1 = .ok v) :
      Retries E m bs ns n [] v
  | again (n k : Nat) (hints : List Nat) (v : Val)
      (h : (mapStream E m (bs.take n) 0 0 { values := ns }).1 = .error .tooSmall)
      (hk : (getSizeHint E m (mapStream E m (bs.take n) 0 0 { values := ns }).2).1 = .ok (some (k : Int)))
      (t : Retries E m bs ns k hints v) : Retries E m bs ns n (k :: hints) v

end Spec
open Spec

/-! ### From definitions to maps -/

theorem Defn.Every.nest {P : Defn → Prop} (d : Defn) (h : d.Every P) : d.Every fun d => d.Every P := by
  induction d using Defn.ind with
  | seq hh i e ih => have h' := h; simp only [Defn.Every] at h ⊢; exact ⟨h, ih h.2⟩
  | struct hh ms ih =>
    simp only [Defn.Every, everyDefn_iff] at h ⊢
    exact ⟨⟨h.1, h.2⟩, fun d hd => ih d hd (h.2 d hd)⟩
  | union hh ms ih =>
    simp only [Defn.Every, everyDefn_iff] at h ⊢
    exact ⟨⟨h.1, h.2⟩, fun d hd => ih d hd (h.2 d hd)⟩
  | family hh b ms ih1 ih2 =>
    simp only [Defn.Every, everyDefn_iff] at h ⊢
    exact ⟨⟨h.1, h.2⟩, ih1 h.2.1, fun d hd => ih2 d hd (h.2.2 d hd)⟩
  | group hh b i dflt ms ih1 ih2 ih3 =>
    simp only [Defn.Every, everyDefn_iff, everyOptDefn_iff] at h ⊢
    exact ⟨⟨h.1, h.2⟩, ih1 h.2.1, fun d hd => ih2 d hd (h.2.2.1 d hd),
      fun d hd => ih3 d hd (h.2.2.2 d hd)⟩
  | member hh d c dt vs ih => simp only [Defn.Every] at h ⊢; exact ⟨h, ih h.2⟩
  | _ => simp only [Defn.Every] at h ⊢; exact h

/-- The hints of the members of a linear structure add up to its size. -/
theorem hintMembers_linear {E : Env} {cls : String} {so : Order} {ms : List Defn} {maps : List DMap}
    (hmo : All2 (MapOf E cls so) ms maps)
    (hnc : ∀ d ∈ ms, d.target.isComposite = false ∧ (∀ h a, d ≠ .padding h a) ∧
      ∀ h d' c t vs, d.target ≠ .member h d' c t vs) (t n : Int)
    (hsz : structSize t ms = some n) (c : Ctx) : hintMembers E maps 0 t c = .ok n := by
  induction hmo generalizing t c with
  | nil => simp [structSize] at hsz; subst hsz; rfl
  | @cons d m ms maps hm hmo ih =>
    have hd := hnc d List.mem_cons_self
    have hstep : structSize t (d :: ms) = (match d.byteSize with
        | none => none
        | some s => structSize (t + s) ms) := by
      conv => lhs; unfold structSize
      split
      · exact absurd rfl (hd.2.1 _ _)
      · rfl
    rw [hstep] at hsz
    split at hsz
    · cases hsz
    rename_i s hs
    have htgt : d.target.byteSize = some s := by
      cases d <;> simp only [Defn.target] <;> try exact hs
      simp only [Defn.byteSize] at hs
      split at hs
      · cases hs
      · exact hs
    obtain ⟨n', o', -, hcr⟩ := hm
    have hh : sizeHint E m t c = .ok (some s) := by
      have hdc := hd.1
      have hdm := hd.2.2
      generalize d.target = x at htgt hcr hdc hdm
      cases x <;> simp [Defn.isComposite] at hdc <;> simp only [Defn.byteSize] at htgt <;> try cases htgt
      case prim =>
        simp only [createAs] at hcr
        split at hcr <;> cases hcr
        simp only [sizeHint, htgt]
      case member => exact absurd rfl (hdm _ _ _ _ _)
    rw [hintMembers]
    simp only [hh]
    exact ih (fun d hd => hnc d (List.mem_cons_of_mem _ hd)) (t + s) hsz {}

theorem hintNode_of {E : Env} (d : Defn) (nm : String) (o : Order) (m : DMap)
    (hm : createAs E nm o d = .ok m) (hd : d.Every (Hinted E) ∧ Ordinary d ∧ d.Every Plain) : HintNode E m := by
  obtain ⟨h1', h2, h3⟩ := hd
  have h1 := h1'.self
  cases d with
  | prim hh k s u =>
    simp only [createAs] at hm
    split at hm <;> cases hm
    trivial
  | uuid hh s u => simp only [createAs, Except.ok.injEq] at hm; subst hm; trivial
  | padding hh a => exact absurd h1 id
  | seq hh info e =>
    obtain ⟨n', eo, em, hem, -, rfl, -⟩ := createAs_seq hm
    have hp := h3.self
    simp only [Defn.Every] at h3
    obtain ⟨p1, p2, p3, p4⟩ := hp
    obtain ⟨hst, s, hs, hes, hk1, hk2⟩ := h1
    refine ⟨?_, s, ⟨hs, hes, hst, p1, p2, p3, ?_, ?_⟩, ?_, hk2⟩
    · intro t ht
      have h2 : info.terminator ≠ some .null := h2
      cases t <;> first | rfl | exact absurd ht h2
    · intro hd
      simp only [Defn.byteSize]
      cases hds : info.dataSize with
      | none =>
        have : info.numElements = none := by
          cases hn : info.numElements with
          | none => rfl
          | some k =>
            have := p3 (by rw [hn]; rfl)
            simp [SeqInfo.hasDataSize, this] at hd
        simp [truthyInt, this]
      | some k =>
        have := p1 k hds
        have : k ≠ 0 := by omega
        simp [truthyInt, this]
    · intro n hd hn
      rcases seq_byteSize ⟨p1, p2, p3, p4⟩ hn with ⟨h, -⟩ | ⟨k, s', -, -, hk, -, hs', -, rfl⟩
      · simp [SeqInfo.hasDataSize, h] at hd
      · rw [hes] at hs'
        cases hs'
        exact ⟨k, hk, rfl⟩
    · intro hk
      refine ⟨?_, hk1 hk, ?_⟩
      · intro k hkk
        obtain ⟨s', hs', -, hdv⟩ := (p4 hk).1 k hkk
        rw [hes] at hs'
        cases hs'
        exact hdv
      · intro bs off depth ns
        exact (parse_exact E bs e h3.2 s hes).2 _ _ _ hem off depth ns
  | struct hh ms =>
    obtain ⟨io, infos, maps, l, -, hmem, hlin, rfl, -⟩ := createAs_struct hm
    have hall := createMembers_all E nm o (fun _ => True) ms (by simp) [] (by simp) infos maps hmem
    have hmo := createMembers_mapOf E nm o ms h2 ms (fun d hd => hd) [] (by simp) _ _ hmem
    refine ⟨by rw [hall.1, List.length_map, hall.2.1], ?_, ?_⟩
    · intro i hi
      rw [hall.1, List.mem_map] at hi
      obtain ⟨m, hm, rfl⟩ := hi
      exact h1 m hm
    · rintro rfl n hn
      have hnc := checkLinear_true hlin
      refine ⟨(parse_exact E [] _ h3 n hn).1, fun c => ?_⟩
      have hsz : structSize 0 ms = some n := by
        cases ms with
        | nil => simp [Defn.byteSize] at hn
        | cons d ms => simpa only [Defn.byteSize] using hn
      refine hintMembers_linear hmo (fun d hd => ⟨(hnc d hd).2.1, (hnc d hd).2.2.2, ?_⟩) 0 n hsz c
      simp only [Defn.Every, everyDefn_iff] at h1'
      have := (h1'.2 d hd).self
      cases d <;> simp only [Defn.target] <;> first | exact this | (intros; simp)
  | group hh b i dflt ms => exact absurd h1 id
  | _ => simp only [createAs, Except.ok.injEq] at hm; subst hm; trivial

theorem padding_hints (E : Env) (h : Hdr) (a : Option Nat) :
    HintAfter E (.padding h a) ∧ HintFresh E (.padding h a) := by
  have hN : ∀ bs off v N, paddingParse a bs off = .ok (v, N) →
      ∃ k, a = some (k + 1) ∧ (N : Int) = paddingSize off (k + 1 : Nat) := by
    intro bs off v N hw
    unfold paddingParse calcPadding at hw
    cases a with
    | none => cases hw
    | some a =>
      cases a with
      | zero => cases hw
      | succ k =>
        simp only at hw
        split at hw <;> cases hw
        refine ⟨k, rfl, ?_⟩
        have := (paddingSize_spec off (k + 1) (by omega)).1
        push_cast at this ⊢
        omega
  refine ⟨?_, ?_⟩
  · intro bs ext off depth c v N hc hoff hw hp o ns' ho
    have ho := ho ⟨_, _, rfl⟩
    subst ho
    simp only [parse] at hw hp
    obtain ⟨k, rfl, hk⟩ := hN _ _ _ _ hw
    push_cast at hk
    simp only [paddingParse, calcPadding] at hp
    rw [← hk] at hp
    cases hts : tooSmall bs off N with
    | false => rw [hts] at hp; cases hp
    | true =>
      have hlt : (bs.length : Int) - off < N := by simpa [tooSmall] using hts
      refine ⟨N, ?_, by omega, by omega⟩
      simp only [mapStream, paddingMap, calcPadding, ← hk, hts, if_true, sizeHint]
  · intro bs off depth ns v N hw o ns' _
    right
    simp only [parse] at hw
    obtain ⟨k, rfl, hk⟩ := hN _ _ _ _ hw
    obtain ⟨s1, s2, s3⟩ := paddingSize_spec o (k + 1) (by omega)
    obtain ⟨t1, t2, t3⟩ := paddingSize_spec off (k + 1) (by omega)
    refine ⟨(paddingSize o (k + 1 : Nat)).toNat, ?_, fun h => absurd ⟨_, _, rfl⟩ h, ?_⟩
    · simp only [sizeHint, calcPadding]
      push_cast at s1 ⊢
      congr 2
      omega
    · intro _ ho
      have := s3 (off + paddingSize off (k + 1 : Nat)) (by omega) t2
      omega

/-! ### Hints of the maps of hinted types -/

theorem hinted_every {E : Env} {d : Defn} {nm : String} {o : Order} {m : DMap} (hm : createAs E nm o d = .ok m)
    (hd : d.Every fun d => FullTerminators d ∧ Ordinary d ∧ Plain d ∧ Hinted E d) :
    m.Every fun m => HintNode E m ∧ Extendable m := by
  have hH : d.Every (Hinted E) := Defn.Every.imp (fun _ h => h.2.2.2) d hd
  have hP : d.Every Plain := Defn.Every.imp (fun _ h => h.2.2.1) d hd
  have key : d.Every fun d => (d.Every fun d => (FullTerminators d ∧ Ordinary d ∧ Plain d ∧ Hinted E d)) ∧
      ∀ i e h, d = .seq h i e → Ordinary e := by
    refine Defn.Every.imp ?_ d (every_elem d (Defn.Every.nest d hd))
    rintro d ⟨h1, h2⟩
    exact ⟨h1, fun i e h heq => (h2 i e h heq).self.2.1⟩
  refine createAs_every ?_ d nm o m hm key
  rintro d nm o m hm ⟨h1, h2⟩
  exact ⟨hintNode_of d nm o m hm ⟨Defn.Every.imp (fun _ h => h.2.2.2) d h1, h1.self.2.1,
    Defn.Every.imp (fun _ h => h.2.2.1) d h1⟩, extendable_of d nm o m hm ⟨h1.self.1, h1.self.2.1, h2⟩⟩

theorem hintNth_eq (E : Env) (ms : List DMap) (i : Nat) (o : Int) (c : Ctx) :
    hintNth E ms i o c =
      match ms[i]? with
      | none => .error .attribute
      | some m => sizeHint E m o c := by
  induction ms generalizing i with
  | nil => simp [hintNth]
  | cons m ms ih => cases i <;> simp [hintNth, ih]

theorem allValues_member {E : Env} {ident : String} {ms : List Defn} {r : List (Lit × DMap)}
    (h : allValues E ident ms r) : ∀ x ∈ r, ∃ g ∈ ms, (∃ vs, IdentifierValues ident g vs ∧ x.1 ∈ vs) ∧
      createMap E g = .ok x.2 := by
  induction ms generalizing r with
  | nil => rw [allValues] at h; subst h; simp
  | cons g gs ih =>
    obtain ⟨vs, rest, h1, h2, h3, h4⟩ := h
    intro x hx
    have hr : x ∈ rest → ∃ g' ∈ g :: gs, (∃ vs, IdentifierValues ident g' vs ∧ x.1 ∈ vs) ∧ createMap E g' = .ok x.2 := by
      intro hx
      obtain ⟨g', hg', h⟩ := ih h2 x hx
      exact ⟨g', List.mem_cons_of_mem _ hg', h⟩
    by_cases hv : vs = []
    · rw [h4 hv] at hx
      exact hr hx
    · obtain ⟨m, hm, rfl⟩ := h3 hv
      rcases List.mem_append.mp hx with hx | hx
      · obtain ⟨v, hv, rfl⟩ := List.mem_map.mp hx
        exact ⟨g, List.mem_cons_self .., ⟨vs, h1, hv⟩, hm⟩
      · exact hr hx

theorem wrapErr_small {e : Err} (h : wrapErr e = .tooSmall) : e = .tooSmall := by
  cases e <;> first | rfl | cases h

theorem groupParse_ok {E : Env} {h : Hdr} {ident : String} {base : DMap} {keys : List Lit} {maps : List DMap}
    {bs : Bytes} {off depth : Nat} {ns : Namespace} {v : Val} {N : Nat}
    (hp : parse E (.group h ident base none keys maps) bs off depth ns = .ok (v, N)) :
    ∃ bv nb i mi, parse E base bs off depth [] = .ok (bv, nb) ∧ getAttr bv ident ≠ .pyNone ∧
      groupIndex keys (getAttr bv ident) = some i ∧ maps[i]? = some mi ∧ groupMapMissing (some mi) = false ∧
      parse E mi bs off depth [] = .ok (v, N) := by
  rw [parse] at hp
  split at hp
  · cases hp
  rename_i bv nb hb
  split at hp
  · cases hp
  rename_i hid
  split at hp
  · rename_i i hi
    split at hp
    · cases hp
    rename_i hmiss
    rw [parseNth_eq] at hp
    cases hmi : maps[i]? with
    | none => rw [hmi] at hmiss; exact absurd rfl hmiss
    | some mi =>
      rw [hmi] at hp hmiss
      simp only at hp
      refine ⟨bv, nb, i, mi, hb, hid, hi, hmi, by simpa using hmiss, ?_⟩
      generalize parse E mi bs off depth [] = p at hp
      rcases p with e | r
      · cases hp
      · simpa using hp
  · simp [groupMapMissing] at hp

theorem group_hints {E : Env} {h : Hdr} {base : Defn} {ident : String} {ms : List Defn} {m : DMap}
    (hm : createMap E (.group h base ident none ms) = .ok m)
    (hev : ∀ d ∈ base :: ms, d.Every fun d => FullTerminators d ∧ Ordinary d ∧ Plain d ∧ Hinted E d)
    {s : Nat} (hs1 : greatest base = some s) (hs2 : ∀ g ∈ ms, s ≤ fewest g)
    (hnull : ∀ g ∈ ms, ∀ vs, IdentifierValues ident g vs → .null ∉ vs) :
    m.Every Extendable ∧
    (∀ bs ext c v N, Ctx.Clean c → c.byteSize = none → parse E m (bs ++ ext) 0 0 c.values = .ok (v, N) →
      parse E m bs 0 0 c.values = .error .tooSmall →
      ∀ ns', ∃ k : Nat, sizeHint E m 0 { (mapStream E m bs 0 0 c).2 with values := ns' } = .ok (some (k : Int)) ∧
        bs.length < k ∧ k ≤ N) ∧
    (∀ bs ns v N, parse E m bs 0 0 ns = .ok (v, N) →
      sizeHint E m 0 { values := ns } = .ok none ∨
      ∃ k : Nat, sizeHint E m 0 { values := ns } = .ok (some (k : Int)) ∧ k ≤ N) := by
  obtain ⟨bm, dm, r, hbm, hdm, hr, -, rfl⟩ := createMap_group hm
  simp only [createOpt, Except.ok.injEq] at hdm
  subst hdm
  have hb := hinted_every hbm (hev base (List.mem_cons_self ..))
  have hmem := allValues_member hr
  have hms : ∀ mi ∈ r.map (·.2), ∃ g ∈ ms, createMap E g = .ok mi := by
    intro mi hmi
    obtain ⟨x, hx, rfl⟩ := List.mem_map.mp hmi
    obtain ⟨g, hg, -, hc⟩ := hmem x hx
    exact ⟨g, hg, hc⟩
  have hms' : ∀ mi ∈ r.map (·.2), mi.Every fun m => HintNode E m ∧ Extendable m := by
    intro mi hmi
    obtain ⟨g, hg, hc⟩ := hms mi hmi
    exact hinted_every hc (hev g (List.mem_cons_of_mem _ hg))
  have hno : groupIndex (r.map (·.1)) .pyNone = none := by
    unfold groupIndex
    rw [List.findIdx?_eq_none_iff]
    intro k hk
    obtain ⟨x, hx, rfl⟩ := List.mem_map.mp hk
    obtain ⟨g, hg, ⟨vs, hvs, hxv⟩, -⟩ := hmem x hx
    have := hnull g hg vs hvs
    generalize x.1 = y at hxv
    cases y <;> simp_all [pyEq, Val.num?, Lit.num?]
  have hsize : ∀ bs bv nb mi v N, parse E bm bs 0 0 [] = .ok (bv, nb) → mi ∈ r.map (·.2) →
      parse E mi bs 0 0 [] = .ok (v, N) → nb ≤ N := by
    intro bs bv nb mi v N h1 h2 h3
    obtain ⟨g, hg, hc⟩ := hms mi h2
    have hw1 := ordinary_within (Defn.Every.imp (fun _ h => h.2.1) base (hev base (List.mem_cons_self ..))) hbm bs
      _ _ _ _ _ h1
    have hw2 := ordinary_within (Defn.Every.imp (fun _ h => h.2.1) g (hev g (List.mem_cons_of_mem _ hg))) hc bs
      _ _ _ _ _ h3
    have := hw1.2 s hs1
    have := hs2 g hg
    have := hw2.1
    omega
  have hnp : ∀ m : DMap, (m.Every fun m => HintNode E m ∧ Extendable m) → ¬ m.IsPadding := by
    rintro m hm ⟨_, _, rfl⟩
    exact hm.self.1
  obtain ⟨b1, b2⟩ := hints E bm hb
  have hbe := DMap.Every.imp (fun _ h => h.2) bm hb
  refine ⟨?_, ?_, ?_⟩
  · simp only [DMap.Every, everyMap_iff, everyOptMap_iff]
    refine ⟨extendable_of _ _ _ _ hm ⟨trivial, trivial, by simp⟩, hbe, by simp, ?_⟩
    intro mi hmi
    exact DMap.Every.imp (fun _ h => h.2) mi (hms' mi hmi)
  · intro bs ext c v N hc hbz hw hp ns'
    obtain ⟨-, c2, -, -, -, -, -, -, -, c3⟩ := (Ctx.clean_iff c).mp hc
    obtain ⟨bv, nb, i, mi, h1, h2, h3, h4, h5, h6⟩ := groupParse_ok hw
    have hmi := List.mem_of_getElem? h4
    have hle := hsize _ _ _ _ _ _ h1 hmi h6
    have hbr := refines E bm bs 0 0 {} (Ctx.clean_fresh [])
    by_cases hts : parse E bm bs 0 0 [] = .error .tooSmall
    · obtain ⟨k, hk, hk1, hk2⟩ := b1 bs ext 0 0 {} bv nb (Ctx.clean_fresh []) (Nat.zero_le _) h1 hts 0
        (mapStream E bm bs 0 0 {}).2.values (fun h => absurd h (hnp bm hb))
      refine ⟨k, ?_, by omega, by omega⟩
      have hms := (mapStream_error (Ctx.clean_fresh [])).mpr hts
      generalize hq : mapStream E bm bs 0 0 {} = q at hk hms
      rcases q with ⟨q1, q2⟩
      simp only at hms
      subst hms
      simp only [mapStream, c2, c3, Option.getD_none, hq, sizeHint, hbz, hno, Option.getD_some]
      cases q2
      exact hk
    · have hpe := parse_append E bm hbe bs ext 0 0 [] hts
      rw [h1] at hpe
      obtain ⟨hm1, hm2⟩ := mapStream_of_parse (Ctx.clean_fresh []) hpe.symm
      have hpm : parse E mi bs 0 0 [] = .error .tooSmall := by
        rw [parse, ← hpe] at hp
        simp only at hp
        generalize getAttr bv ident = id at hp h2 h3
        cases id <;> first
          | exact absurd rfl h2
          | simp only [h3, h4, h5, Bool.false_eq_true, if_false, parseNth_eq] at hp
            generalize parse E mi bs 0 0 [] = p at hp ⊢
            rcases p with e | r
            · rw [wrapErr_small (Except.error.inj hp)]
            · cases hp
      obtain ⟨m1, m2⟩ := hints E mi (hms' mi hmi)
      obtain ⟨k, hk, hk1, hk2⟩ := m1 bs ext 0 0 {} v N (Ctx.clean_fresh []) (Nat.zero_le _) h6 hpm 0
        (mapStream E mi bs 0 0 {}).2.values (fun h => absurd h (hnp mi (hms' mi hmi)))
      refine ⟨k, ?_, by omega, hk2⟩
      have hmm := (mapStream_error (Ctx.clean_fresh [])).mpr hpm
      generalize hq : mapStream E bm bs 0 0 {} = q at hm1
      rcases q with ⟨q1, q2⟩
      simp only at hm1
      subst hm1
      generalize hq' : mapStream E mi bs 0 0 {} = q' at hk hmm
      rcases q' with ⟨q1', q2'⟩
      simp only at hmm
      subst hmm
      simp only [mapStream, c2, c3, Option.getD_none, hq]
      generalize getAttr bv ident = id at h2 h3
      cases id <;> first
        | exact absurd rfl h2
        | simp only [h3, h4, h5, Bool.false_eq_true, if_false, mapNth_eq, Option.map_none, Option.getD_none, hq',
            sizeHint, Option.getD_some, hintNth_eq]
          cases q2'
          exact hk
  · intro bs ns v N hw
    obtain ⟨bv, nb, i, mi, h1, -, -, h4, -, h6⟩ := groupParse_ok hw
    have hle := hsize _ _ _ _ _ _ h1 (List.mem_of_getElem? h4) h6
    have hh : sizeHint E (.group h ident bm none (r.map (·.1)) (r.map (·.2))) 0 { values := ns } =
        sizeHint E bm 0 {} := by
      simp only [sizeHint, Option.getD_none, hno]
    rw [hh]
    rcases b2 bs 0 0 [] bv nb h1 0 [] (.inl rfl) with h | ⟨k, hk, hk1, -⟩
    · exact .inl h
    · exact .inr ⟨k, hk, Nat.le_trans (hk1 (hnp bm hb)) hle⟩

/-- The three facts used below, for mapping from the start of a byte stream. -/
theorem hinted_map {E : Env} {d : Defn} {m : DMap} (hm : createMap E d = .ok m) (hd : HintedType E d) :
    m.Every Extendable ∧
    (∀ bs ext c v N, Ctx.Clean c → c.byteSize = none → parse E m (bs ++ ext) 0 0 c.values = .ok (v, N) →
      parse E m bs 0 0 c.values = .error .tooSmall →
      ∀ ns', ∃ k : Nat, sizeHint E m 0 { (mapStream E m bs 0 0 c).2 with values := ns' } = .ok (some (k : Int)) ∧
        bs.length < k ∧ k ≤ N) ∧
    (∀ bs ns v N, parse E m bs 0 0 ns = .ok (v, N) →
      sizeHint E m 0 { values := ns } = .ok none ∨
      ∃ k : Nat, sizeHint E m 0 { values := ns } = .ok (some (k : Int)) ∧ k ≤ N) := by
  rcases hd with hd | ⟨h, ms, rfl, hdt, hcond, hpadm, hms⟩ | ⟨h, base, ident, ms, rfl, hev, ⟨s, hs1, hs2⟩, hnull⟩
  · have hev := hinted_every hm hd
    obtain ⟨h1, h2⟩ := hints E m hev
    have hnp : ¬ m.IsPadding := by
      rintro ⟨_, _, rfl⟩
      exact hev.self.1
    refine ⟨DMap.Every.imp (fun _ h => h.2) m hev, ?_, ?_⟩
    · intro bs ext c v N hc _ hw hp ns'
      obtain ⟨k, hk, hk1, hk2⟩ := h1 bs ext 0 0 c v N hc (by omega) hw hp 0 ns' (fun h => absurd h hnp)
      exact ⟨k, hk, by omega, hk2⟩
    · intro bs ns v N hw
      rcases h2 bs 0 0 ns v N hw 0 ns (.inl rfl) with h | ⟨k, hk, hk1, -⟩
      · exact .inl h
      · exact .inr ⟨k, hk, hk1 hnp⟩
  · obtain ⟨io, infos, maps, l, -, hmem, hlin, rfl, -⟩ := createAs_struct hm
    have hl : l = false := by
      cases l with
      | false => rfl
      | true =>
        obtain ⟨x, hx, hh, a, rfl⟩ := hpadm
        exact absurd rfl ((checkLinear_true hlin _ hx).2.2.2 hh a)
    subst hl
    have hall := createMembers_all E _ _ (fun m => (m.IsPadding ∨ HintAfter E m) ∧ HintFresh E m ∧
        HintAfter E m ∧ m.Every Extendable) ms (by
      intro d hd n o m hcr
      rcases hms d hd with ⟨hh, a, rfl⟩ | hev
      · simp only [Defn.target, createAs, Except.ok.injEq] at hcr
        subst hcr
        obtain ⟨p1, p2⟩ := padding_hints E { hh with name := n, order := o } a
        refine ⟨.inr p1, p2, p1, ?_⟩
        exact ⟨trivial, trivial, trivial, trivial⟩
      · have hev' := hinted_every hcr hev.target
        obtain ⟨p1, p2⟩ := hints E m hev'
        exact ⟨.inr p1, p2, p1, DMap.Every.imp (fun _ h => h.2) m hev'⟩) [] (by simp) infos maps hmem
    have hlen : infos.length = maps.length := by rw [hall.1, List.length_map, hall.2.1]
    have hc' : ∀ i ∈ infos, truthyStr i.condition = false := by
      intro i hi
      rw [hall.1, List.mem_map] at hi
      obtain ⟨x, hx, rfl⟩ := hi
      exact hcond x hx
    refine ⟨?_, ?_, ?_⟩
    · simp only [DMap.Every, everyMap_iff]
      exact ⟨extendable_of _ _ _ _ hm ⟨trivial, hdt, by simp⟩, fun m hmm => (hall.2.2 m hmm).2.2.2⟩
    · intro bs ext c v N hc _ hw hp ns'
      obtain ⟨k, hk, hk1, hk2⟩ := struct_after (fun m hmm => (hall.2.2 m hmm).2.2.2)
        (fun m hmm => (hall.2.2 m hmm).2.1) (fun m hmm => (hall.2.2 m hmm).2.2.1) hlen hc' hc (by omega)
        (fun _ => rfl) hw hp 0 ns'
      exact ⟨k, hk, by omega, hk2⟩
    · intro bs ns v N hw
      obtain ⟨k, hk, hk1⟩ := struct_fresh (fun m hmm => (hall.2.2 m hmm).2.1) hlen hc' (fun _ => rfl) hw 0 ns
      exact .inr ⟨k, hk, hk1⟩
  · exact group_hints hm hev hs1 hs2 hnull

/-! ### C29 -/

/-- **C29** (for `HintedType`s.) Let MapByteStream map `bs` to `v` with `byte_size`
`N`. The size hint before mapping is `None` or at most `N`; and reading any number
`n <= N` of bytes from the start, mapping them with a fresh context and retrying
with as many bytes as GetSizeHint says while they are too few, ends with `v`; each
hint exceeds the number of bytes tried before it and none exceeds `N`. -/
theorem C29_retry_partial (E : Env) (d : Defn) (hd : HintedType E d) (m : DMap)
    (hm : createMap E d = .ok m) (bs : Bytes) (ns : Namespace) (v : Val) (N : Nat)
    (hv : (mapStream E m bs 0 0 { values := ns }).1 = .ok v)
    (hN : (mapStream E m bs 0 0 { values := ns }).2.byteSize = some N) :
    ((getSizeHint E m { values := ns }).1 = .ok none ∨
      ∃ k : Nat, (getSizeHint E m { values := ns }).1 = .ok (some (k : Int)) ∧ k ≤ N) ∧
    ∀ n ≤ N, ∃ hints : List Nat, Retries E m bs ns n hints v ∧ (n :: hints).Pairwise (· < ·) ∧
      ∀ k ∈ hints, k ≤ N := by
  obtain ⟨hext, hafter, hfresh⟩ := hinted_map hm hd
  obtain ⟨N', hp, hb⟩ := mapStream_ok (Ctx.clean_fresh ns) hv
  rw [hN] at hb
  cases hb
  refine ⟨hfresh bs ns v N hp, ?_⟩
  intro n hn
  generalize hg : N - n = g
  induction g using Nat.strongRecOn generalizing n with
  | ind g ih =>
    have hsplit : bs = bs.take n ++ bs.drop n := (List.take_append_drop n bs).symm
    have hwhole : parse E m (bs.take n ++ bs.drop n) 0 0 ({ values := ns } : Ctx).values = .ok (v, N) := by
      rw [← hsplit]; exact hp
    by_cases hts : (mapStream E m (bs.take n) 0 0 { values := ns }).1 = .error .tooSmall
    · have hpt := (mapStream_error (Ctx.clean_fresh ns)).mp hts
      obtain ⟨k, hk, hk1, hk2⟩ := hafter _ _ _ _ _ (Ctx.clean_fresh ns) rfl hwhole hpt
        (mapStream E m (bs.take n) 0 0 { values := ns }).2.values
      have hlen : n < k := by
        have hbound := parse_bound E m (DMap.Every.imp (fun _ h => h.1) m hext) bs 0 0 ns v N hp
        rw [List.length_take] at hk1
        omega
      obtain ⟨hints, hr, hpw, hle⟩ := ih (N - k) (by omega) k hk2 rfl
      refine ⟨k :: hints, .again n k hints v hts ?_ hr, ?_, ?_⟩
      · generalize (mapStream E m (bs.take n) 0 0 { values := ns }).2 = c at hk ⊢
        cases c; exact hk
      · refine List.pairwise_cons.mpr ⟨?_, hpw⟩
        intro x hx
        rcases List.mem_cons.mp hx with rfl | hx
        · exact hlen
        · have := (List.pairwise_cons.mp hpw).1 x hx
          omega
      · intro x hx
        rcases List.mem_cons.mp hx with rfl | hx
        · exact hk2
        · exact hle x hx
    · refine ⟨[], .done n v ?_, by simp, by simp⟩
      have hpne : parse E m (bs.take n) 0 0 ns ≠ .error .tooSmall := fun h =>
        hts ((mapStream_error (Ctx.clean_fresh ns)).mpr h)
      have happ := parse_append E m hext (bs.take n) (bs.drop n) 0 0 ns hpne
      rw [show parse E m (bs.take n ++ bs.drop n) 0 0 ns = .ok (v, N) from hwhole] at happ
      exact (mapStream_of_parse (Ctx.clean_fresh ns) happ.symm).1

/-- `struct { uint8 a; uint16 b[T.a]; padding to 4; uint8 c; }`. -/
def exRead : Defn :=
  .struct { name := "T", order := .little }
    [.member { name := "a" } exU8 none (some "uint8") none,
      .member { name := "b" } (.seq { name := "b" }
        { kind := .sequence, elementDataType := some "uint16", numElementsExpr := some "T.a" } exU16)
        none (some "b") none,
      .padding { name := "p" } (some 4),
      .member { name := "c" } exU8 none (some "uint8") none]

theorem exRead_steady : Steady exEnvE "T.a" := by
  intro ns hb v hv hn
  exfalso
  have hev : exEnvE.evalExpr "T.a" (withBuiltins ns) =
      (nsGet (withBuiltins ns) "T").map fun t => getAttr t "a" := by
    simp [exEnvE]
  rw [hev] at hv
  rcases hb with rfl | ⟨cls, names, rfl⟩
  · simp [withBuiltins, nsSet, nsGet] at hv
  · have hattr : ∀ (l : List String) (n : String),
        (nsGet (l.map fun n => (n, Val.pyNone)) n).getD .pyNone = .pyNone := by
      intro l n
      cases hg : nsGet (l.map fun n => (n, Val.pyNone)) n with
      | none => rfl
      | some v =>
        simp only [nsGet, Option.map_eq_some_iff] at hg
        obtain ⟨p, hp, rfl⟩ := hg
        obtain ⟨x, -, rfl⟩ := List.mem_map.mp (List.mem_of_find?_eq_some hp)
        rfl
    by_cases hc : cls = "T"
    · subst hc
      have hg : nsGet (withBuiltins [("T", .struct "T" (names.map fun n => (n, Val.pyNone)))]) "T" =
          some (.struct "T" (names.map fun n => (n, Val.pyNone))) := rfl
      rw [hg] at hv
      simp only [Option.map_some, getAttr, hattr, Option.some.injEq] at hv
      subst hv
      exact hn
    · by_cases hb : cls = "__builtins__"
      · subst hb
        simp [withBuiltins, nsSet, nsGet] at hv
      · simp [withBuiltins, nsSet, nsGet, hc, hb] at hv

/-- The conditions of the theorem are met by a structure with a sequence of which
the number of elements is mapped first, and with padding; reading nothing first, the
hints are 1 and 9. -/
example : HintedType exEnvE exRead ∧ ∃ m, createMap exEnvE exRead = .ok m ∧
    (mapStream exEnvE m [2, 5, 0, 6, 0, 0, 0, 0, 9, 8] 0 0 {}).1 =
      .ok (.struct "T" [("a", .int 2), ("b", .tuple [.int 5, .int 6]), ("p", .bytes [0, 0, 0]), ("c", .int 9)]) ∧
    (mapStream exEnvE m [2, 5, 0, 6, 0, 0, 0, 0, 9, 8] 0 0 {}).2.byteSize = some 9 ∧
    Retries exEnvE m [2, 5, 0, 6, 0, 0, 0, 0, 9, 8] [] 0 [1, 9]
      (.struct "T" [("a", .int 2), ("b", .tuple [.int 5, .int 6]), ("p", .bytes [0, 0, 0]), ("c", .int 9)]) := by
  refine ⟨.inr (.inl ⟨_, _, rfl, ?_, ?_, ?_, ?_⟩), _, rfl, rfl, rfl, .again _ _ _ _ rfl rfl (.again _ _ _ _ rfl rfl (.done _ _ rfl))⟩
  · simp [DistinctTypes, exU8, exU16, Defn.target, Defn.name, Defn.hdr]
  · simp [Defn.memInfo, truthyStr]
  · simp
  · intro m hm
    simp only [List.mem_cons, List.not_mem_nil, or_false] at hm
    rcases hm with rfl | rfl | rfl | rfl
    · right; simp [Defn.Every, FullTerminators, Ordinary, Plain, Hinted, exU8]
    · right
      simp only [Defn.Every, Hinted, exU16]
      simp [FullTerminators, Ordinary, Plain, exRead_steady, Defn.byteSize]
      exact ⟨2, by omega, rfl⟩
    · exact .inl ⟨_, _, rfl⟩
    · right; simp [Defn.Every, FullTerminators, Ordinary, Plain, Hinted, exU8]

/-- The conditions are met by a group of two structures larger than its base; reading
nothing first, the hints are 1 and 3. -/
example : HintedType exEnvE (exGroup none [exOne, exTwo]) ∧ ∃ m, createMap exEnvE (exGroup none [exOne, exTwo]) = .ok m ∧
    (mapStream exEnvE m [3, 1, 2] 0 0 {}).1 = .ok (.struct "two" [("kind", .int 3), ("y", .int 513)]) ∧
    (mapStream exEnvE m [3, 1, 2] 0 0 {}).2.byteSize = some 3 ∧
    Retries exEnvE m [3, 1, 2] [] 0 [1, 3] (.struct "two" [("kind", .int 3), ("y", .int 513)]) := by
  refine ⟨.inr (.inr ⟨_, _, _, _, rfl, ?_, ⟨1, rfl, ?_⟩, ?_⟩), _, rfl, rfl, rfl,
    .again _ _ _ _ rfl rfl (.again _ _ _ _ rfl rfl (.done _ _ rfl))⟩
  · intro d hd
    simp only [List.mem_cons, List.not_mem_nil, or_false] at hd
    rcases hd with rfl | rfl | rfl <;>
      simp [Defn.Every, everyDefn, FullTerminators, Ordinary, Plain, Hinted, exBase, exOne, exTwo, exMem, exU8, exU16,
        DistinctTypes, Defn.target, Defn.name, Defn.hdr, Defn.memInfo, truthyStr]
  · intro g hg
    simp only [List.mem_cons, List.not_mem_nil, or_false] at hg
    rcases hg with rfl | rfl <;> decide
  · intro g hg vs hvs
    simp only [List.mem_cons, List.not_mem_nil, or_false] at hg
    rcases hg with rfl | rfl
    · cases (show Except.ok [.int 1, .int 2] = (.ok vs : Except Err (List Lit)) from groupValues_iff.mpr hvs)
      simp
    · cases (show Except.ok [.int 3] = (.ok vs : Except Err (List Lit)) from groupValues_iff.mpr hvs)
      simp

/-! ### Where reading by size hints goes wrong -/

def exU32 : Defn := .prim { name := "uint32", order := .little } (.integer true) (.bytes 4) "bytes"

/-- `struct { uint8 a; uint32 b if T.a == 1; }`. -/
def exHintCond : Defn :=
  .struct { name := "T", order := .little }
    [.member { name := "a" } exU8 none (some "uint8") none,
      .member { name := "b" } exU32 (some "T.a == 1") (some "uint32") none]

/-- **C29**, refuted with conditional members: GetSizeHint counts members whose
condition is not known to hold, so that it asks for more bytes than are mapped. -/
theorem C29_conditional_refuted : ∃ m, createMap exEnvE exHintCond = .ok m ∧
    (mapStream exEnvE m [0] 0 0 {}).1 = .ok (.struct "T" [("a", .int 0), ("b", .pyNone)]) ∧
    (mapStream exEnvE m [0] 0 0 {}).2.byteSize = some 1 ∧
    (getSizeHint exEnvE m {}).1 = .ok (some 5) ∧
    (mapStream exEnvE m ([0].take 0) 0 0 {}).1 = .error .tooSmall ∧
    (getSizeHint exEnvE m (mapStream exEnvE m ([0].take 0) 0 0 {}).2).1 = .ok (some 5) :=
  ⟨_, rfl, rfl, rfl, rfl, rfl, rfl⟩

/-- `struct { uint8 a; g; }` where `g` is a group of structures starting with a
32-bit kind. -/
def exStuck : Defn :=
  .struct { name := "S" }
    [.member { name := "a" } exU8 none (some "uint8") none,
      .member { name := "g" } (.group { name := "g" }
        (.struct { name := "base", order := .little } [.member { name := "kind" } exU32 none (some "uint32") none])
        "kind" none
        [.struct { name := "one", order := .little }
          [.member { name := "kind" } exU32 none (some "uint32") (some [.int 1])]]) none (some "g") none]

/-- **C29**, refuted with groups as members: after mapping two bytes of a structure
of five bytes GetSizeHint asks for two bytes, so that reading as many bytes as it says
never ends. -/
theorem C29_group_refuted : ∃ m, createMap exEnvE exStuck = .ok m ∧
    (mapStream exEnvE m [7, 1, 0, 0, 0] 0 0 {}).1 =
      .ok (.struct "S" [("a", .int 7), ("g", .struct "one" [("kind", .int 1)])]) ∧
    (mapStream exEnvE m [7, 1, 0, 0, 0] 0 0 {}).2.byteSize = some 5 ∧
    (mapStream exEnvE m ([7, 1, 0, 0, 0].take 2) 0 0 {}).1 = .error .tooSmall ∧
    (getSizeHint exEnvE m (mapStream exEnvE m ([7, 1, 0, 0, 0].take 2) 0 0 {}).2).1 = .ok (some 2) ∧
    ∀ hints v, ¬ Retries exEnvE m [7, 1, 0, 0, 0] [] 2 hints v := by
  refine ⟨_, rfl, rfl, rfl, rfl, rfl, ?_⟩
  intro hints
  induction hints with
  | nil =>
    intro v h
    cases h with
    | done _ _ h => cases (show Except.error Err.tooSmall = Except.ok v from h)
  | cons k hints ih =>
    intro v h
    cases h with
    | again _ _ _ _ h hk t =>
      have hk : Except.ok (some (2 : Int)) = (.ok (some (k : Int)) : Except Err (Option Int)) := hk
      injection hk with hk
      injection hk with hk
      have : k = 2 := by omega
      subst this
      exact ih v t

/-- A stream of two bytes. -/
def exTail : Defn :=
  .seq { name := "pair" } { kind := .stream, elementDataType := some "uint8", dataSize := some 2 } exU8

/-- A group with a default that has a stream of two bytes after the identifier. -/
def exLongDefault : Defn :=
  exGroup (some (.struct { name := "def" } [exMem "kind" exU8 none, exMem "s" exTail none])) [exOne]

/-- **C29**, refuted with the default of a group: after mapping one
byte of three GetSizeHint asks for one byte, because it uses the base instead of the
default. -/
theorem C29_default_refuted : ∃ m, createMap exEnvE exLongDefault = .ok m ∧
    (mapStream exEnvE m [9, 1, 2] 0 0 {}).1 = .ok (.struct "def" [("kind", .int 9), ("s", .bytes [1, 2])]) ∧
    (mapStream exEnvE m [9, 1, 2] 0 0 {}).2.byteSize = some 3 ∧
    (mapStream exEnvE m ([9, 1, 2].take 1) 0 0 {}).1 = .error .tooSmall ∧
    (getSizeHint exEnvE m (mapStream exEnvE m ([9, 1, 2].take 1) 0 0 {}).2).1 = .ok (some 1) ∧
    ∀ hints v, ¬ Retries exEnvE m [9, 1, 2] [] 1 hints v := by
  refine ⟨_, rfl, rfl, rfl, rfl, rfl, ?_⟩
  intro hints
  induction hints with
  | nil =>
    intro v h
    cases h with
    | done _ _ h => cases (show Except.error Err.tooSmall = Except.ok v from h)
  | cons k hints ih =>
    intro v h
    cases h with
    | again _ _ _ _ h hk t =>
      have hk : Except.ok (some (1 : Int)) = (.ok (some (k : Int)) : Except Err (Option Int)) := hk
      injection hk with hk
      injection hk with hk
      have : k = 1 := by omega
      subst this
      exact ih v t

/-- **C29**, refuted for the context of an earlier value with a group: when the
base does not fit the size of the earlier value is still there, so GetSizeHint asks for
three bytes though the next value has two. -/
theorem C29_reuse_refuted : ∃ m, createMap exEnvE (exGroup none [exOne, exTwo]) = .ok m ∧
    (mapStream exEnvE m [3, 5, 6] 0 0 {}).2.byteSize = some 3 ∧
    (mapStream exEnvE m [] 0 0 (mapStream exEnvE m [3, 5, 6] 0 0 {}).2).1 = .error .tooSmall ∧
    (getSizeHint exEnvE m (mapStream exEnvE m [] 0 0 (mapStream exEnvE m [3, 5, 6] 0 0 {}).2).2).1 = .ok (some 3) ∧
    (mapStream exEnvE m [1, 7] 0 0 (mapStream exEnvE m [3, 5, 6] 0 0 {}).2).2.byteSize = some 2 :=
  ⟨_, rfl, rfl, rfl, rfl, rfl⟩

/-- `struct { uint16 s[] until 0; uint8 a; }` with `s` a stream. -/
def exWide : Defn :=
  .struct { name := "S" }
    [.member { name := "s" } (.seq { name := "w" }
        { kind := .stream, elementDataType := some "uint16", terminator := some (.bytes [0, 0]) } exU16)
        none (some "w") none,
      .member { name := "a" } exU8 none (some "uint8") none]

/-- **C29**, refuted with a terminated stream of wider elements: after three of five
bytes GetSizeHint asks for seven. -/
theorem C29_wide_refuted : ∃ m, createMap exEnvE exWide = .ok m ∧
    (mapStream exEnvE m [1, 1, 0, 0, 4] 0 0 {}).1 =
      .ok (.struct "S" [("s", .bytes [1, 1, 0, 0]), ("a", .int 4)]) ∧
    (mapStream exEnvE m [1, 1, 0, 0, 4] 0 0 {}).2.byteSize = some 5 ∧
    (mapStream exEnvE m ([1, 1, 0, 0, 4].take 3) 0 0 {}).1 = .error .tooSmall ∧
    (getSizeHint exEnvE m (mapStream exEnvE m ([1, 1, 0, 0, 4].take 3) 0 0 {}).2).1 = .ok (some 7) :=
  ⟨_, rfl, rfl, rfl, rfl, rfl⟩

/-- `struct { uint8 a; struct { uint8 b; padding to a multiple of 4; } s; }`. -/
def exInnerPadding : Defn :=
  .struct { name := "T" }
    [.member { name := "a" } exU8 none (some "uint8") none,
      .member { name := "s" } (.struct { name := "S" }
        [.member { name := "b" } exU8 none (some "uint8") none, .padding { name := "p" } (some 4)]) none (some "S") none]

/-- **C29**, refuted with padding in a structure within another one: GetSizeHint aligns from
the start of the inner structure, and asks for five bytes where four are mapped. -/
theorem C29_padding_refuted : ∃ m v, createMap exEnv exInnerPadding = .ok m ∧
    (mapStream exEnv m [1, 2, 3, 4] 0 0 {}).1 = .ok v ∧
    (mapStream exEnv m [1, 2, 3, 4] 0 0 {}).2.byteSize = some 4 ∧
    (mapStream exEnv m ([1, 2, 3, 4].take 2) 0 0 {}).1 = .error .tooSmall ∧
    (getSizeHint exEnv m (mapStream exEnv m ([1, 2, 3, 4].take 2) 0 0 {}).2).1 = .ok (some 5) :=
  ⟨_, _, rfl, rfl, rfl, rfl, rfl⟩

/-- Two streams that end at a zero. -/
def exTwoTexts : Defn :=
  .seq { name := "l" } { kind := .sequence, elementDataType := some "s", numElements := some 2 }
    (.seq { name := "s" } { kind := .stream, elementDataType := some "uint8", terminator := some (.bytes [0]) } exU8)

/-- **C29**, refuted with elements of different sizes: where the first element ends
GetSizeHint asks for its size once more, though the second one is shorter. -/
theorem C29_elements_refuted : ∃ m, createMap exEnv exTwoTexts = .ok m ∧
    (mapStream exEnv m [7, 8, 0, 0] 0 0 {}).1 = .ok (.tuple [.bytes [7, 8, 0], .bytes [0]]) ∧
    (mapStream exEnv m [7, 8, 0, 0] 0 0 {}).2.byteSize = some 4 ∧
    (mapStream exEnv m ([7, 8, 0, 0].take 3) 0 0 {}).1 = .error .tooSmall ∧
    (getSizeHint exEnv m (mapStream exEnv m ([7, 8, 0, 0].take 3) 0 0 {}).2).1 = .ok (some 6) :=
  ⟨_, rfl, rfl, rfl, rfl, rfl⟩

/-- Every expression has the value five. -/
def exEnvFive : Env := { exEnv with evalExpr := fun _ _ => some (.int 5) }

/-- **C29**, refuted with a data size that is no multiple of the size of the elements:
GetSizeHint asks for the data size, of which only the elements are mapped. -/
theorem C29_remainder_refuted : ∃ m, createMap exEnvFive (.seq { name := "l" }
      { kind := .sequence, elementDataType := some "uint16", dataSizeExpr := some "n" } exU16) = .ok m ∧
    (mapStream exEnvFive m [1, 0, 2, 0] 0 0 {}).1 = .ok (.tuple [.int 1, .int 2]) ∧
    (mapStream exEnvFive m [1, 0, 2, 0] 0 0 {}).2.byteSize = some 4 ∧
    (mapStream exEnvFive m ([1, 0, 2, 0].take 3) 0 0 {}).1 = .error .tooSmall ∧
    (getSizeHint exEnvFive m (mapStream exEnvFive m ([1, 0, 2, 0].take 3) 0 0 {}).2).1 = .ok (some 5) :=
  ⟨_, rfl, rfl, rfl, rfl, rfl⟩

/-- **C29**, refuted with a number of elements that is an expression beside a terminator:
before the number is known GetSizeHint asks for one element, though there may be none. -/
theorem C29_number_refuted : ∃ m, createMap { exEnv with evalExpr := fun _ _ => some (.int 0) } (.seq { name := "s" }
      { kind := .stream, elementDataType := some "uint8", numElementsExpr := some "n", terminator := some (.bytes [0]) } exU8)
      = .ok m ∧
    (mapStream { exEnv with evalExpr := fun _ _ => some (.int 0) } m [] 0 0 {}).1 = .ok (.bytes []) ∧
    (mapStream { exEnv with evalExpr := fun _ _ => some (.int 0) } m [] 0 0 {}).2.byteSize = some 0 ∧
    (getSizeHint { exEnv with evalExpr := fun _ _ => some (.int 0) } m {}).1 = .ok (some 1) :=
  ⟨_, rfl, rfl, rfl, rfl⟩

end Dtf
