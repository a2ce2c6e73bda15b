import Verif.Props.Groups
/-!
# Property C92: a structure group can grow
-/
namespace Dtf

namespace Spec

/-- Two calls a caller cannot tell apart by what they return: the same value, the
same recorded size, and ByteStreamTooSmallError at the same time. -/
def SameAnswer (r r' : Res) : Prop :=
  (∀ v, r.1 = .ok v ↔ r'.1 = .ok v) ∧
  (∀ v, r.1 = .ok v → r.2.byteSize = r'.2.byteSize) ∧
  (r.1 = .error .tooSmall ↔ r'.1 = .error .tooSmall)

/-- Member `g` of a group claims the identifier `id`: one of its identifier values
equals it. -/
def Claims (ident : String) (g : Defn) (id : Val) : Prop :=
  ∃ vs, IdentifierValues ident g vs ∧ ∃ v ∈ vs, Equals id v

end Spec

open Spec

theorem sameAnswer_of_passedOn {r r' q : Res} (h : PassedOn r q) (h' : PassedOn r' q) :
    SameAnswer r r' := by
  obtain ⟨a, b, c, -⟩ := h
  obtain ⟨a', b', c', -⟩ := h'
  refine ⟨fun v => (a v).trans (a' v).symm, fun v hv => ?_, c.trans c'.symm⟩
  rw [b v hv, b' v ((a' v).2 ((a v).1 hv))]

theorem sameAnswer_of_error {r r' : Res} {e : Err} (h : r.1 = .error e) (h' : r'.1 = .error e) :
    SameAnswer r r' := by
  refine ⟨fun v => ?_, fun v hv => ?_, ?_⟩
  · rw [h, h']
  · rw [h] at hv; cases hv
  · rw [h, h']

/-- When the base structure cannot be mapped, neither can the group, whatever its
members. -/
theorem group_base_error {E : Env} {h : Hdr} {base : Defn} {ident : String} {dflt : Option Defn}
    {ms : List Defn} {m bm : DMap} (hm : createMap E (.group h base ident dflt ms) = .ok m)
    (hbm : createMap E base = .ok bm) {bs : Bytes} {off depth : Nat} {c : Ctx} (hc : c.Clean)
    {e : Err} (he : (mapStream E bm bs off depth {}).1 = .error e) :
    (mapStream E m bs off depth c).1 = .error (wrapErr e) := by
  obtain ⟨bm', dm, r, hbm', -, -, -, rfl⟩ := createMap_group hm
  rw [hbm] at hbm'
  injection hbm' with hbm'
  subst hbm'
  rw [mapStream_error (Ctx.clean_fresh [])] at he
  rw [mapStream_error hc, parse, he]

/-! ### C92: a structure group can grow -/

/-- Two groups with the same base structure, identifier and default structure. Take
a stream and an offset at which no member of either group that is missing from the
other claims the identifier read through the base structure. The two groups then
return the same, record the same size and ask for more data at the same time. The
names and other attributes of the groups, the order of the members and members
listed for other identifiers do not matter. -/
theorem C92_same (E : Env) (h h' : Hdr) (base : Defn) (ident : String) (dflt : Option Defn)
    (ms ms' : List Defn) (m m' : DMap)
    (hm : createMap E (.group h base ident dflt ms) = .ok m)
    (hm' : createMap E (.group h' base ident dflt ms') = .ok m')
    (bs : Bytes) (off depth : Nat) (c c' : Ctx) (hc : c.Clean) (hc' : c'.Clean)
    (hout : ∀ bm bv, createMap E base = .ok bm → (mapStream E bm bs off depth {}).1 = .ok bv →
      ∀ g, Claims ident g (getAttr bv ident) → (g ∈ ms ↔ g ∈ ms')) :
    SameAnswer (mapStream E m bs off depth c) (mapStream E m' bs off depth c') := by
  obtain ⟨bm, hbm, -, -, hk⟩ := C33_dispatch E h base ident dflt ms m hm bs off depth c hc
  obtain ⟨bm', hbm', -, -, hk'⟩ := C33_dispatch E h' base ident dflt ms' m' hm' bs off depth c' hc'
  rw [hbm] at hbm'
  injection hbm' with hbm'
  subst hbm'
  cases hb : (mapStream E bm bs off depth {}).1 with
  | error e =>
    exact sameAnswer_of_error (group_base_error hm hbm hc hb) (group_base_error hm' hbm hc' hb)
  | ok bv =>
    obtain ⟨k1, k2⟩ := hk bv hb
    obtain ⟨k1', k2'⟩ := hk' bv hb
    have hout := hout bm bv hbm hb
    by_cases hn : getAttr bv ident = .pyNone
    · exact sameAnswer_of_error (k1 hn) (k1' hn)
    obtain ⟨k3, k4⟩ := k2 hn
    obtain ⟨k3', k4'⟩ := k2' hn
    by_cases hcl : ∃ g ∈ ms, Claims ident g (getAttr bv ident)
    · obtain ⟨g, hg, hcg⟩ := hcl
      have hg' := (hout g hcg).1 hg
      obtain ⟨vs, hvs, v, hv, heq⟩ := hcg
      obtain ⟨gm, hgm, p⟩ := k3 g hg vs hvs v hv heq
      obtain ⟨gm', hgm', p'⟩ := k3' g hg' vs hvs v hv heq
      rw [hgm] at hgm'
      injection hgm' with hgm'
      subst hgm'
      exact sameAnswer_of_passedOn p p'
    · have q := k4 (fun g hg vs hvs v hv heq => hcl ⟨g, hg, vs, hvs, v, hv, heq⟩)
      have q' := k4' (fun g hg vs hvs v hv heq =>
        hcl ⟨g, (hout g ⟨vs, hvs, v, hv, heq⟩).2 hg, vs, hvs, v, hv, heq⟩)
      cases dflt with
      | none => exact sameAnswer_of_error q q'
      | some d =>
        obtain ⟨dm, hdm, p⟩ := q
        obtain ⟨dm', hdm', p'⟩ := q'
        rw [hdm] at hdm'
        injection hdm' with hdm'
        subst hdm'
        exact sameAnswer_of_passedOn p p'

/-- Groups with the same members in another order give the same answers. -/
theorem C92_order (E : Env) (h h' : Hdr) (base : Defn) (ident : String) (dflt : Option Defn)
    (ms ms' : List Defn) (m m' : DMap)
    (hm : createMap E (.group h base ident dflt ms) = .ok m)
    (hm' : createMap E (.group h' base ident dflt ms') = .ok m')
    (hms : ∀ g, g ∈ ms ↔ g ∈ ms')
    (bs : Bytes) (off depth : Nat) (c c' : Ctx) (hc : c.Clean) (hc' : c'.Clean) :
    SameAnswer (mapStream E m bs off depth c) (mapStream E m' bs off depth c') :=
  C92_same E h h' base ident dflt ms ms' m m' hm hm' bs off depth c c' hc hc'
    (fun _ _ _ _ g _ => hms g)

/-- A group without a default structure may be given further members: whatever it
mapped, it maps as before, to the same value with the same size. -/
theorem C92_grow (E : Env) (h h' : Hdr) (base : Defn) (ident : String)
    (ms ms' : List Defn) (m m' : DMap)
    (hm : createMap E (.group h base ident none ms) = .ok m)
    (hm' : createMap E (.group h' base ident none ms') = .ok m')
    (hms : ∀ g ∈ ms, g ∈ ms')
    (bs : Bytes) (off depth : Nat) (c c' : Ctx) (hc : c.Clean) (hc' : c'.Clean)
    (v : Val) (hv : (mapStream E m bs off depth c).1 = .ok v) :
    (mapStream E m' bs off depth c').1 = .ok v ∧
      (mapStream E m' bs off depth c').2.byteSize = (mapStream E m bs off depth c).2.byteSize := by
  obtain ⟨bm, hbm, -, -, hk⟩ := C33_dispatch E h base ident none ms m hm bs off depth c hc
  obtain ⟨bm', hbm', -, -, hk'⟩ := C33_dispatch E h' base ident none ms' m' hm' bs off depth c' hc'
  rw [hbm] at hbm'
  injection hbm' with hbm'
  subst hbm'
  cases hb : (mapStream E bm bs off depth {}).1 with
  | error e =>
    rw [group_base_error hm hbm hc hb] at hv
    cases hv
  | ok bv =>
    obtain ⟨k1, k2⟩ := hk bv hb
    obtain ⟨-, k2'⟩ := hk' bv hb
    by_cases hn : getAttr bv ident = .pyNone
    · rw [k1 hn] at hv; cases hv
    obtain ⟨k3, k4⟩ := k2 hn
    obtain ⟨k3', -⟩ := k2' hn
    by_cases hcl : ∃ g ∈ ms, Claims ident g (getAttr bv ident)
    · obtain ⟨g, hg, vs, hvs, w, hw, heq⟩ := hcl
      obtain ⟨gm, hgm, p⟩ := k3 g hg vs hvs w hw heq
      obtain ⟨gm', hgm', p'⟩ := k3' g (hms g hg) vs hvs w hw heq
      rw [hgm] at hgm'
      injection hgm' with hgm'
      subst hgm'
      obtain ⟨a, b, -⟩ := sameAnswer_of_passedOn p p'
      exact ⟨(a v).1 hv, (b v hv).symm⟩
    · have q := k4 (fun g hg vs hvs w hw heq => hcl ⟨g, hg, vs, hvs, w, hw, heq⟩)
      simp only at q
      rw [q] at hv
      cases hv

/-- With a default structure a further member changes what the group returns for
the identifiers the member claims. -/
theorem C92_default_refuted :
    ∃ m m' v v', createMap exEnv (exGroup (some exDef) [exOne]) = .ok m ∧
      createMap exEnv (exGroup (some exDef) [exOne, exTwo]) = .ok m' ∧
      (mapStream exEnv m [3, 1, 2] 0 0 {}).1 = .ok v ∧
      (mapStream exEnv m' [3, 1, 2] 0 0 {}).1 = .ok v' ∧ v ≠ v' :=
  ⟨_, _, .struct "def" [("kind", .int 3)], .struct "two" [("kind", .int 3), ("y", .int 513)],
    rfl, rfl, rfl, rfl, by simp⟩

/-- The hypothesis of `C92_same` at work: identifier 2 is claimed by the member both
groups have, so the group that grew and was reordered answers as before. -/
example : ∃ m m', createMap exEnv (exGroup (some exDef) [exOne]) = .ok m ∧
    createMap exEnv (exGroup (some exDef) [exTwo, exOne]) = .ok m' ∧
    (mapStream exEnv m [2, 1, 2] 0 0 {}).1 = .ok (.struct "one" [("kind", .int 2), ("x", .int 1)]) ∧
    SameAnswer (mapStream exEnv m [2, 1, 2] 0 0 {}) (mapStream exEnv m' [2, 1, 2] 0 0 {}) := by
  refine ⟨_, _, rfl, rfl, rfl, ?_⟩
  apply C92_same exEnv { name := "g" } { name := "g" } exBase "kind" (some exDef) [exOne]
    [exTwo, exOne] _ _ rfl rfl [2, 1, 2] 0 0 {} {} rfl rfl
  intro bm bv hbm hbv g hcl
  have e1 : createMap exEnv exBase = .ok _ := rfl
  rw [e1] at hbm
  injection hbm with hbm
  subst hbm
  have e2 : bv = .struct "base" [("kind", .int 2)] := by
    have : Except.ok bv = (Except.ok (.struct "base" [("kind", .int 2)]) : Except Err Val) :=
      hbv.symm.trans rfl
    injection this
  subst e2
  have hno : ¬ Claims "kind" exTwo (.int 2) := by
    rintro ⟨vs, ⟨h, ms, mh, t, cd, dt, hg, hf⟩, v, hv, heq⟩
    rcases hg with hg | hg
    · injection hg with _ hg
      subst hg
      have hf' : (exMem "kind" exU8 (some [.int 3])) = .member mh t cd dt (some vs) := by
        have : some (exMem "kind" exU8 (some [.int 3])) = some (.member mh t cd dt (some vs)) := hf
        injection this
      injection hf' with _ _ _ _ hvs
      injection hvs with hvs
      subst hvs
      simp only [List.mem_singleton] at hv
      subst hv
      have := (pyEq_iff _ _).2 heq
      exact absurd this (by decide)
    · cases hg
  simp only [List.mem_cons, List.not_mem_nil, or_false]
  constructor
  · exact .inr
  · rintro (rfl | h)
    · exact absurd hcl hno
    · exact h

end Dtf
