import Verif.Props.Postpone
import Verif.Props.Access
/-!
# Property C107: a part can be read on its own at its place
-/
namespace Dtf

namespace Spec

/-- From a value to a part of it: an attribute of an object, or an element of a tuple. -/
inductive Part where
  | attribute (name : String)
  | element (i : Nat)

/-- The part of a value at the end of a path. -/
def partOf : Val → List Part → Option Val
  | v, [] => some v
  | .struct _ attrs, .attribute n :: path => (nsGet attrs n).bind (partOf · path)
  | .tuple vs, .element i :: path => (vs[i]?).bind (partOf · path)
  | _, _ => none

/-- A member that is always there and has a type of the fixed size `n`. -/
def FixedMember (d : Defn) (n : Nat) : Prop :=
  (d.memInfo.condition = none ∨ d.memInfo.condition = some "") ∧ d.target.byteSize = some (n : Int) ∧ d.target.Every Plain

/-- `Place E d path o t`: the part of a value of the type `d` at the end of the path is of the type `t`, and is
`o` bytes after the start of the value. The members before a member, and the elements of a sequence, have
fixed sizes; the elements have a map; members and elements have byte orders of their own, where the structure or sequence has one; and
members have no expressions that use the structure around them. -/
inductive Place (E : Env) : Defn → List Part → Nat → Defn → Prop
  | here (d : Defn) : Place E d [] 0 d
  | member {h hd : Hdr} {pre post : List Defn} {t d : Defn} {c tn : Option String} {vs : Option (List Lit)}
      {widths : List Nat} {path : List Part} {o : Nat}
      (types : DistinctTypes (pre ++ .member hd t c tn vs :: post))
      (oneOrder : OneOrder E h.order (pre ++ .member hd t c tn vs :: post))
      (order : h.order = .native ∨ t.order? = some .little ∨ t.order? = some .big)
      (noNames : namesUsedBy t = []) (always : c = none ∨ c = some "")
      (fixed : All2 FixedMember pre widths) (rest : Place E t path o d) :
      Place E (.struct h (pre ++ .member hd t c tn vs :: post)) (.attribute hd.name :: path) (widths.sum + o) d
  | element {h : Hdr} {info : SeqInfo} {e d : Defn} {es i : Nat} {path : List Part} {o : Nat}
      (kind : info.kind = .sequence) (type : ∀ h i c t v, e ≠ .member h i c t v)
      (order : elementOrder h.order e = e.orderOrNative) (creates : ∃ m, createMap E e = .ok m) (fixed : e.byteSize = some (es : Int)) (plain : e.Every Plain)
      (rest : Place E e path o d) : Place E (.seq h info e) (.element i :: path) (i * es + o) d

end Spec
open Spec

theorem layout_fixed {E : Env} {bs : Bytes} {outer : Namespace} {cls : String} {so : Order} {names : List String}
    {pre : List Defn} {widths : List Nat} (hf : All2 FixedMember pre widths) {a us : List Val} {p q : Nat}
    (h : Layout E bs 0 outer cls so names a pre p us q) : q = p + widths.sum := by
  induction hf generalizing a p with
  | nil => cases h; rfl
  | @cons d w ds ws hd _ ih =>
    obtain ⟨h1, h2, h3⟩ := hd
    rcases layout_cons h with ⟨habs, -⟩ | ⟨m, v, k, -, ⟨n, o, -, hcr⟩, hp, -, h⟩
    · exfalso
      cases habs with
      | cond hc hn _ => rcases h1 with h1 | h1 <;> rw [h1] at hc <;> cases hc; exact hn rfl
    · have hex := (parse_exact E bs _ h3 w h2).2 _ _ _ hcr p 1 (scope cls names a outer)
      rw [hp] at hex
      have hk : (k : Int) = w := hex.1
      rw [ih h, List.sum_cons]
      omega

theorem elements_at {E : Env} {em : DMap} {bs : Bytes} {depth es p e : Nat} {vs : List Val}
    (hx : ∀ q v k, (mapStream E em bs q depth {}).1 = .ok v → (mapStream E em bs q depth {}).2.byteSize = some k → k = es)
    (h : Elements E em bs depth p vs e) :
    p ≤ e ∧ ∀ i v, vs[i]? = some v → (mapStream E em bs (p + i * es) depth {}).1 = .ok v ∧
      (mapStream E em bs (p + i * es) depth {}).2.byteSize = some es ∧ p + i * es + es ≤ e := by
  induction h with
  | nil => simp
  | @cons p k e v vs hv hk _ ih =>
    obtain rfl := hx _ _ _ hv hk
    refine ⟨by omega, fun i w hi => ?_⟩
    cases i with
    | zero =>
      simp only [List.getElem?_cons_zero, Option.some.injEq] at hi
      subst hi
      refine ⟨by simpa using hv, by simpa using hk, by omega⟩
    | succ i =>
      have := ih.2 i w (by simpa using hi)
      have he : p + (i + 1) * k = p + k + i * k := by rw [Nat.succ_mul]; omega
      rw [he]
      exact this

theorem mapped_free {E : Env} {m : DMap} (hl : m.levels ≤ 10) {bs : Bytes} {q : Nat} {v : Val} {k : Nat} :
    parse E m bs q 1 [] = .ok (v, k) ↔
      (mapStream E m bs q 0 {}).1 = .ok v ∧ (mapStream E m bs q 0 {}).2.byteSize = some k := by
  rw [mapped_iff (c := {}) (Ctx.clean_fresh []), parse_free E m bs 1 (by omega), parse_free E m bs 0 (by omega)]

/-- The value of a member is what its type gives at its place. -/
theorem member_place {E : Env} {h hd : Hdr} {pre post : List Defn} {t : Defn} {cond tn : Option String}
    {vs : Option (List Lit)} {widths : List Nat}
    (types : DistinctTypes (pre ++ .member hd t cond tn vs :: post))
    (oneOrder : OneOrder E h.order (pre ++ .member hd t cond tn vs :: post))
    (order : h.order = .native ∨ t.order? = some .little ∨ t.order? = some .big)
    (noNames : namesUsedBy t = []) (always : cond = none ∨ cond = some "") (fixed : All2 FixedMember pre widths)
    (hl : (Defn.struct h (pre ++ .member hd t cond tn vs :: post)).levels ≤ 11) {m : DMap}
    (hm : createMap E (.struct h (pre ++ .member hd t cond tn vs :: post)) = .ok m) {bs : Bytes} {off : Nat}
    {c : Ctx} (hc : c.Clean) {v : Val} {n : Nat} (hv : (mapStream E m bs off 0 c).1 = .ok v)
    (hn : (mapStream E m bs off 0 c).2.byteSize = some n) :
    ∃ m' w k, createMap E t = .ok m' ∧ t.levels ≤ 10 ∧ (mapStream E m' bs (off + widths.sum) 0 {}).1 = .ok w ∧
      (mapStream E m' bs (off + widths.sum) 0 {}).2.byteSize = some k ∧ widths.sum + k ≤ n ∧
      ∀ path, partOf v (.attribute hd.name :: path) = partOf w path := by
  obtain ⟨hnd, hmaps, hlay⟩ := structure_layout types oneOrder hm
  obtain ⟨vs', n', -, -, hvs, -⟩ := C16_layout E h.name h.order h _ types oneOrder m hm bs off 0 c hc v hv
  subst hvs
  obtain ⟨-, us, hl', hlen, hfill⟩ := hlay bs off c hc _ n hv hn
  have hnm : (pre ++ .member hd t cond tn vs :: post).map Defn.name =
      pre.map Defn.name ++ hd.name :: post.map Defn.name := by simp [Defn.name, Defn.hdr]
  obtain ⟨a, q, h1, h2⟩ := layout_append.1 hl'
  obtain ⟨ha, -, -⟩ := layout_length h1
  simp only [List.length_nil, Nat.zero_add] at ha
  have hq := layout_fixed fixed h1
  rcases layout_cons h2 with ⟨habs, -⟩ | ⟨m', w, k, -, hmo, hp, -, h3⟩
  · exfalso
    cases habs with
    | cond hc hn _ => rcases always with rfl | rfl <;> cases hc; exact hn rfl
  have hcr := (mapOf_own order).1 hmo
  obtain ⟨h4, h5, h6⟩ := layout_length h3
  have hlt : t.levels ≤ 10 := by
    have := levelsList_le (ds := pre ++ .member hd t cond tn vs :: post) (d := .member hd t cond tn vs) (by simp)
    simp only [Defn.levels] at this hl
    omega
  have hlm := levels_createAs t _ _ m' hcr
  have hus : us = a ++ w :: us.drop (a.length + 1) := by
    rw [List.length_append] at h5
    conv => lhs; rw [← List.take_append_drop (a.length + 1) us]
    simp only [List.length_cons, List.length_nil, Nat.zero_add] at h5
    rw [h5]
    simp
  rw [createAs_unmoved E t [] (by rw [noNames]; simp) _ _ m' (.inl hcr) bs q 1 _ [] (by simp)] at hp
  obtain ⟨h7, h8⟩ := (mapped_free (by omega)).1 hp
  rw [hq] at h7 h8
  refine ⟨m', w, k, hcr, hlt, h7, h8, by omega, fun path => ?_⟩
  rw [hfill]
  rw [hnm] at hnd ⊢
  rw [hus]
  simp only [partOf, fill_get _ _ _ a w _ (by simpa using ha) hnd, Option.bind_some]

theorem place_part (E : Env) {d t : Defn} {path : List Part} {o : Nat} (hp : Place E d path o t) (hl : d.levels ≤ 11)
    {m mt : DMap} (hm : createMap E d = .ok m) (hmt : createMap E t = .ok mt) (bs : Bytes) (off : Nat)
    {c : Ctx} (hc : c.Clean) (hu : path = [] → c = {}) {v : Val} {n : Nat} (hv : (mapStream E m bs off 0 c).1 = .ok v)
    (hn : (mapStream E m bs off 0 c).2.byteSize = some n) {x : Val} (hx : partOf v path = some x) :
    (mapStream E mt bs (off + o) 0 {}).1 = .ok x ∧
      ∃ k, (mapStream E mt bs (off + o) 0 {}).2.byteSize = some k ∧ o + k ≤ n := by
  induction hp generalizing m off c v n with
  | here d =>
    obtain rfl := hu rfl
    rw [hm] at hmt
    cases hmt
    simp only [partOf, Option.some.injEq] at hx
    subst hx
    exact ⟨hv, n, hn, by omega⟩
  | @member h hd pre post t d cond tn vs widths path o types oneOrder order noNames always fixed rest ih =>
    obtain ⟨m', w, k, hcr, hlt, h7, h8, h9, hpart⟩ :=
      member_place types oneOrder order noNames always fixed hl hm hc hv hn
    rw [hpart] at hx
    obtain ⟨h10, k', h11, h12⟩ := ih (by omega) hcr hmt _ (Ctx.clean_fresh []) (fun _ => rfl) h7 h8 hx
    rw [Nat.add_assoc] at h10 h11
    exact ⟨h10, k', h11, by omega⟩
  | @element h info e d es i path o kind type order creates fixed plain rest ih =>
    obtain ⟨em, hem⟩ := creates
    obtain ⟨en, em', us, p, n', hen, hem', rfl, hb, hel, hp, -⟩ :=
      C17_elements E h.name h.order h info kind e m hm bs off 0 c hc v hv
    rw [hn] at hb
    cases hb
    have hsame : ∀ q, mapStream E em' bs q 1 {} = mapStream E em bs q 1 {} :=
      fun q => elements_alike hen (fun _ => rfl) hem' (order ▸ hem) bs q 1 {}
    have hle : e.levels ≤ 10 := by simp only [Defn.levels] at hl; omega
    have hlm := levels_createAs e _ _ em hem
    obtain ⟨-, hall⟩ := elements_at (es := es) (fun q v k h1 h2 => by
      have hex := (parse_exact E bs e plain es fixed).2 _ _ em' hem' q 1 []
      rw [(mapped_iff (c := {}) (Ctx.clean_fresh [])).1 ⟨h1, h2⟩] at hex
      have : (k : Int) = es := hex.1
      omega) hel
    simp only [partOf] at hx
    cases hi : us[i]? with
    | none => rw [hi] at hx; cases hx
    | some w =>
      rw [hi, Option.bind_some] at hx
      obtain ⟨h1, h2, h3⟩ := hall i w hi
      rw [hsame] at h1 h2
      obtain ⟨h4, h5⟩ := (mapped_free (m := em) (by omega)).1 ((mapped_iff (c := {}) (Ctx.clean_fresh [])).1 ⟨h1, h2⟩)
      obtain ⟨h9, k', h10, h11⟩ := ih (by omega) hem hmt (off + i * es) (Ctx.clean_fresh []) (fun _ => rfl) h4 h5 hx
      rw [Nat.add_assoc] at h9 h10
      exact ⟨h9, k', h10, by omega⟩

/-- **C107** If a byte stream can be mapped, every part of the value at a fixed place can be mapped on its own:
the map of the type of the part gives the same value at that place, and does not go beyond the bytes of the
whole. -/
theorem C107_part (E : Env) {d t : Defn} {path : List Part} {o : Nat} (hp : Place E d path o t) (hpath : path ≠ [])
    (hl : d.levels ≤ 11) {m mt : DMap} (hm : createMap E d = .ok m) (hmt : createMap E t = .ok mt)
    (bs : Bytes) (off : Nat) {c : Ctx} (hc : c.Clean) {v : Val} {n : Nat}
    (hv : (mapStream E m bs off 0 c).1 = .ok v) (hn : (mapStream E m bs off 0 c).2.byteSize = some n)
    {x : Val} (hx : partOf v path = some x) :
    (mapStream E mt bs (off + o) 0 {}).1 = .ok x ∧
      ∃ k, (mapStream E mt bs (off + o) 0 {}).2.byteSize = some k ∧ o + k ≤ n :=
  place_part E hp hl hm hmt bs off hc (fun h => absurd h hpath) hv hn hx

/-- **C107** A path of attributes leads to a part of every value that is mapped. -/
theorem C107_there (E : Env) {d t : Defn} {path : List Part} {o : Nat} (hp : Place E d path o t)
    (ha : ∀ p ∈ path, ∃ n, p = .attribute n) (hl : d.levels ≤ 11) {m : DMap} (hm : createMap E d = .ok m)
    (bs : Bytes) (off : Nat) {c : Ctx} (hc : c.Clean) {v : Val} (hv : (mapStream E m bs off 0 c).1 = .ok v) :
    ∃ x, partOf v path = some x := by
  induction hp generalizing m off c v with
  | here d => exact ⟨v, rfl⟩
  | member types oneOrder order noNames always fixed rest ih =>
    obtain ⟨n, -, hn⟩ := mapStream_ok hc hv
    obtain ⟨m', w, k, hcr, hlt, h7, -, -, hpart⟩ :=
      member_place types oneOrder order noNames always fixed hl hm hc hv hn
    rw [hpart]
    exact ih (fun p hp => ha p (by simp [hp])) (by omega) hcr _ (Ctx.clean_fresh []) h7
  | element =>
    obtain ⟨n, hn⟩ := ha _ List.mem_cons_self
    cases hn

/-! ### Examples -/

/-- `struct { uint16 x; uint16 y; }` -/
def exPlaceXY : Defn :=
  .struct { name := "spot", order := .little } [.member { name := "x" } exU16 none (some "uint16") none,
    .member { name := "y" } exU16 none (some "uint16") none]

/-- `uint16[2]` -/
def exTwoOf : Defn :=
  .seq { name := "two", order := .little }
    { kind := .sequence, elementDataType := some "uint16", numElements := some 2 } exU16

/-- `struct { uint8 a; spot p; two z; }` -/
def exPlaces : Defn :=
  .struct { name := "T", order := .little }
    [.member { name := "a" } exU8 none (some "uint8") none, .member { name := "p" } exPlaceXY none (some "spot") none,
      .member { name := "z" } exTwoOf none (some "two") none]

theorem exPlaces_types : DistinctTypes [.member { name := "a" } exU8 none (some "uint8") none,
    .member { name := "p" } exPlaceXY none (some "spot") none, .member { name := "z" } exTwoOf none (some "two") none] := by
  simp [DistinctTypes, exPlaceXY, exTwoOf, exU8, Defn.target, Defn.name, Defn.hdr]

theorem exPlaces_order : OneOrder exEnv .little [.member { name := "a" } exU8 none (some "uint8") none,
    .member { name := "p" } exPlaceXY none (some "spot") none, .member { name := "z" } exTwoOf none (some "two") none] := by
  intro hh
  have := hh (.member { name := "p" } exPlaceXY none (some "spot") none) (by simp)
  simp [exPlaceXY, Defn.isComposite] at this

/-- The attribute `p.y` is at 3, the element `z[1]` at 7. -/
example : Place exEnv exPlaces [.attribute "p", .attribute "y"] 3 exU16 ∧
    Place exEnv exPlaces [.attribute "z", .element 1] 7 exU16 := by
  constructor
  · refine .member (h := { name := "T", order := .little }) (pre := [.member { name := "a" } exU8 none (some "uint8") none])
      (widths := [1]) (o := 2) exPlaces_types exPlaces_order (.inr (.inl rfl)) rfl (.inl rfl) ?_ ?_
    · refine .cons ⟨.inl rfl, rfl, ?_⟩ .nil
      simp [Defn.target, exU8, Defn.Every, Plain]
    refine .member (h := { name := "spot", order := .little })
      (pre := [.member { name := "x" } exU16 none (some "uint16") none]) (post := []) (widths := [2]) (o := 0)
      ?_ ?_ (.inr (.inl rfl)) rfl (.inl rfl) ?_ (.here _)
    · simp [DistinctTypes, exU16, Defn.target, Defn.name, Defn.hdr]
    · intro hh hs
      refine ⟨fun d hd o ho hne => ?_, fun d hd h a => ?_⟩
      · simp only [List.cons_append, List.nil_append, List.mem_cons, List.not_mem_nil, or_false] at hd
        rcases hd with rfl | rfl <;> cases ho <;> exact Iff.rfl
      · simp only [List.cons_append, List.nil_append, List.mem_cons, List.not_mem_nil, or_false] at hd
        rcases hd with rfl | rfl <;> simp [exU16, Defn.target]
    · refine .cons ⟨.inl rfl, rfl, ?_⟩ .nil
      simp [Defn.target, exU16, Defn.Every, Plain]
  · refine .member (h := { name := "T", order := .little }) (pre := [.member { name := "a" } exU8 none (some "uint8") none,
        .member { name := "p" } exPlaceXY none (some "spot") none]) (post := [])
      (widths := [1, 4]) (o := 2) exPlaces_types exPlaces_order (.inr (.inl rfl)) rfl (.inl rfl) ?_ ?_
    · refine .cons ⟨.inl rfl, rfl, ?_⟩ (.cons ⟨.inl rfl, rfl, ?_⟩ .nil)
      · simp [Defn.target, exU8, Defn.Every, Plain]
      · simp [Defn.target, exPlaceXY, exU16, Defn.Every, everyDefn, Plain, DistinctTypes, Defn.name, Defn.hdr]
    refine .element (es := 2) (i := 1) (o := 0) rfl ?_ rfl ⟨_, rfl⟩ rfl ?_ (.here _)
    · intros; simp [exU16]
    · simp [exU16, Defn.Every, Plain]

example : ∃ m m2, createMap exEnv exPlaces = .ok m ∧ createMap exEnv exU16 = .ok m2 ∧ exPlaces.levels ≤ 11 ∧
    (mapStream exEnv m [9, 1, 2, 0, 3, 0, 4, 0, 5, 0] 1 0 {}).1 =
      .ok (.struct "T" [("a", .int 1), ("p", .struct "spot" [("x", .int 2), ("y", .int 3)]),
        ("z", .tuple [.int 4, .int 5])]) ∧
    (mapStream exEnv m [9, 1, 2, 0, 3, 0, 4, 0, 5, 0] 1 0 {}).2.byteSize = some 9 ∧
    (mapStream exEnv m2 [9, 1, 2, 0, 3, 0, 4, 0, 5, 0] (1 + 3) 0 {}).1 = .ok (.int 3) ∧
    (mapStream exEnv m2 [9, 1, 2, 0, 3, 0, 4, 0, 5, 0] (1 + 7) 0 {}).1 = .ok (.int 5) :=
  ⟨_, _, rfl, rfl, by decide, rfl, rfl, rfl, rfl⟩

end Dtf
