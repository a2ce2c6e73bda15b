import Verif.Props.Growth
import Verif.Props.Locality
import Verif.Props.Streams
import Verif.Depth
import Verif.Props.Extract
import Verif.Props.Patch
import Verif.Props.FoldStreams
/-!
# Property C106: a member can be left as bytes and mapped later
-/
namespace Dtf

namespace Spec

/-- No expression of the members `post` looks at the value of the member before them, the one after
the members `pre`. -/
def Overlooked (E : Env) (cls : String) (outer : Namespace) (names : List String) (pre post : List Defn) : Prop :=
  ∀ e ∈ namesUsedByAll post, ∀ (a r : List Val) (x y : Val), a.length = pre.length →
    Indifferent E (scope cls names (a ++ x :: r) outer) (scope cls names (a ++ y :: r) outer) e

/-- The type `t` means the same outside of a structure with the header `h`: it has its own byte order,
or the structure has none; it has no alignment and no expressions that use members of the structure
around it; and its values depend on their own bytes only (C62). -/
structure Detachable (h : Hdr) (t : Defn) : Prop where
  order : h.order = .native ∨ t.order? = some .little ∨ t.order? = some .big
  noAlignment : ∀ k, t.Every (AlignmentDivides k)
  noNames : namesUsedBy t = []
  ownBytes : t.Every fun d => FullTerminators d ∧ Ordinary d ∧ LooksAtItsBytes d
  levels : t.levels ≤ 10

/-- The member `hd` with a stream of bytes of given data size in place of its type. -/
def leftAsBytes (hd hb : Hdr) (info : SeqInfo) (e : Defn) (c tn : Option String) : Defn :=
  .member hd (.seq hb { info with kind := .stream } e) c tn none

end Spec
open Spec

theorem layout_exchange {E : Env} {bs : Bytes} {depth : Nat} {outer : Namespace} {cls : String} {so : Order}
    {names : List String} {pre post ms : List Defn} {a : List Val} (x y : Val) {r : List Val} {p e : Nat} {vs : List Val}
    (ha : a.length = pre.length) (hS : Overlooked E cls outer names pre post)
    (hms : ∀ s ∈ namesUsedByAll ms, s ∈ namesUsedByAll post)
    (h : Layout E bs depth outer cls so names (a ++ x :: r) ms p vs e) :
    ∃ us, vs = a ++ x :: us ∧ Layout E bs depth outer cls so names (a ++ y :: r) ms p (a ++ y :: us) e := by
  induction ms generalizing r p with
  | nil => cases h; exact ⟨r, rfl, .done _ _⟩
  | cons d ms ih =>
    have ih := fun r p => @ih r p (fun s hs => hms s (by simp only [namesUsedByAll, List.mem_append]; exact .inr hs))
    have hcond : ∀ s ∈ d.memInfo.condition.toList, Indifferent E (scope cls names (a ++ x :: r) outer)
        (scope cls names (a ++ y :: r) outer) s :=
      fun s hs => hS s (hms s (namesUsedBy_mem List.mem_cons_self (namesUsedBy_condition hs))) a r x y ha
    cases h with
    | absent hc h =>
      rw [List.append_assoc, List.cons_append] at h
      obtain ⟨us, rfl, hl⟩ := ih _ _ h
      refine ⟨us, rfl, .absent (present_indifferent hcond hc) ?_⟩
      rw [List.append_assoc, List.cons_append]
      exact hl
    | @present _ _ _ _ _ _ k m v hc hmo hv hk hs h =>
      rw [List.append_assoc, List.cons_append] at h
      obtain ⟨us, rfl, hl⟩ := ih _ _ h
      obtain ⟨n, o, hno, hcr⟩ := hmo
      have hp : parse E m bs p (depth + 1) (scope cls names (a ++ x :: r) outer) = .ok (v, k) := by
        obtain ⟨k', h1, h2⟩ := mapStream_ok (c := { values := scope cls names (a ++ x :: r) outer }) rfl hv
        rw [hk] at h2
        cases h2
        exact h1
      rw [createAs_unmoved E d (namesUsedBy d) (fun _ h => h) n o m (.inr hcr) bs p (depth + 1) _ _
        (fun s hs => hS s (hms s (namesUsedBy_mem List.mem_cons_self hs)) a r x y ha)] at hp
      obtain ⟨h1, h2⟩ := mapStream_of_parse (c := { values := scope cls names (a ++ y :: r) outer }) rfl hp
      refine ⟨us, rfl, .present (present_indifferent hcond hc) ⟨n, o, hno, hcr⟩ h1 h2 hs ?_⟩
      rw [List.append_assoc, List.cons_append]
      exact hl

/-- The map of a member whose type has its own byte order is the map of the type. -/
theorem mapOf_own {E : Env} {h : Hdr} {t : Defn}
    (horder : h.order = .native ∨ t.order? = some .little ∨ t.order? = some .big) {hd : Hdr}
    {c tn : Option String} {vs : Option (List Lit)} {m : DMap} :
    MapOf E h.name h.order (.member hd t c tn vs) m ↔ createMap E t = .ok m := by
  have key : memberNameOrder h.name h.order t = .ok (t.name, t.orderOrNative) := by
    unfold memberNameOrder
    rcases horder with ho | ho | ho
    · rw [if_pos ho]
    all_goals
      split
      · rfl
      · rw [ho]; simp [Defn.orderOrNative, ho]
  constructor
  · rintro ⟨n, o, h1, h2⟩
    simp only [Defn.target] at h1 h2
    rw [key] at h1
    cases h1
    exact h2
  · intro h2
    exact ⟨_, _, key, h2⟩

theorem Spec.Detachable.mapOf {E : Env} {h : Hdr} {t : Defn} (hdet : Detachable h t) {hd : Hdr}
    {c tn : Option String} {vs : Option (List Lit)} {m : DMap} :
    MapOf E h.name h.order (.member hd t c tn vs) m ↔ createMap E t = .ok m := mapOf_own hdet.order

/-- Mapping the type within the structure and mapping its bytes on their own. -/
theorem Spec.Detachable.apart {E : Env} {h : Hdr} {t : Defn} (hdet : Detachable h t) {m : DMap}
    (hm : createMap E t = .ok m) {bs : Bytes} {q k : Nat} (hq : q + k ≤ bs.length) (ns : Namespace) (x : Val) :
    parse E m bs q 1 ns = .ok (x, k) ↔ parse E m (window bs q k) 0 0 [] = .ok (x, k) := by
  have hlev := levels_createAs t _ _ m hm
  have hl := hdet.levels
  have e1 : parse E m bs q 1 ns = parse E m bs q 0 [] := by
    rw [createAs_unmoved E t [] (by rw [hdet.noNames]; simp) _ _ m (.inl hm) bs q 1 ns [] (by simp),
      parse_free E m bs 1 (by omega), parse_free E m bs 0 (by omega)]
  have e2 : parse E m bs q 0 [] = parse E m (bs.drop q) 0 0 [] := by
    rw [parse_shift E m bs q (by omega) (createAs_every (alignDvd_of q) t _ _ m hm (hdet.noAlignment q)) 0 0 []]
    rfl
  rw [e1, e2]
  constructor
  · intro hp
    obtain ⟨h1, h2⟩ := mapStream_of_parse (c := {}) rfl hp
    have hlen : 0 + k ≤ (bs.drop q).length := by simp; omega
    obtain ⟨h3, h4⟩ := C62_cut_partial E t hdet.ownBytes m hm (bs.drop q) 0 0 k {} rfl x h1 h2 hlen
    rw [Nat.zero_add] at h3 h4
    obtain ⟨k', h5, h6⟩ := mapStream_ok (c := {}) rfl h3
    have h6 : (mapStream E m ((bs.drop q).take k) 0 0 {}).2.byteSize = some k' := h6
    rw [h4] at h6
    cases h6
    exact h5
  · intro hp
    have hb : bs.drop q = window bs q k ++ (bs.drop q).drop k := (List.take_append_drop k _).symm
    have hev : m.Every Extendable := by
      refine createAs_every extendable_of t _ _ m hm ?_
      refine Defn.Every.imp ?_ t (every_elem t hdet.ownBytes)
      rintro d ⟨⟨h1, h2, h4⟩, h3⟩
      exact ⟨h1, h2, fun i e h heq => (h3 i e h heq).2.1⟩
    rw [hb, parse_append E m hev (window bs q k) _ 0 0 [] (by rw [hp]; simp), hp]

/-- What a stream of given data size maps to. -/
theorem block_parse {E : Env} {nm : String} {o : Order} {hb : Hdr} {info : SeqInfo} {e : Defn} {m : DMap}
    (hk : info.kind = .stream) (hi : info.dataSize.isSome ∨ info.dataSizeExpr.isSome)
    (hm : createAs E nm o (.seq hb info e) = .ok m) {bs : Bytes} {q depth : Nat} {ns : Namespace} {v : Val} {k : Nat}
    (h : parse E m bs q depth ns = .ok (v, k)) : v = .bytes (window bs q k) ∧ q + k ≤ bs.length := by
  obtain ⟨n', eo, em, -, -, rfl, -⟩ := createAs_seq hm
  have hds : info.hasDataSize = true := by simpa [SeqInfo.hasDataSize] using hi
  simp only [parse, hk] at h
  unfold streamParse streamSize at h
  rw [if_pos hds] at h
  cases hz : evalDataSize E info ns with
  | error x => rw [hz] at h; cases h
  | ok z =>
    have h0 : 0 ≤ z := by
      unfold evalDataSize at hz
      split at hz
      · exact checkSize_nonneg hz
      · unfold evalSize at hz
        repeat' split at hz
        all_goals try cases hz
        exact checkSize_nonneg hz
    rw [hz] at h
    simp only at h
    by_cases hts : tooSmall bs q z
    · rw [if_pos hts] at h; cases h
    · rw [if_neg hts] at h
      simp only [Except.ok.injEq, Prod.mk.injEq] at h
      obtain ⟨rfl, rfl⟩ := h
      simp only [tooSmall, decide_eq_true_eq] at hts
      refine ⟨?_, by omega⟩
      simp [slice, window]

theorem structure_layout {E : Env} {h : Hdr} {ms : List Defn} (hdt : DistinctTypes ms) (ho : OneOrder E h.order ms)
    {m : DMap} (hm : createMap E (.struct h ms) = .ok m) :
    (ms.map Defn.name).Nodup ∧ (∀ d ∈ ms, ∃ m, MapOf E h.name h.order d m) ∧
    ∀ (bs : Bytes) (off : Nat) (c : Ctx), c.Clean → ∀ attrs n,
      (mapStream E m bs off 0 c).1 = .ok (.struct h.name attrs) → (mapStream E m bs off 0 c).2.byteSize = some n →
      (h.name ≠ "super" ∧ ∀ d ∈ ms, d.name ≠ "super" ∧ d.name ≠ h.name) ∧
      ∃ vs, Layout E bs 0 c.values h.name h.order (ms.map Defn.name) [] ms off vs (off + n) ∧
        vs.length = ms.length ∧ attrs = fill (ms.map Defn.name) vs := by
  have hm' : createAs E h.name h.order (.struct h ms) = .ok m := hm
  obtain ⟨maps, io, hmo, hcls, hiff⟩ := struct_parse_iff hdt ho hm'
  refine ⟨(createClass_nodup hcls).1, fun d hd => all2_mem hmo hd, ?_⟩
  intro bs off c hc attrs n hv hn
  obtain ⟨vs, k, h1, h2, h3, h4⟩ := C16_layout E _ _ h ms hdt ho m hm' bs off 0 c hc _ hv
  rw [hn] at h4
  cases h4
  obtain ⟨k', hp, -⟩ := mapStream_ok hc hv
  obtain ⟨hio, -⟩ := (hiff bs off 0 c.values _ k').1 hp
  refine ⟨createClass_free (hio ▸ hcls), vs, h1, h2, ?_⟩
  simpa using h3

theorem fill_replace (pre : List String) (n : String) (post : List String) (a : List Val) (x y : Val) (r : List Val)
    (hl : a.length = pre.length) (hn : (pre ++ n :: post).Nodup) :
    setAttr (fill (pre ++ n :: post) (a ++ x :: r)) n y = fill (pre ++ n :: post) (a ++ y :: r) := by
  unfold setAttr
  induction pre generalizing a with
  | nil =>
    cases a with
    | nil =>
      simp only [List.nil_append, fill]
      refine nsSet_head _ _ _ ?_
      rw [fill_keys]
      simp only [List.nil_append, List.nodup_cons] at hn
      exact hn.1
    | cons => simp at hl
  | cons p pre ih =>
    cases a with
    | nil => simp at hl
    | cons u a =>
      simp only [List.cons_append, List.nodup_cons, fill] at hn ⊢
      rw [nsSet_cons_ne, ih a (by simpa using hl) hn.2]
      rintro rfl
      exact hn.1 (by simp)

theorem layout_cons {E : Env} {bs : Bytes} {outer : Namespace} {cls : String} {so : Order} {names : List String}
    {a : List Val} {d : Defn} {ms : List Defn} {q e : Nat} {vs : List Val}
    (h : Layout E bs 0 outer cls so names a (d :: ms) q vs e) :
    (Present E (scope cls names a outer) d false ∧ Layout E bs 0 outer cls so names (a ++ [.pyNone]) ms q vs e) ∨
    ∃ m v k, Present E (scope cls names a outer) d true ∧ MapOf E cls so d m ∧
      parse E m bs q 1 (scope cls names a outer) = .ok (v, k) ∧ Supported d v ∧
      Layout E bs 0 outer cls so names (a ++ [v]) ms (q + k) vs e := by
  cases h with
  | absent hc h => exact .inl ⟨hc, h⟩
  | @present _ _ _ _ _ _ k m v hc hmo hv hk hs h =>
    obtain ⟨k', h1, h2⟩ := mapStream_ok (c := { values := scope cls names a outer }) rfl hv
    rw [hk] at h2
    cases h2
    exact .inr ⟨m, v, k, hc, hmo, h1, hs, h⟩

theorem present_same {E : Env} {ns : Namespace} {d d' : Defn} {b : Bool}
    (h : d.memInfo.condition = d'.memInfo.condition) (hp : Present E ns d b) : Present E ns d' b := by
  cases hp with
  | always hc => exact .always (h ▸ hc)
  | cond hc hn he => exact .cond (h ▸ hc) hn he

section
variable {E : Env} {h : Hdr} {pre post : List Defn} {hd hb : Hdr} {t e : Defn} {info : SeqInfo}
  {cond tn tn' : Option String} {sup : Option (List Lit)} {m m' mt : DMap}

/-- **C106** A structure with a member that is left as a stream of bytes, and the same with a type
for that member. If the first can be mapped, and the bytes of the member can be mapped on their own
to a value `x`, the second can be mapped: to the same object with `x` for the bytes, and with the
same size. -/
theorem C106_mapped_together (hdet : Detachable h t)
    (hi : info.dataSize.isSome ∨ info.dataSizeExpr.isSome)
    (hdt : DistinctTypes (pre ++ .member hd t cond tn sup :: post))
    (ho : OneOrder E h.order (pre ++ .member hd t cond tn sup :: post))
    (hdt' : DistinctTypes (pre ++ leftAsBytes hd hb info e cond tn' :: post))
    (ho' : OneOrder E h.order (pre ++ leftAsBytes hd hb info e cond tn' :: post))
    (hm : createMap E (.struct h (pre ++ .member hd t cond tn sup :: post)) = .ok m)
    (hm' : createMap E (.struct h (pre ++ leftAsBytes hd hb info e cond tn' :: post)) = .ok m')
    (hmt : createMap E t = .ok mt) (bs : Bytes) (off : Nat) (c : Ctx) (hc : c.Clean)
    (hS : Overlooked E h.name c.values ((pre ++ .member hd t cond tn sup :: post).map Defn.name) pre post)
    (attrs : List (String × Val)) (n : Nat)
    (hv : (mapStream E m' bs off 0 c).1 = .ok (.struct h.name attrs))
    (hn : (mapStream E m' bs off 0 c).2.byteSize = some n)
    (b : Bytes) (hb' : getAttr (.struct h.name attrs) hd.name = .bytes b)
    (x : Val) (hx : (mapStream E mt b 0 0 {}).1 = .ok x)
    (hxn : (mapStream E mt b 0 0 {}).2.byteSize = some b.length)
    (hxs : Supported (.member hd t cond tn sup) x) :
    (mapStream E m bs off 0 c).1 = .ok (.struct h.name (setAttr attrs hd.name x)) ∧
      (mapStream E m bs off 0 c).2.byteSize = some n := by
  obtain ⟨hnd, -, -⟩ := structure_layout hdt ho hm
  obtain ⟨hnd', hmaps', hlay⟩ := structure_layout hdt' ho' hm'
  obtain ⟨hfree, vs, hl, hlen, rfl⟩ := hlay bs off c hc attrs n hv hn
  have hnames : (pre ++ leftAsBytes hd hb info e cond tn' :: post).map Defn.name =
      (pre ++ .member hd t cond tn sup :: post).map Defn.name := by
    simp [leftAsBytes, Defn.name, Defn.hdr]
  have hnm : (pre ++ .member hd t cond tn sup :: post).map Defn.name =
      pre.map Defn.name ++ hd.name :: post.map Defn.name := by simp [Defn.name, Defn.hdr]
  rw [hnames] at hl hb' ⊢
  obtain ⟨a, q, h1, h2⟩ := layout_append.1 hl
  obtain ⟨ha, -, -⟩ := layout_length h1
  simp only [List.length_nil, Nat.zero_add] at ha
  have hfree' : h.name ≠ "super" ∧ ∀ d ∈ pre ++ .member hd t cond tn sup :: post, d.name ≠ "super" ∧ d.name ≠ h.name := by
    refine ⟨hfree.1, fun d hd' => ?_⟩
    have : d.name ∈ (pre ++ leftAsBytes hd hb info e cond tn' :: post).map Defn.name := by
      rw [hnames]; exact List.mem_map_of_mem hd'
    obtain ⟨d', h3, h4⟩ := List.mem_map.1 this
    exact h4 ▸ hfree.2 d' h3
  rcases layout_cons h2 with ⟨-, h3⟩ | ⟨mb, v, k, hpr, hmo, hp, -, h3⟩
  · exfalso
    obtain ⟨us, rfl, -⟩ := layout_exchange (pre := pre) .pyNone .pyNone (r := []) ha hS (fun _ h => h) h3
    rw [hnm] at hb' hnd
    simp [getAttr, fill_get _ _ _ a .pyNone us (by simpa using ha) hnd] at hb'
  obtain ⟨us, rfl, h4⟩ := layout_exchange (pre := pre) v x (r := []) ha hS (fun _ h => h) h3
  have hvb : v = .bytes b := by
    rw [hnm] at hb' hnd
    simpa [getAttr, fill_get _ _ _ a v us (by simpa using ha) hnd] using hb'
  obtain ⟨n', o', -, hcr⟩ := hmo
  obtain ⟨h5, h6⟩ := block_parse (info := { info with kind := .stream }) rfl hi hcr hp
  rw [hvb] at h5
  cases h5
  have hk : (window bs q k).length = k := by simp [window]; omega
  rw [hk] at hxn
  have hpx : parse E mt (window bs q k) 0 0 [] = .ok (x, k) := by
    obtain ⟨k', h7, h8⟩ := mapStream_ok (c := {}) rfl hx
    rw [hxn] at h8
    cases h8
    exact h7
  have hpx := (hdet.apart hmt h6 (scope h.name ((pre ++ .member hd t cond tn sup :: post).map Defn.name) a c.values) x).2 hpx
  obtain ⟨h7, h8⟩ := mapStream_of_parse (c := { values := scope h.name ((pre ++ .member hd t cond tn sup :: post).map Defn.name) a c.values }) rfl hpx
  have hfin := layout_append.2 ⟨a, q, h1, Layout.present (d := .member hd t cond tn sup)
    (present_same (by rfl) hpr) (hdet.mapOf.2 hmt) h7 h8 hxs h4⟩
  obtain ⟨h9, n'', h10, h11⟩ := C16_complete E h.name h.order h _ hdt ho m hm hfree' bs off 0 (by omega) c hc _ _ hfin
  obtain rfl : n'' = n := by omega
  refine ⟨?_, h10⟩
  rw [h9, hnm, fill_replace _ _ _ a v x us (by simpa using ha) (hnm ▸ hnd)]

/-- **C106** If the member left as bytes is absent, so is the member with the type, and all else is
the same. -/
theorem C106_absent_together (hi : info.dataSize.isSome ∨ info.dataSizeExpr.isSome)
    (hdt : DistinctTypes (pre ++ .member hd t cond tn sup :: post))
    (ho : OneOrder E h.order (pre ++ .member hd t cond tn sup :: post))
    (hdt' : DistinctTypes (pre ++ leftAsBytes hd hb info e cond tn' :: post))
    (ho' : OneOrder E h.order (pre ++ leftAsBytes hd hb info e cond tn' :: post))
    (hm : createMap E (.struct h (pre ++ .member hd t cond tn sup :: post)) = .ok m)
    (hm' : createMap E (.struct h (pre ++ leftAsBytes hd hb info e cond tn' :: post)) = .ok m')
    (bs : Bytes) (off : Nat) (c : Ctx) (hc : c.Clean)
    (hS : Overlooked E h.name c.values ((pre ++ .member hd t cond tn sup :: post).map Defn.name) pre post)
    (attrs : List (String × Val)) (n : Nat)
    (hv : (mapStream E m' bs off 0 c).1 = .ok (.struct h.name attrs))
    (hn : (mapStream E m' bs off 0 c).2.byteSize = some n)
    (hb' : getAttr (.struct h.name attrs) hd.name = .pyNone) :
    (mapStream E m bs off 0 c).1 = .ok (.struct h.name attrs) ∧ (mapStream E m bs off 0 c).2.byteSize = some n := by
  obtain ⟨hnd, -, -⟩ := structure_layout hdt ho hm
  obtain ⟨hnd', hmaps', hlay⟩ := structure_layout hdt' ho' hm'
  obtain ⟨hfree, vs, hl, hlen, rfl⟩ := hlay bs off c hc attrs n hv hn
  have hnames : (pre ++ leftAsBytes hd hb info e cond tn' :: post).map Defn.name =
      (pre ++ .member hd t cond tn sup :: post).map Defn.name := by
    simp [leftAsBytes, Defn.name, Defn.hdr]
  have hnm : (pre ++ .member hd t cond tn sup :: post).map Defn.name =
      pre.map Defn.name ++ hd.name :: post.map Defn.name := by simp [Defn.name, Defn.hdr]
  rw [hnames] at hl hb' ⊢
  obtain ⟨a, q, h1, h2⟩ := layout_append.1 hl
  obtain ⟨ha, -, -⟩ := layout_length h1
  simp only [List.length_nil, Nat.zero_add] at ha
  have hfree' : h.name ≠ "super" ∧ ∀ d ∈ pre ++ .member hd t cond tn sup :: post, d.name ≠ "super" ∧ d.name ≠ h.name := by
    refine ⟨hfree.1, fun d hd' => ?_⟩
    have : d.name ∈ (pre ++ leftAsBytes hd hb info e cond tn' :: post).map Defn.name := by
      rw [hnames]; exact List.mem_map_of_mem hd'
    obtain ⟨d', h3, h4⟩ := List.mem_map.1 this
    exact h4 ▸ hfree.2 d' h3
  rcases layout_cons h2 with ⟨habs, h3⟩ | ⟨mb, v, k, hpr, hmo, hp, -, h3⟩
  · have hfin := layout_append.2 ⟨a, q, h1, Layout.absent (d := .member hd t cond tn sup) (present_same (by rfl) habs) h3⟩
    obtain ⟨h9, n', h10, h11⟩ := C16_complete E h.name h.order h _ hdt ho m hm hfree' bs off 0 (by omega) c hc _ _ hfin
    obtain rfl : n' = n := by omega
    exact ⟨h9, h10⟩
  · exfalso
    obtain ⟨us, rfl, h4⟩ := layout_exchange (pre := pre) v v (r := []) ha hS (fun _ h => h) h3
    have hvb : v = .pyNone := by
      rw [hnm] at hb' hnd
      simpa [getAttr, fill_get _ _ _ a v us (by simpa using ha) hnd] using hb'
    obtain ⟨n', o', -, hcr⟩ := hmo
    have h5 := (block_parse (info := { info with kind := .stream }) rfl hi hcr hp).1
    rw [hvb] at h5
    cases h5

/-- **C106** Conversely, if the structure with the type can be mapped, and the type always takes the
bytes the stream is given, the structure with the stream can be mapped: to the same object with these
bytes for the value, and with the same size. Mapping these bytes on their own then gives the value. A
member that is absent in one is absent in the other. -/
theorem C106_mapped_later (hdet : Detachable h t) (k : Nat) (hk0 : 0 < k) (hi : info.dataSize = some (k : Int))
    (hfix : t.byteSize = some (k : Int)) (hplain : t.Every Plain)
    (hdt : DistinctTypes (pre ++ .member hd t cond tn sup :: post))
    (ho : OneOrder E h.order (pre ++ .member hd t cond tn sup :: post))
    (hdt' : DistinctTypes (pre ++ leftAsBytes hd hb info e cond tn' :: post))
    (ho' : OneOrder E h.order (pre ++ leftAsBytes hd hb info e cond tn' :: post))
    (hm : createMap E (.struct h (pre ++ .member hd t cond tn sup :: post)) = .ok m)
    (hm' : createMap E (.struct h (pre ++ leftAsBytes hd hb info e cond tn' :: post)) = .ok m')
    (hmt : createMap E t = .ok mt) (bs : Bytes) (off : Nat) (c : Ctx) (hc : c.Clean)
    (hS : Overlooked E h.name c.values ((pre ++ .member hd t cond tn sup :: post).map Defn.name) pre post)
    (attrs : List (String × Val)) (n : Nat)
    (hv : (mapStream E m bs off 0 c).1 = .ok (.struct h.name attrs))
    (hn : (mapStream E m bs off 0 c).2.byteSize = some n) :
    ∃ w, (mapStream E m' bs off 0 c).1 = .ok (.struct h.name (setAttr attrs hd.name w)) ∧
      (mapStream E m' bs off 0 c).2.byteSize = some n ∧
      ((w = .pyNone ∧ getAttr (.struct h.name attrs) hd.name = .pyNone) ∨
        ∃ b, w = .bytes b ∧ b.length = k ∧
          (mapStream E mt b 0 0 {}).1 = .ok (getAttr (.struct h.name attrs) hd.name) ∧
          (mapStream E mt b 0 0 {}).2.byteSize = some k) := by
  obtain ⟨hnd, -, hlay⟩ := structure_layout hdt ho hm
  obtain ⟨hnd', hmaps', -⟩ := structure_layout hdt' ho' hm'
  obtain ⟨hfree, vs, hl, hlen, rfl⟩ := hlay bs off c hc attrs n hv hn
  have hnames : (pre ++ leftAsBytes hd hb info e cond tn' :: post).map Defn.name =
      (pre ++ .member hd t cond tn sup :: post).map Defn.name := by
    simp [leftAsBytes, Defn.name, Defn.hdr]
  have hnm : (pre ++ .member hd t cond tn sup :: post).map Defn.name =
      pre.map Defn.name ++ hd.name :: post.map Defn.name := by simp [Defn.name, Defn.hdr]
  obtain ⟨a, q, h1, h2⟩ := layout_append.1 hl
  obtain ⟨ha, -, -⟩ := layout_length h1
  simp only [List.length_nil, Nat.zero_add] at ha
  have hfree' : h.name ≠ "super" ∧
      ∀ d ∈ pre ++ leftAsBytes hd hb info e cond tn' :: post, d.name ≠ "super" ∧ d.name ≠ h.name := by
    refine ⟨hfree.1, fun d hd' => ?_⟩
    have : d.name ∈ (pre ++ .member hd t cond tn sup :: post).map Defn.name := by
      rw [← hnames]; exact List.mem_map_of_mem hd'
    obtain ⟨d', h3, h4⟩ := List.mem_map.1 this
    exact h4 ▸ hfree.2 d' h3
  have hget : ∀ x us, getAttr (.struct h.name
      (fill ((pre ++ .member hd t cond tn sup :: post).map Defn.name) (a ++ x :: us))) hd.name = x := by
    intro x us
    rw [hnm] at hnd ⊢
    simp [getAttr, fill_get _ _ _ a x us (by simpa using ha) hnd]
  have hset : ∀ x y us, setAttr (fill ((pre ++ .member hd t cond tn sup :: post).map Defn.name) (a ++ x :: us)) hd.name y =
      fill ((pre ++ .member hd t cond tn sup :: post).map Defn.name) (a ++ y :: us) := by
    intro x y us
    rw [hnm, fill_replace _ _ _ a x y us (by simpa using ha) (hnm ▸ hnd)]
  rcases layout_cons h2 with ⟨habs, h3⟩ | ⟨mt', v, k', hpr, hmo, hp, -, h3⟩
  · obtain ⟨us, rfl, h4⟩ := layout_exchange (pre := pre) .pyNone .pyNone (r := []) ha hS (fun _ h => h) h3
    have hfin := layout_append.2 ⟨a, q, h1,
      Layout.absent (d := leftAsBytes hd hb info e cond tn') (present_same (by rfl) habs) h4⟩
    rw [← hnames] at hfin
    obtain ⟨h9, n', h10, h11⟩ := C16_complete E h.name h.order h _ hdt' ho' m' hm' hfree' bs off 0 (by omega) c hc _ _ hfin
    obtain rfl : n' = n := by omega
    rw [hnames] at h9
    refine ⟨.pyNone, ?_, h10, .inl ⟨rfl, hget _ _⟩⟩
    rw [h9, hset]
  obtain rfl : mt' = mt := by
    have := hdet.mapOf.1 hmo
    rw [hmt] at this
    cases this
    rfl
  obtain ⟨hkk, hin⟩ : (k' : Int) = k ∧ (q : Int) + k ≤ bs.length := by
    have := (parse_exact E bs t hplain k hfix).2 _ _ _ hmt q 1
      (scope h.name ((pre ++ .member hd t cond tn sup :: post).map Defn.name) a c.values)
    rw [hp] at this
    exact this
  obtain rfl : k' = k := by omega
  have hq : q + k' ≤ bs.length := by omega
  obtain ⟨us, rfl, h4⟩ := layout_exchange (pre := pre) v (.bytes (window bs q k')) (r := []) ha hS (fun _ h => h) h3
  obtain ⟨mb, hmob⟩ := hmaps' (leftAsBytes hd hb info e cond tn') (by simp)
  obtain ⟨n1, o1, hno, hcr⟩ := id hmob
  have hsized := ((C20_sized_stream E n1 o1 hb { info with kind := .stream } rfl e mb hcr bs q 1
    { values := scope h.name ((pre ++ .member hd t cond tn sup :: post).map Defn.name) a c.values } rfl).1 k' (by omega)
    (.inl ⟨by omega, .inl ⟨hi, by omega⟩⟩)).1 (by omega)
  have hfin := layout_append.2 ⟨a, q, h1, Layout.present (d := leftAsBytes hd hb info e cond tn')
    (present_same (by rfl) hpr) hmob hsized.1 hsized.2 (by intro vs hvs; cases hvs) h4⟩
  rw [← hnames] at hfin
  obtain ⟨h9, n', h10, h11⟩ := C16_complete E h.name h.order h _ hdt' ho' m' hm' hfree' bs off 0 (by omega) c hc _ _ hfin
  obtain rfl : n' = n := by omega
  rw [hnames] at h9
  have hpx := (hdet.apart hmt hq _ v).1 hp
  obtain ⟨h12, h13⟩ := mapStream_of_parse (c := {}) rfl hpx
  refine ⟨.bytes (window bs q k'), ?_, h10, .inr ⟨_, rfl, by simp [window]; omega, ?_, h13⟩⟩
  · rw [h9, hset]
  · rw [hget]; exact h12

/-- **C106** The same holds of folding: when the value of the member can be folded on its own, the object
with the value and the object with the bytes it folds to in place of the value fold to the same bytes. The
structures are folded member by member, as one of the members is no number (for others see C101). -/
theorem C106_folded (horder : h.order = .native ∨ t.order? = some .little ∨ t.order? = some .big)
    (hnn : namesUsedBy t = []) (k : Nat) (hk0 : 0 < k) (hi : info.dataSize = some (k : Int))
    (hdt : DistinctTypes (pre ++ .member hd t cond tn sup :: post))
    (hdt' : DistinctTypes (pre ++ leftAsBytes hd hb info e cond tn' :: post))
    (hm : createMap E (.struct h (pre ++ .member hd t cond tn sup :: post)) = .ok m)
    (hm' : createMap E (.struct h (pre ++ leftAsBytes hd hb info e cond tn' :: post)) = .ok m')
    (hmt : createMap E t = .ok mt)
    (hcomp : ∃ d ∈ pre ++ .member hd t cond tn sup :: post, d.isComposite = true)
    (v v' : Val) (p : Bytes) (hp : p.length = k) (hnone : getAttr v hd.name ≠ .pyNone)
    (hf : fold E mt (getAttr v hd.name) [] = .ok (.bytes p)) (hb' : getAttr v' hd.name = .bytes p)
    (hrest : ∀ d ∈ pre ++ post, getAttr v' d.name = getAttr v d.name ∧ SameSize E v v' d)
    (ns : Namespace) (b : Bytes) :
    fold E m v ns = .ok (.bytes b) ↔ fold E m' v' ns = .ok (.bytes b) := by
  have hlin : ∀ ms : List Defn, (∃ d ∈ ms, d.isComposite = true) → DistinctTypes ms → ∀ m,
      createMap E (.struct h ms) = .ok m → (∀ d ∈ ms, ∃ x, MapOf E h.name h.order d x) ∧
        ∀ v b, fold E m v ns = .ok (.bytes b) ↔ Joined E h.name h.order v ms b := by
    intro ms ⟨d, hd, hdc⟩ hdt m hm
    have hm : createAs E h.name h.order (.struct h ms) = .ok m := hm
    obtain ⟨io, infos, maps, l, -, hmem, hchk, rfl, -⟩ := createAs_struct hm
    obtain rfl : l = false := by
      cases l with
      | false => rfl
      | true =>
        have := (checkLinear_true hchk d hd).1
        rw [hdc] at this
        cases this
    refine ⟨fun d hd => ?_, fun v b => C101_members E h.name h.order h ms hdt _ _ _ _ _ hm v ns b⟩
    exact all2_mem (createMembers_mapOf E h.name h.order ms hdt ms (fun d hd => hd) [] (by simp) _ _ hmem) hd
  have hcomp' : ∃ d ∈ pre ++ leftAsBytes hd hb info e cond tn' :: post, d.isComposite = true :=
    ⟨leftAsBytes hd hb info e cond tn', by simp, by simp [leftAsBytes, Defn.isComposite]⟩
  obtain ⟨mb, n1, o1, hno, hcr⟩ := (hlin _ hcomp' hdt' m' hm').1 (leftAsBytes hd hb info e cond tn') (by simp)
  have hpart : ∀ q, PartBytes E h.name h.order v (.member hd t cond tn sup) q ↔ q = p := by
    have key : PartBytes E h.name h.order v (.member hd t cond tn sup) p := by
      refine .inr ⟨hnone, mt, (mapOf_own horder).2 hmt, ?_⟩
      rw [← hf]
      refine fold_apart ?_ hmt _
      intro h0 i0 e0 ht _ x hx
      rw [ht] at hnn
      simp only [namesUsedBy, List.append_eq_nil_iff] at hnn
      rcases hx with hx | hx <;> rw [hx] at hnn <;> simp at hnn
    exact fun q => ⟨fun hq => partBytes_unique hq key, fun hq => hq ▸ key⟩
  have hpart' : ∀ q, PartBytes E h.name h.order v' (leftAsBytes hd hb info e cond tn') q ↔ q = p := by
    have key : PartBytes E h.name h.order v' (leftAsBytes hd hb info e cond tn') p := by
      have hn : getAttr v' (leftAsBytes hd hb info e cond tn').name = .bytes p := hb'
      refine .inr ⟨by rw [hn]; simp, mb, ⟨n1, o1, hno, hcr⟩, ?_⟩
      rw [hn]
      exact ((C58_sized E n1 o1 hb { info with kind := .stream } rfl e mb hcr p _).1 k
        (.inl ⟨by omega, .inl ⟨hi, by omega⟩⟩)).1 (by omega)
    exact fun q => ⟨fun hq => partBytes_unique hq key, fun hq => hq ▸ key⟩
  have hsame : ∀ ms, (∀ d ∈ ms, d ∈ pre ++ post) → ∀ r, Joined E h.name h.order v ms r ↔ Joined E h.name h.order v' ms r := by
    intro ms hms r
    constructor
    · exact joined_same (fun d hd => (hrest d (hms d hd)).2) (fun d hd => (hrest d (hms d hd)).1)
    · exact joined_same (fun d hd h0 i0 e0 ht hk x hx => ((hrest d (hms d hd)).2 h0 i0 e0 ht hk x hx).symm)
        (fun d hd => (hrest d (hms d hd)).1.symm)
  rw [(hlin _ hcomp hdt m hm).2, (hlin _ hcomp' hdt' m' hm').2]
  simp only [joined_append, joined_cons, hpart, hpart', hsame pre (fun d hd => by simp [hd]),
    hsame post (fun d hd => by simp [hd])]

end

/-! ### Examples -/

/-- `struct { uint8 x; uint8 y; }` -/
def exPosition : Defn :=
  .struct { name := "position", order := .little } [.member { name := "x" } exU8 none (some "uint8") none,
    .member { name := "y" } exU8 none (some "uint8") none]

/-- `struct { uint8 a; position p if T.a == 1; uint16 z if T.a == 1; }` -/
def exKnown : List Defn :=
  exPre ++ .member { name := "p" } exPosition (some "T.a == 1") (some "position") none ::
    [.member { name := "z" } exU16 (some "T.a == 1") (some "uint16") none]

/-- The same, with two bytes for the position. -/
def exLeft : List Defn :=
  exPre ++ leftAsBytes { name := "p" } { name := "block" }
      { kind := .stream, elementDataType := some "uint8", dataSize := some 2 } exU8 (some "T.a == 1") (some "block") ::
    [.member { name := "z" } exU16 (some "T.a == 1") (some "uint16") none]

example : Detachable { name := "T", order := .little } exPosition where
  order := .inr (.inl rfl)
  noAlignment := by
    intro k
    simp [Defn.Every, everyDefn, exPosition, exU8, AlignmentDivides]
  noNames := rfl
  ownBytes := by
    simp [Defn.Every, everyDefn, exPosition, exU8, FullTerminators, Ordinary, LooksAtItsBytes, DistinctTypes, Defn.target,
      Defn.name, Defn.hdr]
  levels := by decide

example : DistinctTypes exKnown ∧ OneOrder exEnvE .little exKnown ∧ DistinctTypes exLeft ∧
    OneOrder exEnvE .little exLeft ∧ exPosition.byteSize = some 2 ∧ exPosition.Every Plain := by
  refine ⟨?_, ?_, ?_, ?_, rfl, ?_⟩
  · simp [DistinctTypes, exKnown, exPre, exPosition, exU8, exU16, Defn.target, Defn.name, Defn.hdr]
  · intro hh
    have := hh (.member { name := "z" } exU16 (some "T.a == 1") (some "uint16") none) (by simp [exKnown])
    simp [Defn.isComposite, truthyStr] at this
  · simp [DistinctTypes, exLeft, leftAsBytes, exPre, exU8, exU16, Defn.target, Defn.name, Defn.hdr]
  · intro hh
    have := hh (.member { name := "z" } exU16 (some "T.a == 1") (some "uint16") none) (by simp [exLeft])
    simp [Defn.isComposite, truthyStr] at this
  · simp [Defn.Every, everyDefn, exPosition, exU8, Plain, DistinctTypes, Defn.target, Defn.name, Defn.hdr]

/-- The condition of the last member looks at the first one only. -/
example : Overlooked exEnvE "T" [] (exKnown.map Defn.name) exPre
    [.member { name := "z" } exU16 (some "T.a == 1") (some "uint16") none] := by
  intro e he a r x y ha fs
  have he : e = "T.a == 1" := by
    simpa [namesUsedByAll, namesUsedBy, exU16] using he
  subst he
  simp only [exEnvE, if_pos]
  rw [inside_own (by decide), inside_own (by decide)]
  cases a with
  | nil => cases ha
  | cons v a => rfl

example : ∃ m m' mt, createMap exEnvE (.struct { name := "T", order := .little } exKnown) = .ok m ∧
    createMap exEnvE (.struct { name := "T", order := .little } exLeft) = .ok m' ∧
    createMap exEnvE exPosition = .ok mt ∧
    (mapStream exEnvE m' [9, 1, 5, 6, 7, 0] 1 0 {}).1 =
      .ok (.struct "T" [("a", .int 1), ("p", .bytes [5, 6]), ("z", .int 7)]) ∧
    (mapStream exEnvE mt [5, 6] 0 0 {}).1 = .ok (.struct "position" [("x", .int 5), ("y", .int 6)]) ∧
    (mapStream exEnvE m [9, 1, 5, 6, 7, 0] 1 0 {}).1 =
      .ok (.struct "T" [("a", .int 1), ("p", .struct "position" [("x", .int 5), ("y", .int 6)]), ("z", .int 7)]) ∧
    (mapStream exEnvE m [9, 1, 5, 6, 7, 0] 1 0 {}).2.byteSize = some 5 ∧
    (mapStream exEnvE m [9, 3] 1 0 {}).1 = .ok (.struct "T" [("a", .int 3), ("p", .pyNone), ("z", .pyNone)]) :=
  ⟨_, _, _, rfl, rfl, rfl, rfl, rfl, rfl, rfl, rfl⟩

/-- The bytes of the position may be put in place of the position. -/
example : ∃ m m' mt, createMap exEnvE (.struct { name := "T", order := .little } exKnown) = .ok m ∧
    createMap exEnvE (.struct { name := "T", order := .little } exLeft) = .ok m' ∧
    createMap exEnvE exPosition = .ok mt ∧
    fold exEnvE mt (.struct "position" [("x", .int 5), ("y", .int 6)]) [] = .ok (.bytes [5, 6]) ∧
    fold exEnvE m (.struct "T" [("a", .int 1), ("p", .struct "position" [("x", .int 5), ("y", .int 6)]), ("z", .int 7)]) [] =
      .ok (.bytes [1, 5, 6, 7, 0]) ∧
    fold exEnvE m' (.struct "T" [("a", .int 1), ("p", .bytes [5, 6]), ("z", .int 7)]) [] = .ok (.bytes [1, 5, 6, 7, 0]) :=
  ⟨_, _, _, rfl, rfl, rfl, rfl, rfl, rfl⟩

example : (∃ d ∈ exKnown, d.isComposite = true) ∧ namesUsedBy exPosition = [] ∧
    ∀ d ∈ exPre ++ [.member { name := "z" } exU16 (some "T.a == 1") (some "uint16") none],
      ∀ v v', SameSize exEnvE v v' d := by
  refine ⟨⟨.member { name := "p" } exPosition (some "T.a == 1") (some "position") none, by simp [exKnown],
    by simp [Defn.isComposite, truthyStr]⟩, rfl, ?_⟩
  intro d hd v v' h info e he
  simp only [exPre, List.cons_append, List.nil_append, List.mem_cons, List.not_mem_nil, or_false] at hd
  rcases hd with rfl | rfl <;> cases he

/-- A member an expression looks at can not be left as bytes: `T.a == 1` does not hold for the byte 1. -/
theorem C106_noticed : ∃ m m',
    createMap exEnvE (.struct { name := "T", order := .little }
      (.member { name := "a" } exU8 none (some "uint8") none :: exPost)) = .ok m ∧
    createMap exEnvE (.struct { name := "T", order := .little }
      (leftAsBytes { name := "a" } { name := "block" }
        { kind := .stream, elementDataType := some "uint8", dataSize := some 1 } exU8 none (some "block") :: exPost)) =
      .ok m' ∧
    (mapStream exEnvE m [1, 6, 0] 0 0 {}).1 = .ok (.struct "T" [("a", .int 1), ("d", .int 6)]) ∧
    (mapStream exEnvE m' [1, 6, 0] 0 0 {}).1 = .ok (.struct "T" [("a", .bytes [1]), ("d", .pyNone)]) :=
  ⟨_, _, rfl, rfl, rfl, rfl⟩

/-- A type without a byte order is read in that of the structure, but not on its own. -/
theorem C106_order : ∃ m mt,
    createMap exEnv (.struct { name := "T", order := .big }
      [.member { name := "a" } (.prim { name := "uint16" } (.integer true) (.bytes 2) "bytes") none (some "uint16") none]) = .ok m ∧
    createMap exEnv (.prim { name := "uint16" } (.integer true) (.bytes 2) "bytes") = .ok mt ∧
    (mapStream exEnv m [0, 1] 0 0 {}).1 = .ok (.struct "T" [("a", .int 1)]) ∧
    (mapStream exEnv mt [0, 1] 0 0 {}).1 = .ok (.int 256) :=
  ⟨_, _, rfl, rfl, rfl, rfl⟩

end Dtf
