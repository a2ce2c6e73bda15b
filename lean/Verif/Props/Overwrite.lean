import Verif.Props.Postpone
import Verif.Props.Access
/-!
# Property C114: changing the bytes of one member changes that member only
-/
namespace Dtf

namespace Spec

/-- Two byte streams of the same length differ at most in the `k` bytes from `p` on. -/
def DifferAtMost (bs bs' : Bytes) (p k : Nat) : Prop :=
  bs'.length = bs.length ∧ ∀ i, i < p ∨ p + k ≤ i → bs'[i]? = bs[i]?

/-- The byte stream `bs` with the bytes `b` put in place of those from `p` on. -/
def overwrite (bs : Bytes) (p : Nat) (b : Bytes) : Bytes := bs.take p ++ b ++ bs.drop (p + b.length)

/-- A type whose values depend on their own bytes only (C62). -/
def OwnBytes (d : Defn) : Prop := d.Every fun d => FullTerminators d ∧ Ordinary d ∧ LooksAtItsBytes d

end Spec
open Spec

theorem ownBytes_parse {E : Env} {d : Defn} (hd : OwnBytes d) {nm : String} {o : Order} {m : DMap}
    (hm : createAs E nm o d = .ok m) {bs bs' : Bytes} {off depth : Nat} {ns : Namespace} {v : Val} {n : Nat}
    (hp : parse E m bs off depth ns = .ok (v, n)) (hs : SameBytes bs bs' off n) :
    parse E m bs' off depth ns = .ok (v, n) := by
  have hext : m.Every Extendable := by
    refine createAs_every extendable_of d _ _ m hm ?_
    refine Defn.Every.imp ?_ d (every_elem d hd)
    rintro d ⟨⟨h1, h2, h4⟩, h3⟩
    exact ⟨h1, h2, fun i e h heq => (h3 i e h heq).2.1⟩
  have hmov : m.Every fun m => seqMoves E m ∧ groupCovers E m := by
    refine createAs_every moves_of d _ _ m hm ?_
    exact Defn.Every.imp (fun d h => ⟨Defn.Every.imp (fun d h => h.2.1) d h, h.self.2.2⟩) d
      (Defn.Every.every d hd)
  exact parse_sameBytes E m (DMap.Every.and m hext hmov) bs bs' off depth ns v n hp (sameBytes_same hs)

theorem ownBytes_bound {E : Env} {d : Defn} (hd : OwnBytes d) {nm : String} {o : Order} {m : DMap}
    (hm : createAs E nm o d = .ok m) {bs : Bytes} {off depth : Nat} {ns : Namespace} {v : Val} {n : Nat}
    (hp : parse E m bs off depth ns = .ok (v, n)) : n = 0 ∨ off + n ≤ bs.length := by
  have hext : m.Every Extendable := by
    refine createAs_every extendable_of d _ _ m hm ?_
    refine Defn.Every.imp ?_ d (every_elem d hd)
    rintro d ⟨⟨h1, h2, h4⟩, h3⟩
    exact ⟨h1, h2, fun i e h heq => (h3 i e h heq).2.1⟩
  exact parse_bound E m (DMap.Every.imp (fun _ h => h.1) m hext) bs _ _ _ _ _ hp

theorem layout_bound {E : Env} {bs : Bytes} {depth : Nat} {outer : Namespace} {cls : String} {so : Order}
    {names : List String} {ms : List Defn} (hown : ∀ d ∈ ms, OwnBytes d.target) {a : List Val} {p e : Nat} {vs : List Val}
    (hp : p ≤ bs.length) (h : Layout E bs depth outer cls so names a ms p vs e) : e ≤ bs.length := by
  induction h with
  | done => exact hp
  | absent hc _ ih => exact ih (fun d hd => hown d (List.mem_cons_of_mem _ hd)) hp
  | @present read vs d ms p e k m v hc hmo hv hk hsup hrest ih =>
    obtain ⟨n, o, hno, hcr⟩ := hmo
    obtain ⟨k', h1, h2⟩ := mapStream_ok (c := { values := scope cls names read outer }) rfl hv
    rw [hk] at h2
    cases h2
    have hb := ownBytes_bound (hown d List.mem_cons_self) hcr h1
    exact ih (fun d hd => hown d (List.mem_cons_of_mem _ hd)) (by omega)

/-- Members that depend on their own bytes are laid out the same way in a stream with the same bytes. -/
theorem layout_sameBytes {E : Env} {bs bs' : Bytes} {depth : Nat} {outer : Namespace} {cls : String} {so : Order}
    {names : List String} {ms : List Defn} (hown : ∀ d ∈ ms, OwnBytes d.target) {a : List Val} {p e : Nat} {vs : List Val}
    (hp : p ≤ bs.length) (hs : bs'.length = bs.length ∧ ∀ i, p ≤ i → i < e → bs'[i]? = bs[i]?)
    (h : Layout E bs depth outer cls so names a ms p vs e) : Layout E bs' depth outer cls so names a ms p vs e := by
  induction h with
  | done => exact .done _ _
  | absent hc _ ih =>
    exact .absent hc (ih (fun d hd => hown d (List.mem_cons_of_mem _ hd)) hp hs)
  | @present read vs d ms p e k m v hc hmo hv hk hsup hrest ih =>
    obtain ⟨-, -, hle⟩ := layout_length hrest
    obtain ⟨n, o, hno, hcr⟩ := hmo
    obtain ⟨k', h1, h2⟩ := mapStream_ok (c := { values := scope cls names read outer }) rfl hv
    rw [hk] at h2
    cases h2
    have hd := hown d List.mem_cons_self
    have hb := ownBytes_bound hd hcr h1
    have hp' : parse E m bs' p (depth + 1) (scope cls names read outer) = .ok (v, k) := by
      refine ownBytes_parse hd hcr h1 ⟨by omega, fun i hi => hs.2 _ (by omega) (by omega)⟩
    obtain ⟨h3, h4⟩ := mapStream_of_parse (c := { values := scope cls names read outer }) rfl hp'
    exact .present hc ⟨n, o, hno, hcr⟩ h3 h4 hsup
      (ih (fun d hd => hown d (List.mem_cons_of_mem _ hd)) (by omega) ⟨hs.1, fun i h1 h2 => hs.2 i (by omega) h2⟩)

section
variable {E : Env} {h : Hdr} {pre post : List Defn} {hd : Hdr} {t : Defn} {cond tn : Option String}
  {sup : Option (List Lit)} {m mt : DMap}

/-- **C114** A structure that is mapped, and a member `t` of it that is present. The member has a place
in the byte stream: `k` bytes at `p`, within those of the structure, from which its value is mapped. If a
byte stream differs from the first in these bytes at most, and the type of the member maps them to a
value `w` that is one of the supported values, the structure is mapped to the same object with `w` for
the member, and with the same size. The other members depend on their own bytes only (C62), and
the expressions of the members that follow do not look at this one. -/
theorem C114_changed (hpre : ∀ d ∈ pre ++ post, OwnBytes d.target) (ht : OwnBytes t)
    (hdt : DistinctTypes (pre ++ .member hd t cond tn sup :: post))
    (ho : OneOrder E h.order (pre ++ .member hd t cond tn sup :: post))
    (hm : createMap E (.struct h (pre ++ .member hd t cond tn sup :: post)) = .ok m)
    (bs : Bytes) (off : Nat) (hoff : off ≤ bs.length) (c : Ctx) (hc : c.Clean)
    (hS : Overlooked E h.name c.values ((pre ++ .member hd t cond tn sup :: post).map Defn.name) pre post)
    (attrs : List (String × Val)) (n : Nat)
    (hv : (mapStream E m bs off 0 c).1 = .ok (.struct h.name attrs))
    (hn : (mapStream E m bs off 0 c).2.byteSize = some n)
    (hpresent : getAttr (.struct h.name attrs) hd.name ≠ .pyNone) :
    ∃ p k mm ns, off ≤ p ∧ p + k ≤ off + n ∧ p + k ≤ bs.length ∧
      MapOf E h.name h.order (.member hd t cond tn sup) mm ∧
      (mapStream E mm bs p 1 { values := ns }).1 = .ok (getAttr (.struct h.name attrs) hd.name) ∧
      (mapStream E mm bs p 1 { values := ns }).2.byteSize = some k ∧
      ∀ bs' w, DifferAtMost bs bs' p k → (mapStream E mm bs' p 1 { values := ns }).1 = .ok w →
        (mapStream E mm bs' p 1 { values := ns }).2.byteSize = some k →
        Supported (.member hd t cond tn sup) w →
        (mapStream E m bs' off 0 c).1 = .ok (.struct h.name (setAttr attrs hd.name w)) ∧
        (mapStream E m bs' off 0 c).2.byteSize = some n := by
  obtain ⟨hnd, -, hlay⟩ := structure_layout hdt ho hm
  obtain ⟨hfree, vs, hl, hlen, rfl⟩ := hlay bs off c hc attrs n hv hn
  have hnm : (pre ++ .member hd t cond tn sup :: post).map Defn.name =
      pre.map Defn.name ++ hd.name :: post.map Defn.name := by simp [Defn.name, Defn.hdr]
  obtain ⟨a, q, h1, h2⟩ := layout_append.1 hl
  obtain ⟨ha, -, hq⟩ := layout_length h1
  simp only [List.length_nil, Nat.zero_add] at ha
  have hget : ∀ x us, getAttr (.struct h.name
      (fill ((pre ++ .member hd t cond tn sup :: post).map Defn.name) (a ++ x :: us))) hd.name = x := by
    intro x us
    rw [hnm] at hnd ⊢
    simp [getAttr, fill_get _ _ _ a x us (by simpa using ha) hnd]
  have hset : ∀ x y us, setAttr (fill ((pre ++ .member hd t cond tn sup :: post).map Defn.name) (a ++ x :: us)) hd.name y =
      fill ((pre ++ .member hd t cond tn sup :: post).map Defn.name) (a ++ y :: us) := by
    intro x y us
    rw [hnm, fill_replace _ _ _ a x y us (by simpa using ha) (hnm ▸ hnd)]
  rcases layout_cons h2 with ⟨-, h3⟩ | ⟨mm, v, k, hpr, hmo, hp, -, h3⟩
  · exfalso
    obtain ⟨us, rfl, -⟩ := layout_exchange (pre := pre) .pyNone .pyNone (r := []) ha hS (fun _ h => h) h3
    exact hpresent (hget _ _)
  obtain ⟨-, -, hqe⟩ := layout_length h3
  have hqb : q ≤ bs.length := layout_bound (fun d hd => hpre d (by simp [hd])) hoff h1
  have hkb : q + k ≤ bs.length := by
    obtain ⟨n', o', -, hcr⟩ := id hmo
    have := ownBytes_bound ht hcr hp
    omega
  obtain ⟨us, rfl, -⟩ := layout_exchange (pre := pre) v v (r := []) ha hS (fun _ h => h) h3
  obtain ⟨hp1, hp2⟩ := mapStream_of_parse
    (c := { values := scope h.name ((pre ++ .member hd t cond tn sup :: post).map Defn.name) a c.values }) rfl hp
  refine ⟨q, k, mm, _, hq, hqe, hkb, hmo, by rw [hget]; exact hp1, hp2, ?_⟩
  intro bs' w hdiff hw hwk hws
  obtain ⟨us', he, h4⟩ := layout_exchange (pre := pre) v w (r := []) ha hS (fun _ h => h) h3
  obtain rfl : us' = us := by
    have := List.append_cancel_left he
    cases this
    rfl
  have h1' := layout_sameBytes (bs' := bs') (fun d hd => hpre d (by simp [hd])) hoff
    ⟨hdiff.1, fun i _ hi => hdiff.2 i (.inl hi)⟩ h1
  have h4' := layout_sameBytes (bs' := bs') (fun d hd => hpre d (by simp [hd])) hkb
    ⟨hdiff.1, fun i hi _ => hdiff.2 i (.inr hi)⟩ h4
  have hfin := layout_append.2 ⟨a, q, h1', Layout.present hpr hmo hw hwk hws h4'⟩
  obtain ⟨h9, n'', h10, h11⟩ := C16_complete E h.name h.order h _ hdt ho m hm hfree bs' off 0 (by omega) c hc _ _ hfin
  obtain rfl : n'' = n := by omega
  refine ⟨?_, h10⟩
  rw [h9, hset]

/-- **C114** For a type that means the same on its own: putting the bytes `b` of a value `w` of the type
in the place of the member gives the same object with `w` for the member. The place is one where
the bytes, on their own, are mapped to the value of the member. -/
theorem C114_overwritten (hdet : Detachable h t) (hpre : ∀ d ∈ pre ++ post, OwnBytes d.target)
    (hdt : DistinctTypes (pre ++ .member hd t cond tn sup :: post))
    (ho : OneOrder E h.order (pre ++ .member hd t cond tn sup :: post))
    (hm : createMap E (.struct h (pre ++ .member hd t cond tn sup :: post)) = .ok m)
    (hmt : createMap E t = .ok mt)
    (bs : Bytes) (off : Nat) (hoff : off ≤ bs.length) (c : Ctx) (hc : c.Clean)
    (hS : Overlooked E h.name c.values ((pre ++ .member hd t cond tn sup :: post).map Defn.name) pre post)
    (attrs : List (String × Val)) (n : Nat)
    (hv : (mapStream E m bs off 0 c).1 = .ok (.struct h.name attrs))
    (hn : (mapStream E m bs off 0 c).2.byteSize = some n)
    (hpresent : getAttr (.struct h.name attrs) hd.name ≠ .pyNone) :
    ∃ p k, off ≤ p ∧ p + k ≤ off + n ∧ p + k ≤ bs.length ∧
      (mapStream E mt (window bs p k) 0 0 {}).1 = .ok (getAttr (.struct h.name attrs) hd.name) ∧
      (mapStream E mt (window bs p k) 0 0 {}).2.byteSize = some k ∧
      ∀ b w, b.length = k → (mapStream E mt b 0 0 {}).1 = .ok w → (mapStream E mt b 0 0 {}).2.byteSize = some k →
        Supported (.member hd t cond tn sup) w →
        (mapStream E m (overwrite bs p b) off 0 c).1 = .ok (.struct h.name (setAttr attrs hd.name w)) ∧
        (mapStream E m (overwrite bs p b) off 0 c).2.byteSize = some n := by
  obtain ⟨p, k, mm, ns, h1, h2, h3, hmo, h4, h5, hall⟩ :=
    C114_changed hpre hdet.ownBytes hdt ho hm bs off hoff c hc hS attrs n hv hn hpresent
  obtain rfl : mm = mt := by
    have := hdet.mapOf.1 hmo
    rw [hmt] at this
    cases this
    rfl
  obtain ⟨k', h6, h7⟩ := mapStream_ok (c := { values := ns }) rfl h4
  rw [h5] at h7
  cases h7
  obtain ⟨h8, h9⟩ := mapStream_of_parse (c := {}) rfl ((hdet.apart hmt h3 ns _).1 h6)
  refine ⟨p, k, h1, h2, h3, h8, h9, ?_⟩
  intro b w hb hw hwk hws
  obtain ⟨k', h10, h11⟩ := mapStream_ok (c := {}) rfl hw
  rw [hwk] at h11
  cases h11
  have hlen : (overwrite bs p b).length = bs.length := by simp [overwrite]; omega
  have hwin : window (overwrite bs p b) p k = b := by
    have : (bs.take p).length = p := by simp; omega
    simp [overwrite, window, this, ← hb]
  have h12 := (hdet.apart (bs := overwrite bs p b) (q := p) (k := k) hmt (by omega) ns w).2 (by rw [hwin]; exact h10)
  obtain ⟨h13, h14⟩ := mapStream_of_parse (c := { values := ns }) rfl h12
  refine hall _ w ⟨hlen, ?_⟩ h13 h14 hws
  intro i hi
  unfold overwrite
  rw [List.append_assoc, List.getElem?_append, List.getElem?_append]
  simp only [List.length_take]
  split
  · rw [List.getElem?_take]; rw [if_pos (by omega)]
  · split
    · omega
    · rw [List.getElem?_drop]
      congr 1
      omega

end

/-! ### Elements of sequences -/

theorem readable_sameBytes {E : Env} {e : Defn} (he : OwnBytes e) {nm : String} {o : Order} {em : DMap}
    (hem : createAs E nm o e = .ok em) {bs bs' : Bytes} {depth stop p q : Nat} {vs : List Val}
    (hstop : stop ≤ bs.length) (hs : bs'.length = bs.length ∧ ∀ i, p ≤ i → i < q → bs'[i]? = bs[i]?)
    (h : Readable E em bs depth stop p vs q) : Readable E em bs' depth stop p vs q := by
  induction h with
  | nil => exact .nil _
  | @cons p k q v vs hp hv hk t ih =>
    have hle := readable_mono t
    obtain ⟨k', h1, h2⟩ := mapStream_ok (c := {}) rfl hv
    rw [hk] at h2
    cases h2
    have hb := ownBytes_bound he hem h1
    obtain ⟨h3, h4⟩ := mapStream_of_parse (c := {}) rfl
      (ownBytes_parse he hem h1 (bs' := bs') ⟨by omega, fun i hi => hs.2 _ (by omega) (by omega)⟩)
    exact .cons hp h3 h4 (ih ⟨hs.1, fun i h1 h2 => hs.2 i (by omega) h2⟩)

/-- The place of one of the values read one after another, and what reading gives when it is changed. -/
theorem readable_changed {E : Env} {e : Defn} (he : OwnBytes e) {nm : String} {o : Order} {em : DMap}
    (hem : createAs E nm o e = .ok em) {bs : Bytes} {depth stop off q : Nat} {us ws : List Val} {v : Val}
    (hstop : stop ≤ bs.length) (h : Readable E em bs depth stop off (us ++ v :: ws) q) :
    ∃ p k, off ≤ p ∧ p + k ≤ q ∧ (mapStream E em bs p depth {}).1 = .ok v ∧
      (mapStream E em bs p depth {}).2.byteSize = some k ∧
      ∀ bs' w, DifferAtMost bs bs' p k → (mapStream E em bs' p depth {}).1 = .ok w →
        (mapStream E em bs' p depth {}).2.byteSize = some k →
        Readable E em bs' depth stop off (us ++ w :: ws) q := by
  obtain ⟨p, h1, h2⟩ := readable_append.1 h
  cases h2 with
  | @cons _ k _ _ _ hp hv hk t =>
    refine ⟨p, k, readable_mono h1, readable_mono t, hv, hk, ?_⟩
    intro bs' w hd hw hwk
    refine readable_append.2 ⟨p, readable_sameBytes he hem hstop ⟨hd.1, fun i _ hi => hd.2 i (.inl hi)⟩ h1, ?_⟩
    exact .cons hp hw hwk (readable_sameBytes he hem hstop ⟨hd.1, fun i hi _ => hd.2 i (.inr hi)⟩ t)

section
variable {E : Env} {nm : String} {o : Order} {h : Hdr} {info : SeqInfo} {e : Defn} {m : DMap}

/-- **C114** The same for an element `v` of a sequence with a given number of elements: if its bytes are
changed to those of another value `w` of as many bytes, the sequence is mapped to the same elements with
`w` in place of `v`. -/
theorem C114_element (hk : info.kind = .sequence) (he : OwnBytes e) (hmem : ∀ h i c t v, e ≠ .member h i c t v)
    (hm : createAs E nm o (.seq h info e) = .ok m)
    (bs : Bytes) (off depth : Nat) (hd : depth ≤ 10) (c : Ctx) (hc : c.Clean)
    (h1 : info.dataSize = none) (h2 : info.dataSizeExpr = none) (h3 : info.terminator = none)
    (num : Nat) (hn : Amounts E info.numElements info.numElementsExpr c.values num)
    (us ws : List Val) (v : Val) (n : Nat)
    (hv : (mapStream E m bs off depth c).1 = .ok (.tuple (us ++ v :: ws)))
    (hvn : (mapStream E m bs off depth c).2.byteSize = some n) :
    ∃ p k en em, off ≤ p ∧ p + k ≤ off + n ∧ createAs E en (elementOrder o e) e = .ok em ∧
      (mapStream E em bs p (depth + 1) {}).1 = .ok v ∧ (mapStream E em bs p (depth + 1) {}).2.byteSize = some k ∧
      ∀ bs' w, DifferAtMost bs bs' p k → (mapStream E em bs' p (depth + 1) {}).1 = .ok w →
        (mapStream E em bs' p (depth + 1) {}).2.byteSize = some k →
        (mapStream E m bs' off depth c).1 = .ok (.tuple (us ++ w :: ws)) ∧
        (mapStream E m bs' off depth c).2.byteSize = some n := by
  obtain ⟨en, em, hen, hem, hiff⟩ := C85_number E nm o h info hk e m hm hmem bs off depth hd c hc h1 h2 h3 num hn
  obtain ⟨vs, heq, hlen, hr⟩ := (hiff _ _).1 ⟨hv, hvn⟩
  cases heq
  obtain ⟨p, k, h4, h5, h6, h7, hall⟩ := readable_changed he hem (Nat.le_refl _) hr
  refine ⟨p, k, en, em, h4, h5, hem, h6, h7, ?_⟩
  intro bs' w hdiff hw hwk
  obtain ⟨en', em', hen', hem', hiff'⟩ :=
    C85_number E nm o h info hk e m hm hmem bs' off depth hd c hc h1 h2 h3 num hn
  have hr' := readable_congr (fun q => elements_alike hen hen' hem hem' bs' q (depth + 1) {}) (hall bs' w hdiff hw hwk)
  refine (hiff' _ _).2 ⟨_, rfl, by simpa using hlen, ?_⟩
  rw [hdiff.1]
  exact hr'

/-- **C114** For an element of a sequence that ends with a terminator, the new value has to be a
terminator if and only if it is the last element. -/
theorem C114_terminated (hk : info.kind = .sequence) (he : OwnBytes e) (hmem : ∀ h i c t v, e ≠ .member h i c t v)
    (hm : createAs E nm o (.seq h info e) = .ok m)
    (bs : Bytes) (off depth : Nat) (hd : depth ≤ 10) (c : Ctx) (hc : c.Clean)
    (h1 : info.dataSize = none) (h2 : info.dataSizeExpr = none) (t : Lit) (ht : info.terminator = some t)
    (hnull : t ≠ .null) (us ws : List Val) (v : Val) (n : Nat)
    (hv : (mapStream E m bs off depth c).1 = .ok (.tuple (us ++ v :: ws)))
    (hvn : (mapStream E m bs off depth c).2.byteSize = some n) :
    ∃ p k en em, off ≤ p ∧ p + k ≤ off + n ∧ createAs E en (elementOrder o e) e = .ok em ∧
      (mapStream E em bs p (depth + 1) {}).1 = .ok v ∧ (mapStream E em bs p (depth + 1) {}).2.byteSize = some k ∧
      ∀ bs' w, DifferAtMost bs bs' p k → (mapStream E em bs' p (depth + 1) {}).1 = .ok w →
        (mapStream E em bs' p (depth + 1) {}).2.byteSize = some k → (Equals w t ↔ ws = []) →
        (mapStream E m bs' off depth c).1 = .ok (.tuple (us ++ w :: ws)) ∧
        (mapStream E m bs' off depth c).2.byteSize = some n := by
  obtain ⟨en, em, hen, hem, hiff⟩ := C85_terminator E nm o h info hk e m hm hmem bs off depth hd c hc h1 h2 t ht hnull
  obtain ⟨vs, x, heq, hx, hnot, hr⟩ := (hiff _ _).1 ⟨hv, hvn⟩
  simp only [Val.tuple.injEq] at heq
  rw [← heq] at hr
  obtain ⟨p, k, h4, h5, h6, h7, hall⟩ := readable_changed he hem (Nat.le_refl _) hr
  refine ⟨p, k, en, em, h4, h5, hem, h6, h7, ?_⟩
  intro bs' w hdiff hw hwk hwt
  obtain ⟨en', em', hen', hem', hiff'⟩ :=
    C85_terminator E nm o h info hk e m hm hmem bs' off depth hd c hc h1 h2 t ht hnull
  have hr' := readable_congr (fun q => elements_alike hen hen' hem hem' bs' q (depth + 1) {}) (hall bs' w hdiff hw hwk)
  refine (hiff' _ _).2 ?_
  rw [hdiff.1]
  rcases List.eq_nil_or_concat ws with rfl | ⟨ws', y, rfl⟩
  · obtain ⟨rfl, -⟩ := List.append_inj' heq rfl
    exact ⟨us, w, rfl, hwt.2 rfl, hnot, hr'⟩
  · have heq' : (us ++ v :: ws') ++ [y] = vs ++ [x] := by simpa using heq
    obtain ⟨rfl, hxy⟩ := List.append_inj' heq' rfl
    cases hxy
    refine ⟨us ++ w :: ws', _, by simp, hx, ?_, by simpa using hr'⟩
    intro z hz
    rcases List.mem_append.1 hz with hz | hz
    · exact hnot z (by simp [hz])
    · rcases List.mem_cons.1 hz with rfl | hz
      · intro hzt
        have := hwt.1 hzt
        simp at this
      · exact hnot z (by simp [hz])

/-- **C114** For an element of a sequence with a data size, the elements of which have a fixed size, nothing else has
to be known. -/
theorem C114_data_size (hk : info.kind = .sequence) (he : OwnBytes e) (hmem : ∀ h i c t v, e ≠ .member h i c t v)
    (hm : createAs E nm o (.seq h info e) = .ok m)
    (bs : Bytes) (off depth : Nat) (hd : depth ≤ 10) (c : Ctx) (hc : c.Clean)
    (ds es : Nat) (hds : Amounts E info.dataSize info.dataSizeExpr c.values ds)
    (hes : e.byteSize = some (es : Int)) (hpos : 0 < es)
    (hdvd : info.dataSize ≠ none → es ∣ ds ∧ info.numElements = none)
    (us ws : List Val) (v : Val) (n : Nat)
    (hv : (mapStream E m bs off depth c).1 = .ok (.tuple (us ++ v :: ws)))
    (hvn : (mapStream E m bs off depth c).2.byteSize = some n) :
    ∃ p k en em, off ≤ p ∧ p + k ≤ off + n ∧ createAs E en (elementOrder o e) e = .ok em ∧
      (mapStream E em bs p (depth + 1) {}).1 = .ok v ∧ (mapStream E em bs p (depth + 1) {}).2.byteSize = some k ∧
      ∀ bs' w, DifferAtMost bs bs' p k → (mapStream E em bs' p (depth + 1) {}).1 = .ok w →
        (mapStream E em bs' p (depth + 1) {}).2.byteSize = some k →
        (mapStream E m bs' off depth c).1 = .ok (.tuple (us ++ w :: ws)) ∧
        (mapStream E m bs' off depth c).2.byteSize = some n := by
  obtain ⟨en, em, hen, hem, hiff⟩ :=
    C85_data_size E nm o h info hk e m hm hmem bs off depth hd c hc ds es hds hes hpos hdvd
  obtain ⟨vs, heq, hlen, hr⟩ := (hiff _ _).1 ⟨hv, hvn⟩
  cases heq
  obtain ⟨p, k, h4, h5, h6, h7, hall⟩ := readable_changed he hem (Nat.min_le_left _ _) hr
  refine ⟨p, k, en, em, h4, h5, hem, h6, h7, ?_⟩
  intro bs' w hdiff hw hwk
  obtain ⟨en', em', hen', hem', hiff'⟩ :=
    C85_data_size E nm o h info hk e m hm hmem bs' off depth hd c hc ds es hds hes hpos hdvd
  have hr' := readable_congr (fun q => elements_alike hen hen' hem hem' bs' q (depth + 1) {}) (hall bs' w hdiff hw hwk)
  refine (hiff' _ _).2 ⟨_, rfl, by simpa using hlen, ?_⟩
  rw [hdiff.1]
  exact hr'

/-- **C114** For an element of a sequence with a data size, the elements of which have no fixed size but a terminator, the
new value is not that terminator unless it is the last element; the last element may be any value if the elements fill
the data size. -/
theorem C114_variable (hk : info.kind = .sequence) (he : OwnBytes e) (hmem : ∀ h i c t v, e ≠ .member h i c t v)
    (hm : createAs E nm o (.seq h info e) = .ok m)
    (bs : Bytes) (off depth : Nat) (hd : depth ≤ 10) (c : Ctx) (hc : c.Clean)
    (ds : Nat) (hds : Amounts E info.dataSize info.dataSizeExpr c.values ds)
    (hes : e.byteSize = none) (t : Lit) (ht : e.terminator? = some (some t)) (hnull : t ≠ .null)
    (hone : info.dataSize ≠ none → info.numElements = none)
    (us ws : List Val) (v : Val) (n : Nat)
    (hv : (mapStream E m bs off depth c).1 = .ok (.tuple (us ++ v :: ws)))
    (hvn : (mapStream E m bs off depth c).2.byteSize = some n) :
    ∃ p k en em, off ≤ p ∧ p + k ≤ off + n ∧ createAs E en (elementOrder o e) e = .ok em ∧
      (mapStream E em bs p (depth + 1) {}).1 = .ok v ∧ (mapStream E em bs p (depth + 1) {}).2.byteSize = some k ∧
      ∀ bs' w, DifferAtMost bs bs' p k → (mapStream E em bs' p (depth + 1) {}).1 = .ok w →
        (mapStream E em bs' p (depth + 1) {}).2.byteSize = some k →
        (ws ≠ [] → ¬ Equals w t) → (ws = [] → Equals w t ∨ ds ≤ n) →
        (mapStream E m bs' off depth c).1 = .ok (.tuple (us ++ w :: ws)) ∧
        (mapStream E m bs' off depth c).2.byteSize = some n := by
  obtain ⟨en, em, hen, hem, hiff⟩ :=
    C85_variable E nm o h info hk e m hm hmem bs off depth hd c hc ds hds hes t ht hnull hone
  rcases (hiff _ _).1 ⟨hv, hvn⟩ with ⟨heq, -⟩ | ⟨vs, x, heq, hx, hnot, hr⟩
  · simp at heq
  simp only [Val.tuple.injEq] at heq
  rw [← heq] at hr
  obtain ⟨p, k, h4, h5, h6, h7, hall⟩ := readable_changed he hem (Nat.min_le_left _ _) hr
  refine ⟨p, k, en, em, h4, h5, hem, h6, h7, ?_⟩
  intro bs' w hdiff hw hwk hwn hwl
  obtain ⟨en', em', hen', hem', hiff'⟩ :=
    C85_variable E nm o h info hk e m hm hmem bs' off depth hd c hc ds hds hes t ht hnull hone
  have hr' := readable_congr (fun q => elements_alike hen hen' hem hem' bs' q (depth + 1) {}) (hall bs' w hdiff hw hwk)
  refine (hiff' _ _).2 (.inr ?_)
  rw [hdiff.1]
  rcases List.eq_nil_or_concat ws with rfl | ⟨ws', y, rfl⟩
  · obtain ⟨rfl, -⟩ := List.append_inj' heq rfl
    exact ⟨us, w, rfl, hwl rfl, hnot, hr'⟩
  · have heq' : (us ++ v :: ws') ++ [y] = vs ++ [x] := by simpa using heq
    obtain ⟨rfl, hxy⟩ := List.append_inj' heq' rfl
    cases hxy
    refine ⟨us ++ w :: ws', _, by simp, hx, ?_, by simpa using hr'⟩
    intro z hz
    rcases List.mem_append.1 hz with hz | hz
    · exact hnot z (by simp [hz])
    · rcases List.mem_cons.1 hz with rfl | hz
      · exact hwn (by simp)
      · exact hnot z (by simp [hz])

end

/-! ### Examples -/

/-- The structure with a position of C106 meets the conditions (see also there), and its position can be
overwritten. -/
example : (∀ d ∈ exPre ++ [.member { name := "z" } exU16 (some "T.a == 1") (some "uint16") none], OwnBytes d.target) ∧
    OwnBytes exPosition ∧
    ∃ m mt, createMap exEnvE (.struct { name := "T", order := .little } exKnown) = .ok m ∧
      createMap exEnvE exPosition = .ok mt ∧
      (mapStream exEnvE m [9, 1, 5, 6, 7, 0] 1 0 {}).1 =
        .ok (.struct "T" [("a", .int 1), ("p", .struct "position" [("x", .int 5), ("y", .int 6)]), ("z", .int 7)]) ∧
      (mapStream exEnvE mt [8, 3] 0 0 {}).1 = .ok (.struct "position" [("x", .int 8), ("y", .int 3)]) ∧
      (mapStream exEnvE m (overwrite [9, 1, 5, 6, 7, 0] 2 [8, 3]) 1 0 {}).1 =
        .ok (.struct "T" [("a", .int 1), ("p", .struct "position" [("x", .int 8), ("y", .int 3)]), ("z", .int 7)]) := by
  refine ⟨?_, ?_, _, _, rfl, rfl, rfl, rfl, rfl⟩
  · intro d hd
    simp only [exPre, List.cons_append, List.nil_append, List.mem_cons, List.not_mem_nil, or_false] at hd
    rcases hd with rfl | rfl <;> simp [OwnBytes, Defn.target, Defn.Every, exU8, exU16, FullTerminators, Ordinary, LooksAtItsBytes]
  · simp [OwnBytes, Defn.Every, everyDefn, exPosition, exU8, FullTerminators, Ordinary, LooksAtItsBytes, DistinctTypes,
      Defn.target, Defn.name, Defn.hdr]

/-- A row of bytes that ends with 0. -/
def exRow : Defn :=
  .seq { name := "row" } { kind := .sequence, elementDataType := some "uint8", terminator := some (.int 0) } exU8

/-- Three rows. -/
def exThree : Defn :=
  .seq { name := "rows" } { kind := .sequence, elementDataType := some "row", numElements := some 3 } exRow

/-- Three rows that end with 0 each, the second of which is changed. -/
example : ∃ m, createMap exEnv exThree = .ok m ∧
    (mapStream exEnv m [5, 0, 6, 7, 0, 0] 0 0 {}).1 =
      .ok (.tuple ([.tuple [.int 5, .int 0]] ++ .tuple [.int 6, .int 7, .int 0] :: [.tuple [.int 0]])) ∧
    (mapStream exEnv m [5, 0, 8, 9, 0, 0] 0 0 {}).1 =
      .ok (.tuple ([.tuple [.int 5, .int 0]] ++ .tuple [.int 8, .int 9, .int 0] :: [.tuple [.int 0]])) ∧
    OwnBytes exRow ∧ DifferAtMost [5, 0, 6, 7, 0, 0] [5, 0, 8, 9, 0, 0] 2 3 := by
  refine ⟨_, rfl, rfl, rfl, ?_, rfl, ?_⟩
  · simp [OwnBytes, Defn.Every, exRow, exU8, FullTerminators, Ordinary, LooksAtItsBytes, oneRead, fewest, fixedByteSize,
      Defn.byteSize]
  · intro i hi
    match i with
    | 0 | 1 | 5 => rfl
    | 2 | 3 | 4 => omega
    | i + 6 => rfl

/-- Rows in six bytes, as long as these last. -/
def exFilled : Defn :=
  .seq { name := "rows" } { kind := .sequence, elementDataType := some "row", dataSize := some 6 } exRow

/-- The same rows, with the size of their bytes. -/
example : exRow.byteSize = none ∧ exRow.terminator? = some (some (.int 0)) ∧ ∃ m, createMap exEnv exFilled = .ok m ∧
    (mapStream exEnv m [5, 0, 6, 7, 0, 0] 0 0 {}).1 =
      .ok (.tuple ([.tuple [.int 5, .int 0]] ++ .tuple [.int 6, .int 7, .int 0] :: [.tuple [.int 0]])) ∧
    (mapStream exEnv m [5, 0, 8, 9, 0, 0] 0 0 {}).1 =
      .ok (.tuple ([.tuple [.int 5, .int 0]] ++ .tuple [.int 8, .int 9, .int 0] :: [.tuple [.int 0]])) :=
  ⟨rfl, rfl, _, rfl, rfl, rfl⟩

/-- Words in four bytes. -/
def exWordsIn : Defn :=
  .seq { name := "words", order := .little }
    { kind := .sequence, elementDataType := some "uint16", dataSize := some 4 } exU16

/-- Two words by their data size, the second of which is changed. -/
example : exU16.byteSize = some ((2 : Nat) : Int) ∧ ∃ m, createMap exEnv exWordsIn = .ok m ∧
    (mapStream exEnv m [1, 0, 2, 0] 0 0 {}).1 = .ok (.tuple ([.int 1] ++ .int 2 :: [])) ∧
    (mapStream exEnv m [1, 0, 3, 0] 0 0 {}).1 = .ok (.tuple ([.int 1] ++ .int 3 :: [])) :=
  ⟨rfl, _, rfl, rfl, rfl⟩

/-- **C114** The bytes of a member that an expression looks at can change other members as well. -/
theorem C114_noticed : ∃ m, createMap exEnvE (.struct { name := "T", order := .little } exKnown) = .ok m ∧
    (mapStream exEnvE m [1, 5, 6, 7, 0] 0 0 {}).1 =
      .ok (.struct "T" [("a", .int 1), ("p", .struct "position" [("x", .int 5), ("y", .int 6)]), ("z", .int 7)]) ∧
    (mapStream exEnvE m (overwrite [1, 5, 6, 7, 0] 0 [3]) 0 0 {}).1 =
      .ok (.struct "T" [("a", .int 3), ("p", .pyNone), ("z", .pyNone)]) :=
  ⟨_, rfl, rfl, rfl⟩

end Dtf
