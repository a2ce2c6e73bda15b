import Verif.Props.Unroll
import Verif.Depth
/-!
# Property C90: sequences can be read in parts

A sequence of elements of a fixed size gives at index `i` what the map of the element type
gives at `i` times this size; the elements of any sequence can be read in two sequences, one
after the other.
-/
namespace Dtf

open Spec

theorem readable_sized {E : Env} {em : DMap} {bs : Bytes} {depth p e es : Nat} {vs : List Val}
    (hx : ∀ q v k, (mapStream E em bs q depth {}).1 = .ok v → (mapStream E em bs q depth {}).2.byteSize = some k →
      k = es) (h : Readable E em bs depth bs.length p vs e) :
    e = p + vs.length * es ∧
      ∀ i v, vs[i]? = some v → (mapStream E em bs (p + i * es) depth {}).1 = .ok v := by
  induction h with
  | nil => simp
  | @cons p k e v vs hp hv hk t ih =>
    obtain rfl := hx p v k hv hk
    refine ⟨by rw [ih.1, List.length_cons, Nat.succ_mul]; omega, ?_⟩
    intro i w hw
    cases i with
    | zero => simp at hw; subst hw; simpa using hv
    | succ i =>
      have := ih.2 i w (by simpa using hw)
      rwa [show p + (i + 1) * k = p + k + i * k by rw [Nat.succ_mul]; omega]

theorem readable_of_sized {E : Env} {em : DMap} {bs : Bytes} {depth p es : Nat} {vs : List Val}
    (hx : ∀ q v, (mapStream E em bs q depth {}).1 = .ok v → q < bs.length ∧
      (mapStream E em bs q depth {}).2.byteSize = some es)
    (h : ∀ i v, vs[i]? = some v → (mapStream E em bs (p + i * es) depth {}).1 = .ok v) :
    Readable E em bs depth bs.length p vs (p + vs.length * es) := by
  induction vs generalizing p with
  | nil => simpa using Readable.nil p
  | cons v vs ih =>
    have h0 := h 0 v rfl
    simp only [Nat.zero_mul, Nat.add_zero] at h0
    have := ih (p := p + es) (fun i w hw => by
      have := h (i + 1) w (by simpa using hw)
      rwa [show p + (i + 1) * es = p + es + i * es by rw [Nat.succ_mul]; omega] at this)
    rw [List.length_cons, show p + (vs.length + 1) * es = p + es + vs.length * es by rw [Nat.succ_mul]; omega]
    exact .cons (hx p v h0).1 h0 (hx p v h0).2 this

theorem readable_append {E : Env} {em : DMap} {bs : Bytes} {depth stop p e : Nat} {us vs : List Val} :
    Readable E em bs depth stop p (us ++ vs) e ↔
      ∃ q, Readable E em bs depth stop p us q ∧ Readable E em bs depth stop q vs e := by
  induction us generalizing p with
  | nil =>
    constructor
    · intro h; exact ⟨p, .nil p, h⟩
    · rintro ⟨q, h1, h2⟩; cases h1; exact h2
  | cons u us ih =>
    constructor
    · intro h
      cases h with
      | cons hp hv hk t =>
        obtain ⟨q, h1, h2⟩ := ih.1 t
        exact ⟨q, .cons hp hv hk h1, h2⟩
    · rintro ⟨q, h1, h2⟩
      cases h1 with
      | cons hp hv hk t => exact .cons hp hv hk (ih.2 ⟨q, t, h2⟩)

theorem readable_mono {E : Env} {em : DMap} {bs : Bytes} {depth stop p e : Nat} {vs : List Val}
    (h : Readable E em bs depth stop p vs e) : p ≤ e := by
  induction h with
  | nil => exact Nat.le_refl _
  | cons _ _ _ _ ih => omega

/-- Maps of the elements of sequences of the same byte order give the same. -/
theorem elements_alike {E : Env} {e : Defn} {o : Order} {n n' : String} {em em' : DMap}
    (hn : e.isComposite = true → n = e.name) (hn' : e.isComposite = true → n' = e.name)
    (h : createAs E n o e = .ok em) (h' : createAs E n' o e = .ok em') (bs : Bytes) (p depth : Nat) (c : Ctx) :
    mapStream E em bs p depth c = mapStream E em' bs p depth c := by
  by_cases hs : ∃ h ms, e = .struct h ms
  · have hcm : e.isComposite = true := by obtain ⟨h, ms, rfl⟩ := hs; rfl
    rw [hn hcm] at h
    rw [hn' hcm, h] at h'
    cases h'
    rfl
  · exact mapStream_sameMap E (createAs_renamed e (fun h ms hT => hs ⟨h, ms, hT⟩) h h') _ _ _ _

theorem readable_congr {E : Env} {em em' : DMap} {bs : Bytes} {depth stop p e : Nat} {vs : List Val}
    (hs : ∀ q, mapStream E em bs q depth {} = mapStream E em' bs q depth {})
    (h : Readable E em bs depth stop p vs e) : Readable E em' bs depth stop p vs e := by
  induction h with
  | nil p => exact .nil p
  | cons hp hv hk _ ih =>
    rw [hs] at hv hk
    exact .cons hp hv hk ih

/-- **C90** A sequence of `k` elements of a fixed size `es` can be mapped exactly if the map of the
element type gives a value at each of the `k` places `off + i * es`; these are the elements. -/
theorem C90_element (E : Env) (nm : String) (o : Order) (h : Hdr) (info : SeqInfo)
    (hk : info.kind = .sequence) (e : Defn) (he : e.Every Plain) (es : Nat) (hes : e.byteSize = some (es : Int))
    (hpos : 0 < es) (m : DMap) (hm : createAs E nm o (.seq h info e) = .ok m)
    (hmem : ∀ h i c t v, e ≠ .member h i c t v) (hlev : e.levels ≤ 10)
    (ho : elementOrder o e = e.orderOrNative) (em : DMap) (hem : createMap E e = .ok em)
    (bs : Bytes) (off : Nat) (c : Ctx) (hc : c.Clean)
    (h1 : info.dataSize = none) (h2 : info.dataSizeExpr = none) (h3 : info.terminator = none)
    (k : Nat) (hn : Amounts E info.numElements info.numElementsExpr c.values k) (vs : List Val) :
    (mapStream E m bs off 0 c).1 = .ok (.tuple vs) ↔
      vs.length = k ∧ ∀ i v, vs[i]? = some v → (mapStream E em bs (off + i * es) 0 {}).1 = .ok v := by
  obtain ⟨en, em', hen, hem', hiff⟩ := C85_number E nm o h info hk e m hm hmem bs off 0 (by omega) c hc h1 h2 h3 k hn
  have hsame : ∀ q, mapStream E em' bs q 1 {} = mapStream E em bs q 1 {} :=
    fun q => elements_alike hen (fun _ => rfl) hem' (ho ▸ hem) bs q 1 {}
  have hlv : em.levels ≤ 10 := Nat.le_trans (levels_createAs e _ _ em hem) hlev
  have hfree : ∀ q v k, ((mapStream E em bs q 1 {}).1 = .ok v ∧ (mapStream E em bs q 1 {}).2.byteSize = some k) ↔
      ((mapStream E em bs q 0 {}).1 = .ok v ∧ (mapStream E em bs q 0 {}).2.byteSize = some k) := by
    intro q v k
    rw [mapped_iff (c := {}) (Ctx.clean_fresh []), mapped_iff (c := {}) (Ctx.clean_fresh []), parse_free E em bs 1 (by omega),
      parse_free E em bs 0 (by omega)]
  have hx : ∀ q v, (mapStream E em' bs q 1 {}).1 = .ok v → q < bs.length ∧
      (mapStream E em' bs q 1 {}).2.byteSize = some es := by
    intro q v hv
    have hex := (parse_exact E bs e he es hes).2 _ _ em' hem' q 1 []
    obtain ⟨k', hp, hb⟩ := mapStream_ok (c := {}) rfl hv
    rw [hp] at hex
    have hex1 := hex.1
    have hex2 := hex.2
    have : k' = es := by omega
    subst this
    exact ⟨by omega, hb⟩
  have hok : ∀ q v, (mapStream E em' bs q 1 {}).1 = .ok v ↔ (mapStream E em bs q 0 {}).1 = .ok v := by
    intro q v
    rw [hsame]
    constructor
    · intro hv
      obtain ⟨k', -, hb⟩ := mapStream_ok (c := {}) rfl hv
      exact ((hfree q v k').1 ⟨hv, hb⟩).1
    · intro hv
      obtain ⟨k', -, hb⟩ := mapStream_ok (c := {}) rfl hv
      exact ((hfree q v k').2 ⟨hv, hb⟩).1
  constructor
  · intro hv
    obtain ⟨n, -, hb⟩ := mapStream_ok hc hv
    obtain ⟨us, hus, hl, hr⟩ := (hiff _ n).1 ⟨hv, hb⟩
    cases hus
    refine ⟨hl, fun i v hi => (hok _ _).1 ((readable_sized (es := es) ?_ hr).2 i v hi)⟩
    intro q v k' hv' hk'
    have := (hx q v hv').2
    rw [hk'] at this
    exact Option.some.inj this
  · rintro ⟨hl, hall⟩
    exact ((hiff (.tuple vs) (vs.length * es)).2 ⟨vs, rfl, hl,
      readable_of_sized hx fun i v hi => (hok _ _).2 (hall i v hi)⟩).1

/-- **C90** The sequence of `j + k` elements can be mapped exactly if the sequence of `j` elements can,
and the sequence of `k` elements behind it; the values follow each other. -/
theorem C90_split (E : Env) (nm nm1 nm2 : String) (o : Order) (h h1 h2 : Hdr) (info info1 info2 : SeqInfo)
    (e : Defn) (hmem : ∀ h i c t v, e ≠ .member h i c t v) (m m1 m2 : DMap)
    (hm : createAs E nm o (.seq h info e) = .ok m) (hm1 : createAs E nm1 o (.seq h1 info1 e) = .ok m1)
    (hm2 : createAs E nm2 o (.seq h2 info2 e) = .ok m2)
    (hi : ∀ i ∈ [info, info1, info2], i.kind = .sequence ∧ i.dataSize = none ∧ i.dataSizeExpr = none ∧
      i.terminator = none)
    (bs : Bytes) (off depth : Nat) (hd : depth ≤ 10) (c : Ctx) (hc : c.Clean) (j k : Nat)
    (hn : Amounts E info.numElements info.numElementsExpr c.values (j + k : Nat))
    (hn1 : Amounts E info1.numElements info1.numElementsExpr c.values j)
    (hn2 : Amounts E info2.numElements info2.numElementsExpr c.values k) (v : Val) (n : Nat) :
    ((mapStream E m bs off depth c).1 = .ok v ∧ (mapStream E m bs off depth c).2.byteSize = some n) ↔
      ∃ us ws a b, v = .tuple (us ++ ws) ∧ n = a + b ∧
        (mapStream E m1 bs off depth c).1 = .ok (.tuple us) ∧
        (mapStream E m1 bs off depth c).2.byteSize = some a ∧
        (mapStream E m2 bs (off + a) depth c).1 = .ok (.tuple ws) ∧
        (mapStream E m2 bs (off + a) depth c).2.byteSize = some b := by
  obtain ⟨hk, d1, d2, d3⟩ := hi info (by simp)
  obtain ⟨hk1, e1, e2, e3⟩ := hi info1 (by simp)
  obtain ⟨hk2, f1, f2, f3⟩ := hi info2 (by simp)
  obtain ⟨en, em, hen, hem, hiff⟩ := C85_number E nm o h info hk e m hm hmem bs off depth hd c hc d1 d2 d3 _ hn
  obtain ⟨en1, em1, hen1, hem1, hiff1⟩ :=
    C85_number E nm1 o h1 info1 hk1 e m1 hm1 hmem bs off depth hd c hc e1 e2 e3 _ hn1
  have hs1 := fun q => elements_alike hen hen1 hem hem1 bs q (depth + 1) {}
  rw [hiff]
  constructor
  · rintro ⟨vs, rfl, hl, hr⟩
    rw [← List.take_append_drop j vs] at hr
    obtain ⟨q, hr1, hr2⟩ := readable_append.1 hr
    have hq1 := readable_mono hr1
    have hq2 := readable_mono hr2
    obtain ⟨a, rfl⟩ := Nat.exists_eq_add_of_le hq1
    obtain ⟨en2, em2, hen2, hem2, hiff2⟩ :=
      C85_number E nm2 o h2 info2 hk2 e m2 hm2 hmem bs (off + a) depth hd c hc f1 f2 f3 _ hn2
    have hs2 := fun q => elements_alike hen hen2 hem hem2 bs q (depth + 1) {}
    obtain ⟨g1, g2⟩ := (hiff1 (.tuple (vs.take j)) a).2 ⟨_, rfl, by simp; omega, readable_congr hs1 hr1⟩
    obtain ⟨g3, g4⟩ := (hiff2 (.tuple (vs.drop j)) (n - a)).2 ⟨_, rfl, by simp; omega,
      by rw [show off + a + (n - a) = off + n by omega]; exact readable_congr hs2 hr2⟩
    exact ⟨_, _, a, n - a, by rw [List.take_append_drop], by omega, g1, g2, g3, g4⟩
  · rintro ⟨us, ws, a, b, rfl, rfl, g1, g2, g3, g4⟩
    obtain ⟨en2, em2, hen2, hem2, hiff2⟩ :=
      C85_number E nm2 o h2 info2 hk2 e m2 hm2 hmem bs (off + a) depth hd c hc f1 f2 f3 _ hn2
    have hs2 := fun q => elements_alike hen hen2 hem hem2 bs q (depth + 1) {}
    obtain ⟨us', hu, hl1, hr1⟩ := (hiff1 _ a).1 ⟨g1, g2⟩
    obtain ⟨ws', hw, hl2, hr2⟩ := (hiff2 _ b).1 ⟨g3, g4⟩
    cases hu
    cases hw
    refine ⟨_, rfl, by simp [hl1, hl2], readable_append.2 ⟨off + a, readable_congr (fun q => (hs1 q).symm) hr1, ?_⟩⟩
    rw [← Nat.add_assoc]
    exact readable_congr (fun q => (hs2 q).symm) hr2

/-- Three numbers of two bytes: the hypotheses and both sides of `C90_element`. -/
example : ∃ m em, createMap exEnv exSeq = .ok m ∧ createMap exEnv exU16 = .ok em ∧ exU16.Every Plain ∧
    exU16.byteSize = some (2 : Nat) ∧ exU16.levels ≤ 10 ∧ elementOrder .native exU16 = exU16.orderOrNative ∧
    Amounts exEnv (some 3) none [] (3 : Nat) ∧
    (mapStream exEnv m [9, 1, 0, 2, 0, 3, 0] 1 0 {}).1 = .ok (.tuple [.int 1, .int 2, .int 3]) ∧
    (mapStream exEnv em [9, 1, 0, 2, 0, 3, 0] (1 + 2 * 2) 0 {}).1 = .ok (.int 3) := by
  exact ⟨_, _, rfl, rfl, by simp [Defn.Every, exU16, Plain], rfl, by decide, rfl,
    ⟨by decide, .inl ⟨rfl, by decide⟩⟩, rfl, rfl⟩

/-- `k` rows of bytes up to a zero: elements whose size varies. -/
def exRowsOf (k : Int) : Defn :=
  .seq { name := "rows" } { kind := .sequence, elementDataType := some "row", numElements := some k }
    (.seq { name := "row" } { kind := .sequence, elementDataType := some "uint8", terminator := some (.int 0) } exU8)

/-- Three of these rows are two rows and one behind them. -/
example : ∃ m m1 m2, createMap exEnv (exRowsOf 3) = .ok m ∧ createMap exEnv (exRowsOf 2) = .ok m1 ∧
    createMap exEnv (exRowsOf 1) = .ok m2 ∧ Amounts exEnv (some 3) none [] (2 + 1 : Nat) ∧
    (mapStream exEnv m [7, 5, 0, 0, 9, 0] 0 0 {}).1 =
      .ok (.tuple [.tuple [.int 7, .int 5, .int 0], .tuple [.int 0], .tuple [.int 9, .int 0]]) ∧
    (mapStream exEnv m1 [7, 5, 0, 0, 9, 0] 0 0 {}).1 = .ok (.tuple [.tuple [.int 7, .int 5, .int 0], .tuple [.int 0]]) ∧
    (mapStream exEnv m1 [7, 5, 0, 0, 9, 0] 0 0 {}).2.byteSize = some 4 ∧
    (mapStream exEnv m2 [7, 5, 0, 0, 9, 0] 4 0 {}).1 = .ok (.tuple [.tuple [.int 9, .int 0]]) := by
  exact ⟨_, _, _, rfl, rfl, rfl, ⟨by decide, .inl ⟨rfl, by decide⟩⟩, rfl, rfl, rfl, rfl⟩

end Dtf
