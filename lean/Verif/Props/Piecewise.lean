import Verif.Props.HowLong
/-!
# Property C90: streams, terminated sequences and sequences with a data size in parts
-/
namespace Dtf
open Spec

section
variable {E : Env} {nm nm1 nm2 : String} {o : Order} {h h1 h2 : Hdr} {info info1 info2 : SeqInfo} {e : Defn} {m m1 m2 : DMap}

/-- **C90** A sequence that ends with a terminator gives some elements and others behind them exactly if the sequence of
the number of the first gives these, none of which is the terminator, and the sequence that ends with the terminator,
behind them, gives the others. -/
theorem C90_terminated (hm : createAs E nm o (.seq h info e) = .ok m) (hm1 : createAs E nm1 o (.seq h1 info1 e) = .ok m1)
    (hk : info.kind = .sequence) (hk1 : info1.kind = .sequence) (hmem : ∀ h i c t v, e ≠ .member h i c t v)
    (d1 : info.dataSize = none) (d2 : info.dataSizeExpr = none) (t : Lit) (ht : info.terminator = some t) (hnull : t ≠ .null)
    (e1 : info1.dataSize = none) (e2 : info1.dataSizeExpr = none) (e3 : info1.terminator = none)
    (bs : Bytes) (off depth : Nat) (hd : depth ≤ 10) (c : Ctx) (hc : c.Clean)
    (us ws : List Val) (hws : ws ≠ []) (hn : Amounts E info1.numElements info1.numElementsExpr c.values us.length) (n : Nat) :
    ((mapStream E m bs off depth c).1 = .ok (.tuple (us ++ ws)) ∧ (mapStream E m bs off depth c).2.byteSize = some n) ↔
      (∀ y ∈ us, ¬ Equals y t) ∧ ∃ a b, n = a + b ∧
        (mapStream E m1 bs off depth c).1 = .ok (.tuple us) ∧
        (mapStream E m1 bs off depth c).2.byteSize = some a ∧
        (mapStream E m bs (off + a) depth c).1 = .ok (.tuple ws) ∧
        (mapStream E m bs (off + a) depth c).2.byteSize = some b := by
  obtain ⟨en, em, hen, hem, hiff⟩ := C85_terminator E nm o h info hk e m hm hmem bs off depth hd c hc d1 d2 t ht hnull
  obtain ⟨en1, em1, hen1, hem1, hiff1⟩ :=
    C85_number E nm1 o h1 info1 hk1 e m1 hm1 hmem bs off depth hd c hc e1 e2 e3 _ hn
  have hs1 := fun q => elements_alike hen hen1 hem hem1 bs q (depth + 1) {}
  obtain ⟨zs, z, rfl⟩ : ∃ zs z, ws = zs ++ [z] := by
    rcases List.eq_nil_or_concat ws with rfl | ⟨zs, z, rfl⟩
    · exact absurd rfl hws
    · exact ⟨zs, z, by simp⟩
  rw [hiff]
  constructor
  · rintro ⟨vs, x, heq, hx, hnot, hr⟩
    simp only [Val.tuple.injEq] at heq
    rw [← List.append_assoc] at heq
    obtain ⟨rfl, hxy⟩ := List.append_inj' heq rfl
    cases hxy
    rw [List.append_assoc] at hr
    obtain ⟨q, hr1, hr2⟩ := readable_append.1 hr
    have hq1 := readable_mono hr1
    have hq2 := readable_mono hr2
    obtain ⟨a, rfl⟩ := Nat.exists_eq_add_of_le hq1
    obtain ⟨en2, em2, hen2, hem2, hiff2⟩ :=
      C85_terminator E nm o h info hk e m hm hmem bs (off + a) depth hd c hc d1 d2 t ht hnull
    have hs2 := fun q => elements_alike hen hen2 hem hem2 bs q (depth + 1) {}
    obtain ⟨g1, g2⟩ := (hiff1 (.tuple us) a).2 ⟨_, rfl, rfl, readable_congr hs1 hr1⟩
    obtain ⟨g3, g4⟩ := (hiff2 (.tuple (zs ++ [z])) (n - a)).2 ⟨zs, z, rfl, hx, fun y hy => hnot y (by simp [hy]),
      by rw [show off + a + (n - a) = off + n by omega]; exact readable_congr hs2 hr2⟩
    exact ⟨fun y hy => hnot y (by simp [hy]), a, n - a, by omega, g1, g2, g3, g4⟩
  · rintro ⟨hnot, a, b, rfl, g1, g2, g3, g4⟩
    obtain ⟨en2, em2, hen2, hem2, hiff2⟩ :=
      C85_terminator E nm o h info hk e m hm hmem bs (off + a) depth hd c hc d1 d2 t ht hnull
    have hs2 := fun q => elements_alike hen hen2 hem hem2 bs q (depth + 1) {}
    obtain ⟨us', hu, -, hr1⟩ := (hiff1 _ a).1 ⟨g1, g2⟩
    obtain ⟨zs', z', hw, hz, hnot', hr2⟩ := (hiff2 _ b).1 ⟨g3, g4⟩
    cases hu
    simp only [Val.tuple.injEq] at hw
    obtain ⟨rfl, hzz⟩ := List.append_inj' hw rfl
    cases hzz
    refine ⟨us ++ zs, z, by simp, hz, ?_, ?_⟩
    · intro y hy
      rcases List.mem_append.1 hy with hy | hy
      · exact hnot y hy
      · exact hnot' y hy
    · rw [List.append_assoc]
      refine readable_append.2 ⟨off + a, readable_congr (fun q => (hs1 q).symm) hr1, ?_⟩
      rw [← Nat.add_assoc]
      exact readable_congr (fun q => (hs2 q).symm) hr2

/-- **C90** The sequence with the data size `j + k`, the elements of which have a fixed size that divides `j`, can be mapped
exactly if the sequence with the data size `j` can, and the one with the data size `k` behind it; the values follow each
other. -/
theorem C90_data_size (hm : createAs E nm o (.seq h info e) = .ok m) (hm1 : createAs E nm1 o (.seq h1 info1 e) = .ok m1)
    (hm2 : createAs E nm2 o (.seq h2 info2 e) = .ok m2) (hmem : ∀ h i c t v, e ≠ .member h i c t v)
    (hi : ∀ i ∈ [info, info1, info2], i.kind = .sequence ∧ (i.dataSize ≠ none → i.numElements = none))
    (he : e.Every Plain) (es : Nat) (hes : e.byteSize = some (es : Int)) (hpos : 0 < es)
    (bs : Bytes) (off depth : Nat) (hd : depth ≤ 10) (c : Ctx) (hc : c.Clean) (j k : Nat) (hj : es ∣ j) (hk : es ∣ k)
    (hn : Amounts E info.dataSize info.dataSizeExpr c.values (j + k : Nat))
    (hn1 : Amounts E info1.dataSize info1.dataSizeExpr c.values j)
    (hn2 : Amounts E info2.dataSize info2.dataSizeExpr c.values k) (v : Val) (n : Nat) :
    ((mapStream E m bs off depth c).1 = .ok v ∧ (mapStream E m bs off depth c).2.byteSize = some n) ↔
      ∃ us ws, v = .tuple (us ++ ws) ∧ n = j + k ∧
        (mapStream E m1 bs off depth c).1 = .ok (.tuple us) ∧
        (mapStream E m1 bs off depth c).2.byteSize = some j ∧
        (mapStream E m2 bs (off + j) depth c).1 = .ok (.tuple ws) ∧
        (mapStream E m2 bs (off + j) depth c).2.byteSize = some k := by
  obtain ⟨k0, l0⟩ := hi info (by simp)
  obtain ⟨k1, l1⟩ := hi info1 (by simp)
  obtain ⟨k2, l2⟩ := hi info2 (by simp)
  obtain ⟨en, em, hen, hem, hiff⟩ := C85_data_size E nm o h info k0 e m hm hmem bs off depth hd c hc _ es hn hes hpos
    fun hx => ⟨Nat.dvd_add hj hk, l0 hx⟩
  obtain ⟨en1, em1, hen1, hem1, hiff1⟩ := C85_data_size E nm1 o h1 info1 k1 e m1 hm1 hmem bs off depth hd c hc _ es hn1 hes hpos
    fun hx => ⟨hj, l1 hx⟩
  obtain ⟨en2, em2, hen2, hem2, hiff2⟩ := C85_data_size E nm2 o h2 info2 k2 e m2 hm2 hmem bs (off + j) depth hd c hc _ es hn2
    hes hpos fun hx => ⟨hk, l2 hx⟩
  have hs1 := fun q => elements_alike hen hen1 hem hem1 bs q (depth + 1) {}
  have hs2 := fun q => elements_alike hen hen2 hem hem2 bs q (depth + 1) {}
  have htk : TakesBytes E em := by
    intro bs off depth c v hc hv hz
    have hex := (parse_exact E bs e he es hes).2 _ _ em hem off depth c.values
    obtain ⟨k', hp', hb⟩ := mapStream_ok hc hv
    rw [hz] at hb
    cases hb
    rw [hp'] at hex
    have := hex.1
    omega
  obtain ⟨x, rfl⟩ := hj
  obtain ⟨y, rfl⟩ := hk
  have hx : es * x / es = x := Nat.mul_div_cancel_left _ hpos
  have hy : es * y / es = y := Nat.mul_div_cancel_left _ hpos
  have hxy : (es * x + es * y) / es = x + y := by rw [← Nat.mul_add]; exact Nat.mul_div_cancel_left _ hpos
  rw [hx] at hiff1
  rw [hy] at hiff2
  rw [hxy] at hiff
  rw [hiff]
  constructor
  · rintro ⟨vs, rfl, hl, hr⟩
    have hsz := readable_size he hes hem hr
    rw [hl, Nat.mul_comm, Nat.mul_add] at hsz
    rw [← List.take_append_drop x vs] at hr
    obtain ⟨q, hr1, hr2⟩ := readable_append.1 hr
    have hl1 : (vs.take x).length = x := by simp; omega
    have hq := readable_size he hes hem hr1
    rw [hl1, Nat.mul_comm] at hq
    subst hq
    have hr1' := readable_narrow htk (readable_widen (Nat.min_le_left _ _) hr1)
    obtain ⟨g1, g2⟩ := (hiff1 (.tuple (vs.take x)) (es * x)).2 ⟨_, rfl, hl1, readable_congr hs1 hr1'⟩
    obtain ⟨g3, g4⟩ := (hiff2 (.tuple (vs.drop x)) (es * y)).2 ⟨_, rfl, by simp; omega, by
      rw [Nat.add_assoc, ← Nat.add_left_cancel hsz]
      have := readable_congr hs2 hr2
      rwa [← Nat.add_left_cancel hsz] at this⟩
    exact ⟨_, _, by rw [List.take_append_drop], Nat.add_left_cancel hsz, g1, g2, g3, g4⟩
  · rintro ⟨us, ws, rfl, rfl, g1, g2, g3, g4⟩
    obtain ⟨us', hu, hl1, hr1⟩ := (hiff1 _ _).1 ⟨g1, g2⟩
    obtain ⟨ws', hw, hl2, hr2⟩ := (hiff2 _ _).1 ⟨g3, g4⟩
    cases hu
    cases hw
    refine ⟨_, rfl, by simp [hl1, hl2], readable_append.2 ⟨off + es * x,
      readable_widen (by omega) (readable_congr (fun q => (hs1 q).symm) hr1), ?_⟩⟩
    have := readable_congr (fun q => (hs2 q).symm) hr2
    rwa [Nat.add_assoc] at this

/-- **C90** A stream of `j + k` bytes gives the bytes of the stream of `j` bytes and those of the stream of `k` bytes behind
it. -/
theorem C90_stream (hm : createAs E nm o (.seq h info e) = .ok m) (hm1 : createAs E nm1 o (.seq h1 info1 e) = .ok m1)
    (hm2 : createAs E nm2 o (.seq h2 info2 e) = .ok m2) (hi : ∀ i ∈ [info, info1, info2], i.kind = .stream)
    (bs : Bytes) (off depth : Nat) (c : Ctx) (hc : c.Clean) (j k : Nat)
    (hn : Sized E info e.byteSize c.values (j + k : Nat)) (hn1 : Sized E info1 e.byteSize c.values j)
    (hn2 : Sized E info2 e.byteSize c.values k) (v : Val) (n : Nat) :
    ((mapStream E m bs off depth c).1 = .ok v ∧ (mapStream E m bs off depth c).2.byteSize = some n) ↔
      ∃ a b, v = .bytes (a ++ b) ∧ n = j + k ∧
        (mapStream E m1 bs off depth c).1 = .ok (.bytes a) ∧
        (mapStream E m1 bs off depth c).2.byteSize = some j ∧
        (mapStream E m2 bs (off + j) depth c).1 = .ok (.bytes b) ∧
        (mapStream E m2 bs (off + j) depth c).2.byteSize = some k := by
  obtain ⟨h3, h4⟩ := (C20_sized_stream E nm o h info (hi info (by simp)) e m hm bs off depth c hc).1 _ (by omega) hn
  obtain ⟨h5, h6⟩ := (C20_sized_stream E nm1 o h1 info1 (hi info1 (by simp)) e m1 hm1 bs off depth c hc).1 _ (by omega) hn1
  obtain ⟨h7, h8⟩ := (C20_sized_stream E nm2 o h2 info2 (hi info2 (by simp)) e m2 hm2 bs (off + j) depth c hc).1 _ (by omega) hn2
  simp only [Int.toNat_natCast] at h3 h5 h7
  have hw : window bs off (j + k) = window bs off j ++ window bs (off + j) k := by
    simp only [window]
    rw [List.take_add, List.drop_drop]
  rcases Nat.lt_or_ge bs.length (off + j + k) with hlt | hle
  · constructor
    · rintro ⟨hx, -⟩
      rw [h4 (by omega)] at hx
      cases hx
    · rintro ⟨a, b, -, -, -, -, hx, -⟩
      rw [h8 (by omega)] at hx
      cases hx
  · obtain ⟨a1, a2⟩ := h3 (by omega)
    obtain ⟨b1, b2⟩ := h5 (by omega)
    obtain ⟨c1, c2⟩ := h7 (by omega)
    rw [a1, a2, b1, b2, c1, c2, hw]
    constructor
    · rintro ⟨hx, hy⟩
      cases hx
      cases hy
      exact ⟨_, _, rfl, rfl, rfl, rfl, rfl, rfl⟩
    · rintro ⟨a, b, rfl, rfl, hx, -, hy, -⟩
      cases hx
      cases hy
      exact ⟨rfl, rfl⟩

end

/-! ### Examples -/

/-- Words in `n` bytes. -/
def exWordsBy (n : Int) : Defn :=
  .seq { name := "words", order := .little } { kind := .sequence, elementDataType := some "uint16", dataSize := some n } exU16

/-- Six bytes of words are four and two behind them; bytes up to 0 are two bytes and those up to 0 behind them; a stream of
three bytes is one of two and one of one. -/
example : exU16.Every Plain ∧ Amounts exEnv (some 6) none [] (4 + 2 : Nat) ∧
    ∃ m m1 m2, createMap exEnv (exWordsBy 6) = .ok m ∧ createMap exEnv (exWordsBy 4) = .ok m1 ∧
      createMap exEnv (exWordsBy 2) = .ok m2 ∧
      (mapStream exEnv m [9, 1, 0, 2, 0, 3, 0] 1 0 {}).1 = .ok (.tuple ([.int 1, .int 2] ++ [.int 3])) ∧
      (mapStream exEnv m1 [9, 1, 0, 2, 0, 3, 0] 1 0 {}).1 = .ok (.tuple [.int 1, .int 2]) ∧
      (mapStream exEnv m2 [9, 1, 0, 2, 0, 3, 0] (1 + 4) 0 {}).1 = .ok (.tuple [.int 3]) := by
  exact ⟨by simp [Defn.Every, exU16, Plain], ⟨by decide, .inl ⟨rfl, by decide⟩⟩, _, _, _, rfl, rfl, rfl, rfl, rfl, rfl⟩

example : ∃ m m1, createMap exEnv exUntil = .ok m ∧ createMap exEnv exOfThree = .ok m1 ∧
    (mapStream exEnv m [5, 6, 7, 8, 0, 1] 0 0 {}).1 = .ok (.tuple ([.int 5, .int 6, .int 7] ++ [.int 8, .int 0])) ∧
    (mapStream exEnv m1 [5, 6, 7, 8, 0, 1] 0 0 {}).1 = .ok (.tuple [.int 5, .int 6, .int 7]) ∧
    (mapStream exEnv m [5, 6, 7, 8, 0, 1] (0 + 3) 0 {}).1 = .ok (.tuple [.int 8, .int 0]) :=
  ⟨_, _, rfl, rfl, rfl, rfl, rfl⟩

example : ∃ m m1 m2, createMap exEnv (exStreamBy (some 3) none) = .ok m ∧ createMap exEnv (exStreamBy (some 2) none) = .ok m1 ∧
    createMap exEnv (exStreamBy (some 1) none) = .ok m2 ∧
    (mapStream exEnv m [5, 6, 7, 8] 0 0 {}).1 = .ok (.bytes ([5, 6] ++ [7])) ∧
    (mapStream exEnv m1 [5, 6, 7, 8] 0 0 {}).1 = .ok (.bytes [5, 6]) ∧
    (mapStream exEnv m2 [5, 6, 7, 8] (0 + 2) 0 {}).1 = .ok (.bytes [7]) :=
  ⟨_, _, _, rfl, rfl, rfl, rfl, rfl, rfl⟩

end Dtf
