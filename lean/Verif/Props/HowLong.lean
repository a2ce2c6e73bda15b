import Verif.Props.Access
import Verif.Props.Locality
/-!
# Property C125: a terminator, a number of elements and a data size agree
-/
namespace Dtf
open Spec

theorem readable_widen {E : Env} {em : DMap} {bs : Bytes} {depth stop stop' p q : Nat} {vs : List Val} (hle : stop ≤ stop')
    (h : Readable E em bs depth stop p vs q) : Readable E em bs depth stop' p vs q := by
  induction h with
  | nil p => exact .nil p
  | cons hp hv hk _ ih => exact .cons (by omega) hv hk ih

/-- Elements that take bytes begin before the end. -/
theorem readable_narrow {E : Env} {em : DMap} (ht : TakesBytes E em) {bs : Bytes} {depth p q : Nat} {vs : List Val}
    (h : Readable E em bs depth bs.length p vs q) : Readable E em bs depth (min bs.length q) p vs q := by
  have hall : ∀ {p q vs}, Readable E em bs depth bs.length p vs q → ∀ stop, q ≤ stop →
      Readable E em bs depth (min bs.length stop) p vs q := by
    intro p q vs h
    induction h with
    | nil p => exact fun _ _ => .nil p
    | @cons p k q v vs hp hv hk t ih =>
      intro stop hs
      have h1 := readable_mono t
      have h2 : k ≠ 0 := by
        rintro rfl
        exact ht bs p depth {} v rfl hv hk
      exact .cons (by omega) hv hk (ih stop hs)
  exact hall h q (Nat.le_refl _)

/-- As many bytes as elements of a fixed size take. -/
theorem readable_size {E : Env} {e : Defn} (he : e.Every Plain) {es : Nat} (hes : e.byteSize = some (es : Int)) {en : String}
    {o : Order} {em : DMap} (hem : createAs E en o e = .ok em) {bs : Bytes} {depth stop p q : Nat} {vs : List Val}
    (h : Readable E em bs depth stop p vs q) : q = p + vs.length * es := by
  induction h with
  | nil p => simp
  | @cons p k q v vs hp hv hk t ih =>
    have hex := (parse_exact E bs e he es hes).2 _ _ em hem p depth []
    obtain ⟨k', hp', hb⟩ := mapStream_ok (c := {}) rfl hv
    rw [hk] at hb
    cases hb
    rw [hp'] at hex
    have := hex.1
    rw [List.length_cons, Nat.succ_mul]
    omega

section
variable {E : Env} {nm nm' : String} {o : Order} {h h' : Hdr} {info info' : SeqInfo} {e : Defn} {m m' : DMap}

/-- **C125** A sequence that ends with a terminator gives some elements exactly if the sequence of that number of elements
gives them, and the last of them, and no other, is the terminator. Both take the same bytes. -/
theorem C125_number (hm : createAs E nm o (.seq h info e) = .ok m) (hm' : createAs E nm' o (.seq h' info' e) = .ok m')
    (hk : info.kind = .sequence) (hk' : info'.kind = .sequence) (hmem : ∀ h i c t v, e ≠ .member h i c t v)
    (bs : Bytes) (off depth : Nat) (hd : depth ≤ 10) (c : Ctx) (hc : c.Clean)
    (h1 : info.dataSize = none) (h2 : info.dataSizeExpr = none) (t : Lit) (ht : info.terminator = some t) (hnull : t ≠ .null)
    (h1' : info'.dataSize = none) (h2' : info'.dataSizeExpr = none) (h3' : info'.terminator = none)
    (us : List Val) (x : Val) (hn : Amounts E info'.numElements info'.numElementsExpr c.values ((us.length + 1 : Nat) : Int))
    (n : Nat) :
    ((mapStream E m bs off depth c).1 = .ok (.tuple (us ++ [x])) ∧ (mapStream E m bs off depth c).2.byteSize = some n) ↔
      ((mapStream E m' bs off depth c).1 = .ok (.tuple (us ++ [x])) ∧ (mapStream E m' bs off depth c).2.byteSize = some n) ∧
        Equals x t ∧ ∀ y ∈ us, ¬ Equals y t := by
  obtain ⟨en, em, hen, hem, hiff⟩ := C85_terminator E nm o h info hk e m hm hmem bs off depth hd c hc h1 h2 t ht hnull
  obtain ⟨en', em', hen', hem', hiff'⟩ := C85_number E nm' o h' info' hk' e m' hm' hmem bs off depth hd c hc h1' h2' h3' _ hn
  have hs := fun q => elements_alike hen hen' hem hem' bs q (depth + 1) {}
  rw [hiff, hiff']
  constructor
  · rintro ⟨vs, y, heq, h4, h5, h6⟩
    simp only [Val.tuple.injEq] at heq
    obtain ⟨rfl, hxy⟩ := List.append_inj' heq rfl
    cases hxy
    exact ⟨⟨_, rfl, by simp, readable_congr hs h6⟩, h4, h5⟩
  · rintro ⟨⟨vs, heq, -, h6⟩, h4, h5⟩
    cases heq
    exact ⟨us, x, rfl, h4, h5, readable_congr (fun q => (hs q).symm) h6⟩

/-- **C125** The same for a sequence with the size of these bytes as data size, if the elements have a fixed size. -/
theorem C125_data_size (hm : createAs E nm o (.seq h info e) = .ok m) (hm' : createAs E nm' o (.seq h' info' e) = .ok m')
    (hk : info.kind = .sequence) (hk' : info'.kind = .sequence) (hmem : ∀ h i c t v, e ≠ .member h i c t v)
    (he : e.Every Plain) (es : Nat) (hes : e.byteSize = some (es : Int)) (hpos : 0 < es)
    (bs : Bytes) (off depth : Nat) (hd : depth ≤ 10) (c : Ctx) (hc : c.Clean)
    (h1 : info.dataSize = none) (h2 : info.dataSizeExpr = none) (t : Lit) (ht : info.terminator = some t) (hnull : t ≠ .null)
    (n : Nat) (hds : Amounts E info'.dataSize info'.dataSizeExpr c.values (n : Int)) (hdvd : es ∣ n)
    (hone : info'.dataSize ≠ none → info'.numElements = none) (us : List Val) (x : Val) :
    ((mapStream E m bs off depth c).1 = .ok (.tuple (us ++ [x])) ∧ (mapStream E m bs off depth c).2.byteSize = some n) ↔
      ((mapStream E m' bs off depth c).1 = .ok (.tuple (us ++ [x])) ∧ (mapStream E m' bs off depth c).2.byteSize = some n) ∧
        Equals x t ∧ ∀ y ∈ us, ¬ Equals y t := by
  obtain ⟨en, em, hen, hem, hiff⟩ := C85_terminator E nm o h info hk e m hm hmem bs off depth hd c hc h1 h2 t ht hnull
  obtain ⟨en', em', hen', hem', hiff'⟩ := C85_data_size E nm' o h' info' hk' e m' hm' hmem bs off depth hd c hc n es hds hes
    hpos fun hx => ⟨hdvd, hone hx⟩
  have hs := fun q => elements_alike hen hen' hem hem' bs q (depth + 1) {}
  have htk : TakesBytes E em := by
    intro bs off depth c v hc hv hz
    have hex := (parse_exact E bs e he es hes).2 _ _ em hem off depth c.values
    obtain ⟨k', hp', hb⟩ := mapStream_ok hc hv
    rw [hz] at hb
    cases hb
    rw [hp'] at hex
    have := hex.1
    omega
  rw [hiff, hiff']
  constructor
  · rintro ⟨vs, y, heq, h4, h5, h6⟩
    simp only [Val.tuple.injEq] at heq
    obtain ⟨rfl, hxy⟩ := List.append_inj' heq rfl
    cases hxy
    have hsz := readable_size he hes hem h6
    refine ⟨⟨_, rfl, ?_, readable_congr hs (readable_narrow htk h6)⟩, h4, h5⟩
    rw [Nat.add_left_cancel hsz, Nat.mul_div_cancel _ hpos]
  · rintro ⟨⟨vs, heq, -, h6⟩, h4, h5⟩
    cases heq
    exact ⟨us, x, rfl, h4, h5, readable_congr (fun q => (hs q).symm) (readable_widen (Nat.min_le_left _ _) h6)⟩

/-- **C125** For elements of no fixed size, which always take bytes and have a terminator: the sequence of a number of
elements that takes `n` bytes and the sequence with the data size `n` give the same, as long as no element before the
last is equal to the terminator of the elements. -/
theorem C125_variable (hm : createAs E nm o (.seq h info e) = .ok m) (hm' : createAs E nm' o (.seq h' info' e) = .ok m')
    (hk : info.kind = .sequence) (hk' : info'.kind = .sequence) (hmem : ∀ h i c t v, e ≠ .member h i c t v)
    (hord : e.Every Ordinary) (hfew : 0 < fewest e) (hes : e.byteSize = none) (t : Lit) (ht : e.terminator? = some (some t))
    (hnull : t ≠ .null) (bs : Bytes) (off depth : Nat) (hd : depth ≤ 10) (c : Ctx) (hc : c.Clean)
    (h1 : info.dataSize = none) (h2 : info.dataSizeExpr = none) (h3 : info.terminator = none)
    (us : List Val) (x : Val) (hn : Amounts E info.numElements info.numElementsExpr c.values ((us.length + 1 : Nat) : Int))
    (n : Nat) (hds : Amounts E info'.dataSize info'.dataSizeExpr c.values (n : Int))
    (hone : info'.dataSize ≠ none → info'.numElements = none) :
    ((mapStream E m' bs off depth c).1 = .ok (.tuple (us ++ [x])) ∧ (mapStream E m' bs off depth c).2.byteSize = some n) ↔
      ((mapStream E m bs off depth c).1 = .ok (.tuple (us ++ [x])) ∧ (mapStream E m bs off depth c).2.byteSize = some n) ∧
        ∀ y ∈ us, ¬ Equals y t := by
  obtain ⟨en, em, hen, hem, hiff⟩ := C85_number E nm o h info hk e m hm hmem bs off depth hd c hc h1 h2 h3 _ hn
  obtain ⟨en', em', hen', hem', hiff'⟩ := C85_variable E nm' o h' info' hk' e m' hm' hmem bs off depth hd c hc n hds hes t ht
    hnull hone
  have hs := fun q => elements_alike hen hen' hem hem' bs q (depth + 1) {}
  have htk : TakesBytes E em := C63_takes_bytes E e hord hfew _ _ em hem
  rw [hiff, hiff']
  constructor
  · rintro (⟨heq, -⟩ | ⟨vs, y, heq, -, h5, h6⟩)
    · simp at heq
    simp only [Val.tuple.injEq] at heq
    obtain ⟨rfl, hxy⟩ := List.append_inj' heq rfl
    cases hxy
    exact ⟨⟨_, rfl, by simp, readable_congr (fun q => (hs q).symm) (readable_widen (Nat.min_le_left _ _) h6)⟩, h5⟩
  · rintro ⟨⟨vs, heq, -, h6⟩, h5⟩
    cases heq
    exact .inr ⟨us, x, rfl, .inr (Nat.le_refl _), h5, readable_congr hs (readable_narrow htk h6)⟩

theorem firstTerminator_within {bs t : Bytes} {off k : Nat} (ht : t ≠ []) (h : FirstTerminator bs off t k) :
    off + (k + 1) * t.length ≤ bs.length := by
  have h1 := congrArg List.length h.1
  have h2 : 0 < t.length := List.length_pos_iff.2 ht
  simp only [window, List.length_take, List.length_drop] at h1
  rw [Nat.succ_mul]
  omega

/-- **C125** A stream that ends with a terminator gives some bytes exactly if the stream of that size gives them, and the
terminator is at their end and not before. -/
theorem C125_stream (hm : createAs E nm o (.seq h info e) = .ok m) (hm' : createAs E nm' o (.seq h' info' e) = .ok m')
    (hk : info.kind = .stream) (hk' : info'.kind = .stream)
    (hd : info.dataSize = none ∧ info.dataSizeExpr = none) (hn : info.numElements = none ∧ info.numElementsExpr = none)
    (t : Bytes) (ht : t ≠ []) (hti : info.terminator = some (.bytes t)) (hes : e.byteSize = some (t.length : Int))
    (bs : Bytes) (off depth : Nat) (c : Ctx) (hc : c.Clean) (n : Nat) (hs : Sized E info' e.byteSize c.values n) (b : Bytes) :
    ((mapStream E m bs off depth c).1 = .ok (.bytes b) ∧ (mapStream E m bs off depth c).2.byteSize = some n) ↔
      ((mapStream E m' bs off depth c).1 = .ok (.bytes b) ∧ (mapStream E m' bs off depth c).2.byteSize = some n) ∧
        ∃ k, n = (k + 1) * t.length ∧ FirstTerminator bs off t k := by
  obtain ⟨h1, h2, h3⟩ := C21_terminated_stream E nm o h info hk hd hn t ht hti e hes m hm bs off depth c hc
  have h4 := ((C20_sized_stream E nm' o h' info' hk' e m' hm' bs off depth c hc).1 n (by omega) hs).1
  constructor
  · rintro ⟨h5, h6⟩
    rcases h3 with ⟨k, hf⟩ | h3
    · obtain ⟨h7, h8⟩ := h1 k hf
      rw [h6] at h8
      cases h8
      have h9 := firstTerminator_within ht hf
      obtain ⟨h10, h11⟩ := h4 (by omega)
      rw [h5] at h7
      simp only [Int.toNat_natCast] at h10 h11
      exact ⟨⟨by rw [h10, h7], h11⟩, k, rfl, hf⟩
    · rw [h2.2 h3] at h5
      cases h5
  · rintro ⟨⟨h5, -⟩, k, rfl, hf⟩
    obtain ⟨h7, h8⟩ := h1 k hf
    have h9 := firstTerminator_within ht hf
    obtain ⟨h10, -⟩ := h4 (by omega)
    simp only [Int.toNat_natCast] at h10
    rw [h5] at h10
    exact ⟨by rw [h7, h10], h8⟩

/-- **C125** The same for strings with the same terminator: with a size, too, they end at it. -/
theorem C125_string (enc : String) (hm : createAs E nm o (.seq h info e) = .ok m)
    (hm' : createAs E nm' o (.seq h' info' e) = .ok m')
    (hk : info.kind = .string enc) (hk' : info'.kind = .string enc)
    (hd : info.dataSize = none ∧ info.dataSizeExpr = none) (hn : info.numElements = none ∧ info.numElementsExpr = none)
    (t : Bytes) (ht : t ≠ []) (hti : info.terminator = some (.bytes t)) (hti' : info'.terminator = some (.bytes t))
    (hes : e.byteSize = some (t.length : Int))
    (bs : Bytes) (off depth : Nat) (c : Ctx) (hc : c.Clean) (n : Nat) (hs : Sized E info' e.byteSize c.values n)
    (text : List Nat) :
    ((mapStream E m bs off depth c).1 = .ok (.str text) ∧ (mapStream E m bs off depth c).2.byteSize = some n) ↔
      ((mapStream E m' bs off depth c).1 = .ok (.str text) ∧ (mapStream E m' bs off depth c).2.byteSize = some n) ∧
        ∃ k, n = (k + 1) * t.length ∧ FirstTerminator bs off t k := by
  rw [mapped_iff hc, mapped_iff hc]
  obtain ⟨n1, eo1, em1, -, -, rfl, -⟩ := createAs_seq hm
  obtain ⟨n2, eo2, em2, -, -, rfl, -⟩ := createAs_seq hm'
  have hsize : streamSize E info ⟨e.byteSize, e.isComposite, e.terminator?⟩ c.values = .ok none := by
    simp [streamSize, SeqInfo.hasDataSize, SeqInfo.hasNumElements, hd, hn]
  have hsize' : streamSize E info' ⟨e.byteSize, e.isComposite, e.terminator?⟩ c.values = .ok (some (n : Int)) := by
    rcases hs with hs | ⟨h1, h2, k, s, h3, h4, h5⟩
    · obtain ⟨h1, h2⟩ := evalData_of hs
      simp [streamSize, h1, h2]
    · obtain ⟨h6, h7⟩ := evalNum_of h3
      simp [streamSize, SeqInfo.hasDataSize, h1, h2, h7, h4, h6, h5]
  rw [hes] at hsize hsize'
  have hsc := scanTerm_spec (bs.drop off) t ht (bs.length - off + 2) 0 (by simp)
  simp only [Nat.zero_add, terminatorAt_drop, firstTerminator_drop] at hsc
  have huniq : ∀ j k, FirstTerminator bs off t j → FirstTerminator bs off t k → j = k := by
    intro j k ⟨h1, h2⟩ ⟨h3, h4⟩
    rcases Nat.lt_trichotomy j k with h | h | h
    · exact absurd h1 (h4 j h)
    · exact h
    · exact absurd h3 (h2 k h)
  have hcut : ∀ b, cutString info b = cutString info' b := fun b => by simp [cutString, hti, hti']
  simp only [parse, hk, hk', stringParse, hcut, hes]
  rcases hsc with ⟨k, hk1, hf⟩ | ⟨hno, j, hf⟩
  · have hP : streamParse E info ⟨some (t.length : Int), e.isComposite, e.terminator?⟩ bs off c.values =
        .ok (slice bs off (off + (k + 1) * t.length), (k + 1) * t.length) := by
      simp [streamParse, hsize, hti, hf]
    have hP' : n = (k + 1) * t.length →
        streamParse E info' ⟨some (t.length : Int), e.isComposite, e.terminator?⟩ bs off c.values =
        .ok (slice bs off (off + (k + 1) * t.length), (k + 1) * t.length) := by
      intro hnk
      have h9 := firstTerminator_within ht hk1
      have : tooSmall bs off (n : Int) = false := by simp [tooSmall]; omega
      simp only [streamParse, hsize', this, Bool.false_eq_true, if_false, Int.toNat_natCast, ← hnk]
    rw [hP]
    constructor
    · intro hx
      have hnk : n = (k + 1) * t.length := by
        revert hx
        dsimp only
        repeat' split
        all_goals intro hx; simp_all
      exact ⟨by rw [hP' hnk]; exact hx, k, hnk, hk1⟩
    · rintro ⟨hx, j, hnj, hfj⟩
      rw [huniq j k hfj hk1] at hnj
      rw [hP' hnj] at hx
      exact hx
  · constructor
    · intro hx
      simp [streamParse, hsize, hti, hf] at hx
    · rintro ⟨-, k, -, hfk⟩
      exact absurd hfk.1 (hno k)

end

/-! ### Examples -/

/-- Bytes that end with 0, three bytes, and three bytes by their size. -/
def exUntil : Defn :=
  .seq { name := "until" } { kind := .sequence, elementDataType := some "uint8", terminator := some (.int 0) } exU8
def exOfThree : Defn :=
  .seq { name := "three" } { kind := .sequence, elementDataType := some "uint8", numElements := some 3 } exU8
def exInThree : Defn :=
  .seq { name := "size" } { kind := .sequence, elementDataType := some "uint8", dataSize := some 3 } exU8

example : ∃ m1 m2 m3, createMap exEnv exUntil = .ok m1 ∧ createMap exEnv exOfThree = .ok m2 ∧ createMap exEnv exInThree = .ok m3 ∧
    (∀ m ∈ [m1, m2, m3], (mapStream exEnv m [9, 5, 6, 0, 7] 1 0 {}).1 = .ok (.tuple ([.int 5, .int 6] ++ [.int 0])) ∧
      (mapStream exEnv m [9, 5, 6, 0, 7] 1 0 {}).2.byteSize = some 3) ∧
    Amounts exEnv (some 3) none [] (([Val.int 5, .int 6].length + 1 : Nat) : Int) ∧ exU8.Every Plain := by
  refine ⟨_, _, _, rfl, rfl, rfl, ?_, ⟨by decide, .inl ⟨rfl, by decide⟩⟩, by simp [Defn.Every, exU8, Plain]⟩
  intro m hm
  simp only [List.mem_cons, List.not_mem_nil, or_false] at hm
  rcases hm with rfl | rfl | rfl <;> exact ⟨rfl, rfl⟩

/-- Two rows that end with 0, by their number and by their size. -/
def exEndedOf : Defn :=
  .seq { name := "rows" } { kind := .sequence, elementDataType := some "until", numElements := some 2 } exUntil
def exEndedIn : Defn :=
  .seq { name := "rows" } { kind := .sequence, elementDataType := some "until", dataSize := some 5 } exUntil

example : exUntil.Every Ordinary ∧ 0 < fewest exUntil ∧ exUntil.byteSize = none ∧ exUntil.terminator? = some (some (.int 0)) ∧
    ∃ m1 m2, createMap exEnv exEndedOf = .ok m1 ∧ createMap exEnv exEndedIn = .ok m2 ∧
    ∀ m ∈ [m1, m2], (mapStream exEnv m [5, 0, 6, 7, 0, 1] 0 0 {}).1 =
        .ok (.tuple ([.tuple [.int 5, .int 0]] ++ [.tuple [.int 6, .int 7, .int 0]])) ∧
      (mapStream exEnv m [5, 0, 6, 7, 0, 1] 0 0 {}).2.byteSize = some 5 := by
  refine ⟨by simp [Defn.Every, exUntil, exU8, Ordinary], by decide, rfl, rfl, _, _, rfl, rfl, ?_⟩
  intro m hm
  simp only [List.mem_cons, List.not_mem_nil, or_false] at hm
  rcases hm with rfl | rfl <;> exact ⟨rfl, rfl⟩

/-- A stream and a string that end with 0, and those of the size of their bytes. -/
def exStreamBy (n : Option Int) (t : Option Lit) : Defn :=
  .seq { name := "bytes" } { kind := .stream, elementDataType := some "uint8", dataSize := n, terminator := t } exU8

example : FirstTerminator [65, 66, 0, 67] 0 [0] 2 ∧ ∃ m1 m2 m3 m4, createMap exEnv (exStreamBy none (some (.bytes [0]))) = .ok m1 ∧
    createMap exEnv (exStreamBy (some 3) none) = .ok m2 ∧ createMap exEnv (exStr none (some (.bytes [0]))) = .ok m3 ∧
    createMap exEnv (exStr (some 3) (some (.bytes [0]))) = .ok m4 ∧
    (∀ m ∈ [m1, m2], (mapStream exEnv m [65, 66, 0, 67] 0 0 {}).1 = .ok (.bytes [65, 66, 0]) ∧
      (mapStream exEnv m [65, 66, 0, 67] 0 0 {}).2.byteSize = some 3) ∧
    (∀ m ∈ [m3, m4], (mapStream exEnv m [65, 66, 0, 67] 0 0 {}).1 = .ok (.str [65, 66]) ∧
      (mapStream exEnv m [65, 66, 0, 67] 0 0 {}).2.byteSize = some 3) := by
  refine ⟨⟨rfl, ?_⟩, _, _, _, _, rfl, rfl, rfl, rfl, ?_, ?_⟩
  · intro j hj
    match j with
    | 0 | 1 => simp [TerminatorAt, window]
  all_goals
    intro m hm
    simp only [List.mem_cons, List.not_mem_nil, or_false] at hm
    rcases hm with rfl | rfl <;> exact ⟨rfl, rfl⟩

/-- **C125** Why the elements before the last must not be the terminator of the elements: with streams that end with 0 as
elements, the sequence with a data size ends at one that consists of its terminator only. -/
theorem C125_variable_needs : ∃ m1 m2,
    createMap exEnv (.seq { name := "rows" } { kind := .sequence, elementDataType := some "bytes", numElements := some 2 }
      (exStreamBy none (some (.bytes [0])))) = .ok m1 ∧
    createMap exEnv (.seq { name := "rows" } { kind := .sequence, elementDataType := some "bytes", dataSize := some 3 }
      (exStreamBy none (some (.bytes [0])))) = .ok m2 ∧
    (mapStream exEnv m1 [0, 5, 0] 0 0 {}).1 = .ok (.tuple [.bytes [0], .bytes [5, 0]]) ∧
    (mapStream exEnv m1 [0, 5, 0] 0 0 {}).2.byteSize = some 3 ∧
    (mapStream exEnv m2 [0, 5, 0] 0 0 {}).1 = .ok (.tuple [.bytes [0]]) :=
  ⟨_, _, rfl, rfl, rfl, rfl, rfl⟩

/-- **C125** Why a string keeps its terminator: without it the string of that size ends with the character 0. -/
theorem C125_string_needs : ∃ m1 m2, createMap exEnv (exStr none (some (.bytes [0]))) = .ok m1 ∧
    createMap exEnv (exStr (some 3) none) = .ok m2 ∧
    (mapStream exEnv m1 [65, 66, 0, 67] 0 0 {}).1 = .ok (.str [65, 66]) ∧
    (mapStream exEnv m2 [65, 66, 0, 67] 0 0 {}).1 = .ok (.str [65, 66, 0]) :=
  ⟨_, _, rfl, rfl, rfl, rfl⟩

end Dtf
