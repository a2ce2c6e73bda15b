import Verif.Props.Primitive
/-!
# Property C124: integers of different sizes and signs agree
-/
namespace Dtf

namespace Spec

/-- Dictionary order: the first byte that differs is the smaller one. -/
inductive Sooner : Bytes → Bytes → Prop
  | head {x y a b} (h : x < y) : Sooner (x :: a) (y :: b)
  | tail {x a b} (h : Sooner a b) : Sooner (x :: a) (x :: b)

end Spec
open Spec

theorem number_append (a b : Bytes) : number (a ++ b) = number a + 256 ^ a.length * number b := by
  induction a with
  | nil => simp [number]
  | cons x a ih =>
    rw [List.cons_append, number_cons, number_cons, ih, List.length_cons, Nat.pow_succ, Nat.mul_add,
      Nat.mul_comm (256 ^ a.length) 256, Nat.mul_assoc, Nat.add_assoc]

theorem number_lt (a : Bytes) : number a < 256 ^ a.length := by
  induction a with
  | nil => simp [number]
  | cons x a ih =>
    have := x.toNat_lt
    rw [number_cons, List.length_cons, Nat.pow_succ]
    omega

/-- The only number in the signed range. -/
theorem signed_unique {N j s : Int} (hN : 0 < N) (h : j % N = s) (h1 : -N ≤ 2 * j) (h2 : 2 * j < N) :
    j = if 2 * s < N then s else s - N := by
  have h3 := Int.emod_nonneg j (Int.ne_of_gt hN)
  have h4 := Int.emod_lt_of_pos j hN
  rcases (by omega : j < 0 ∨ 0 ≤ j) with h5 | h5
  · have : (j + N) % N = j % N := by simp
    rw [← this, Int.emod_eq_of_lt (by omega) (by omega)] at h
    subst h
    rw [if_neg (by omega)]
    omega
  · rw [Int.emod_eq_of_lt h5 (by omega)] at h
    subst h
    rw [if_pos h2]

theorem unsigned_unique {N i s : Int} (h : i % N = s) (h1 : 0 ≤ i) (h2 : i < N) : i = s := by
  rw [Int.emod_eq_of_lt h1 h2] at h
  exact h

/-- **C124** Read as signed and as unsigned, the same bytes give the same number if it is less than half of `256^n`, and
otherwise numbers that differ by `256^n`; both are folded to those bytes. -/
theorem C124_signs (E : Env) (h h' : Hdr) (ho : h'.order = h.order) (n : Nat) (hn : n = 1 ∨ n = 2 ∨ n = 4 ∨ n = 8) (m m' : DMap)
    (hm : createMap E (.prim h (.integer true) (.bytes n) "bytes") = .ok m)
    (hm' : createMap E (.prim h' (.integer false) (.bytes n) "bytes") = .ok m')
    (bs : Bytes) (off d : Nat) (ctx : Ctx) (hl : off + n ≤ bs.length) :
    ∃ i j : Int, (mapStream E m bs off d ctx).1 = .ok (.int i) ∧ (mapStream E m' bs off d ctx).1 = .ok (.int j) ∧
      j = (if 2 * i < 256 ^ n then i else i - 256 ^ n) ∧
      ∀ ns, fold E m (.int i) ns = .ok (.bytes (window bs off n)) ∧ fold E m' (.int j) ns = .ok (.bytes (window bs off n)) := by
  obtain ⟨i, h1, -, h2, h3⟩ := C01_integer_map E h true n hn m hm bs off d ctx hl
  obtain ⟨j, h4, -, h5, h6⟩ := C01_integer_map E h' false n hn m' hm' bs off d ctx hl
  simp only [if_true, Bool.false_eq_true, if_false] at h3 h6
  rw [ho] at h5
  refine ⟨i, j, h1, h4, ?_, fun ns => ⟨C02_integer_fold_map E h true n hn m hm bs off d ctx hl _ h1 ns,
    C02_integer_fold_map E h' false n hn m' hm' bs off d ctx hl _ h4 ns⟩⟩
  rw [unsigned_unique h2 h3.1 h3.2]
  exact signed_unique (Int.pow_pos (by decide)) h5 h6.1 h6.2

theorem window_halves {bs : Bytes} {off n : Nat} :
    window bs off (2 * n) = window bs off n ++ window bs (off + n) n := by
  simp only [window]
  rw [Nat.two_mul, List.take_add, List.drop_drop]

/-- A number is negative exactly if its high half is. -/
theorem signed_halves {N L H : Nat} (he : N % 2 = 0) (hL : L < N) :
    2 * (L + N * H) < N * N ↔ 2 * H < N := by
  constructor
  · intro h
    refine Nat.lt_of_not_le fun hle => ?_
    have := Nat.mul_le_mul_left N hle
    rw [Nat.mul_left_comm] at this
    omega
  · intro h
    have := Nat.mul_le_mul_left N (show 2 * H + 2 ≤ N by omega)
    rw [Nat.mul_add, Nat.mul_left_comm] at this
    omega

/-- The number in bytes, from its halves. -/
theorem stored_halves (E : Env) (o : Order) {bs : Bytes} {off n : Nat} (hl : off + 2 * n ≤ bs.length) :
    stored E o (window bs off (2 * n)) = if LeastFirst E o then
      stored E o (window bs off n) + 256 ^ n * stored E o (window bs (off + n) n)
    else stored E o (window bs (off + n) n) + 256 ^ n * stored E o (window bs off n) := by
  rw [window_halves]
  unfold stored
  split
  · rw [number_append, window_length (by omega)]
  · rw [List.reverse_append, number_append, List.length_reverse, window_length (by omega)]

/-- **C124** An integer of `2 * n` bytes is made of its halves: the low one, which is read as unsigned, and `256^n` times
the high one, which is read with the sign of the whole. The low half is the first one in little-endian, the second one in
big-endian byte order. -/
theorem C124_halves (E : Env) (h h' h'' : Hdr) (ho' : h'.order = h.order) (ho'' : h''.order = h.order) (unsigned : Bool)
    (n : Nat) (hn : n = 1 ∨ n = 2 ∨ n = 4) (m low high : DMap)
    (hm : createMap E (.prim h (.integer unsigned) (.bytes (2 * n)) "bytes") = .ok m)
    (hlow : createMap E (.prim h' (.integer true) (.bytes n) "bytes") = .ok low)
    (hhigh : createMap E (.prim h'' (.integer unsigned) (.bytes n) "bytes") = .ok high)
    (bs : Bytes) (off d : Nat) (ctx : Ctx) (hl : off + 2 * n ≤ bs.length) :
    ∃ i lo hi : Int, (mapStream E m bs off d ctx).1 = .ok (.int i) ∧
      (mapStream E low bs (if LeastFirst E h.order then off else off + n) d ctx).1 = .ok (.int lo) ∧
      (mapStream E high bs (if LeastFirst E h.order then off + n else off) d ctx).1 = .ok (.int hi) ∧
      i = lo + 256 ^ n * hi := by
  have hlo : (if LeastFirst E h.order then off else off + n) + n ≤ bs.length := by split <;> omega
  have hhi : (if LeastFirst E h.order then off + n else off) + n ≤ bs.length := by split <;> omega
  obtain ⟨i, h1, -, h2, h3⟩ := C01_integer_map E h unsigned (2 * n) (by omega) m hm bs off d ctx hl
  obtain ⟨lo, h4, -, h5, h6⟩ := C01_integer_map E h' true n (by omega) low hlow bs _ d ctx hlo
  obtain ⟨hi, h7, -, h8, h9⟩ := C01_integer_map E h'' unsigned n (by omega) high hhigh bs _ d ctx hhi
  refine ⟨i, lo, hi, h1, h4, h7, ?_⟩
  rw [ho'] at h5
  rw [ho''] at h8
  have hL := stored_lt E h.order (window bs (if LeastFirst E h.order then off else off + n) n)
  have hH := stored_lt E h.order (window bs (if LeastFirst E h.order then off + n else off) n)
  rw [window_length hlo] at hL
  rw [window_length hhi] at hH
  have hS : stored E h.order (window bs off (2 * n)) =
      stored E h.order (window bs (if LeastFirst E h.order then off else off + n) n) +
        256 ^ n * stored E h.order (window bs (if LeastFirst E h.order then off + n else off) n) := by
    rw [stored_halves E h.order hl]
    split <;> rfl
  generalize stored E h.order (window bs (if LeastFirst E h.order then off else off + n) n) = L at *
  generalize stored E h.order (window bs (if LeastFirst E h.order then off + n else off) n) = H at *
  rw [hS] at h2
  simp only [if_true] at h6
  have h10 := unsigned_unique h5 h6.1 h6.2
  cases unsigned with
  | true =>
    simp only [if_true] at h3 h9
    have h11 := unsigned_unique h2 h3.1 h3.2
    have h12 := unsigned_unique h8 h9.1 h9.2
    rw [h11, h10, h12]
    simp
  | false =>
    simp only [Bool.false_eq_true, if_false] at h3 h9
    have h11 := signed_unique (Int.pow_pos (by decide)) h2 h3.1 h3.2
    have h12 := signed_unique (Int.pow_pos (by decide)) h8 h9.1 h9.2
    rw [h11, h10, h12]
    have he : 256 ^ n % 2 = 0 := by
      obtain ⟨k, rfl⟩ : ∃ k, n = k + 1 := ⟨n - 1, by omega⟩
      rw [Nat.pow_succ]
      omega
    have hN : (256 : Int) ^ n = ((256 ^ n : Nat) : Int) := by rw [Int.natCast_pow]; rfl
    have hNN : (256 : Int) ^ (2 * n) = ((256 ^ n * 256 ^ n : Nat) : Int) := by
      rw [Nat.two_mul, Int.pow_add, hN, Int.natCast_mul]
    rw [hN, hNN]
    generalize 256 ^ n = N at *
    have hs := signed_halves (H := H) he hL
    have e1 : (2 * ((L + N * H : Nat) : Int) < ((N * N : Nat) : Int)) ↔ 2 * (L + N * H) < N * N := by
      omega
    have e2 : (2 * (H : Int) < (N : Int)) ↔ 2 * H < N := by omega
    by_cases hb : 2 * H < N
    · rw [if_pos (e1.2 (hs.2 hb)), if_pos (e2.2 hb), Int.natCast_add, Int.natCast_mul]
    · rw [if_neg fun h => hb (hs.1 (e1.1 h)), if_neg fun h => hb (e2.1 h), Int.mul_sub, Int.natCast_add, Int.natCast_mul,
        Int.natCast_mul N N]
      omega

theorem sooner_iff : ∀ {a b : Bytes}, a.length = b.length → (number a.reverse < number b.reverse ↔ Sooner a b)
  | [], [], _ => iff_of_false (Nat.lt_irrefl _) (nomatch ·)
  | [], _ :: _, h => nomatch h
  | _ :: _, [], h => nomatch h
  | x :: a, y :: b, h => by
    have hl : a.length = b.length := by simpa using h
    have ih := sooner_iff hl
    have ha := number_lt a.reverse
    have hb := number_lt b.reverse
    rw [List.length_reverse] at ha hb
    rw [← hl] at hb
    rw [List.reverse_cons, List.reverse_cons, number_append, number_append, List.length_reverse, List.length_reverse, ← hl]
    have h1 : ∀ z : UInt8, number [z] = z.toNat := fun z => by rw [number_cons]; simp [number]
    rw [h1, h1]
    generalize 256 ^ a.length = P at *
    have hmul : ∀ u v : Nat, u < v → P * u + P ≤ P * v := by
      intro u v huv
      have := Nat.mul_le_mul_left P (Nat.succ_le_of_lt huv)
      rwa [Nat.mul_succ] at this
    constructor
    · intro hlt
      rcases Nat.lt_trichotomy x.toNat y.toNat with hxy | hxy | hxy
      · exact .head (UInt8.lt_iff_toNat_lt.2 hxy)
      · cases UInt8.toNat_inj.1 hxy
        exact .tail (ih.1 (by omega))
      · have := hmul _ _ hxy
        omega
    · intro hs
      cases hs with
      | head hxy =>
        have := hmul _ _ (UInt8.lt_iff_toNat_lt.1 hxy)
        omega
      | tail hs =>
        have := ih.2 hs
        omega

/-- **C124** Unsigned integers in big-endian byte order are in the order of their bytes: of two, the number that is less
is the one whose bytes come sooner in dictionary order. -/
theorem C124_sorted (E : Env) (h : Hdr) (ho : ¬ LeastFirst E h.order) (n : Nat) (hn : n = 1 ∨ n = 2 ∨ n = 4 ∨ n = 8) (m : DMap)
    (hm : createMap E (.prim h (.integer true) (.bytes n) "bytes") = .ok m)
    (bs bs' : Bytes) (off off' d : Nat) (ctx : Ctx) (hl : off + n ≤ bs.length) (hl' : off' + n ≤ bs'.length) :
    ∃ i j : Int, (mapStream E m bs off d ctx).1 = .ok (.int i) ∧ (mapStream E m bs' off' d ctx).1 = .ok (.int j) ∧
      (i < j ↔ Sooner (window bs off n) (window bs' off' n)) := by
  obtain ⟨i, h1, -, h2, h3⟩ := C01_integer_map E h true n hn m hm bs off d ctx hl
  obtain ⟨j, h4, -, h5, h6⟩ := C01_integer_map E h true n hn m hm bs' off' d ctx hl'
  simp only [if_true] at h3 h6
  refine ⟨i, j, h1, h4, ?_⟩
  rw [unsigned_unique h2 h3.1 h3.2, unsigned_unique h5 h6.1 h6.2, stored, stored, if_neg ho, if_neg ho,
    Int.ofNat_lt, sooner_iff (by rw [window_length hl, window_length hl'])]

/-! ### Examples -/

example : ∃ m m' w, createMap exEnv (.prim { name := "u" } (.integer true) (.bytes 2) "bytes") = .ok m ∧
    createMap exEnv (.prim { name := "s" } (.integer false) (.bytes 2) "bytes") = .ok m' ∧
    createMap exEnv (.prim { name := "w" } (.integer false) (.bytes 4) "bytes") = .ok w ∧
    (mapStream exEnv m [0, 0xfe, 0xff] 1 0 {}).1 = .ok (.int 65534) ∧
    (mapStream exEnv m' [0, 0xfe, 0xff] 1 0 {}).1 = .ok (.int (-2)) ∧
    (mapStream exEnv w [3, 0, 0xfe, 0xff] 0 0 {}).1 = .ok (.int (3 + 65536 * -2)) :=
  ⟨_, _, _, rfl, rfl, rfl, rfl, rfl, rfl⟩

example : ¬ LeastFirst exEnv .big ∧ Sooner [1, 0xff] [2, 0] ∧ ¬ Sooner [2, 0] [1, 0xff] := by
  refine ⟨by rw [leastFirst_iff]; decide, .head (by decide), ?_⟩
  intro h
  cases h with
  | head h => exact absurd h (by decide)

/-- Not so in little-endian byte order. -/
theorem C124_sorted_needs : ∃ (m : DMap) (a b : Bytes), createMap exEnv
      (.prim { name := "u", order := .little } (.integer true) (.bytes 2) "bytes") = .ok m ∧
    Sooner a b ∧ (mapStream exEnv m a 0 0 {}).1 = .ok (.int 65281) ∧ (mapStream exEnv m b 0 0 {}).1 = .ok (.int 2) :=
  ⟨_, [1, 0xff], [2, 0], rfl, .head (by decide), rfl, rfl⟩

end Dtf
