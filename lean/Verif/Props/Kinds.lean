import Verif.Props.IntegerKin
/-!
# Property C127: characters, booleans, floating-point numbers and UUIDs are what the integers at their place say
-/
namespace Dtf
open Spec

theorem uint_at (E : Env) (h : Hdr) (n : Nat) (hn : n = 1 ∨ n = 2 ∨ n = 4 ∨ n = 8) (m : DMap)
    (hm : createMap E (.prim h (.integer true) (.bytes n) "bytes") = .ok m)
    (bs : Bytes) (off d : Nat) (ctx : Ctx) (hl : off + n ≤ bs.length) :
    (mapStream E m bs off d ctx).1 = .ok (.int (stored E h.order (window bs off n))) := by
  obtain ⟨i, h1, -, h2, h3⟩ := C01_integer_map E h true n hn m hm bs off d ctx hl
  simp only [if_true] at h3
  rw [h1, unsigned_unique h2 h3.1 h3.2]

/-- **C127** A character is the one with the number that a signed integer of the same size and byte order reads at the
same place; there is none, and mapping fails, if the number is negative or no code point. -/
theorem C127_character (E : Env) (h h' : Hdr) (ho : h'.order = h.order) (n : Nat) (hn : n = 1 ∨ n = 2 ∨ n = 4) (m m' : DMap)
    (hm : createMap E (.prim h .character (.bytes n) "bytes") = .ok m)
    (hm' : createMap E (.prim h' (.integer false) (.bytes n) "bytes") = .ok m')
    (bs : Bytes) (off d : Nat) (ctx : Ctx) (hl : off + n ≤ bs.length) :
    ∃ i : Int, (mapStream E m' bs off d ctx).1 = .ok (.int i) ∧
      (mapStream E m bs off d ctx).1 = if 0 ≤ i ∧ i ≤ 0x10FFFF then .ok (.str [i.toNat]) else .error .mapping := by
  obtain ⟨i, h1, -, h2, h3⟩ := C01_integer_map E h' false n (by omega) m' hm' bs off d ctx hl
  simp only [Bool.false_eq_true, if_false] at h3
  refine ⟨i, h1, ?_⟩
  have hlt : stored E h.order (window bs off n) < 256 ^ n := by
    have := unsignedOf_lt (E.isLittle h.order) (window bs off n)
    rw [window_length hl] at this
    rw [stored_eq]
    exact this
  have hi := signed_unique (Int.pow_pos (by decide)) h2 h3.1 h3.2
  rw [ho] at hi
  rw [C04_character_map E h n hn m hm bs off d ctx hl _ rfl]
  generalize stored E h.order (window bs off n) = s at hi hlt
  have key : (s < 2 ^ (8 * n - 1) ∧ s ≤ 0x10FFFF ↔ 0 ≤ i ∧ i ≤ 0x10FFFF) ∧ (0 ≤ i → i = s) := by
    rcases hn with rfl | rfl | rfl <;> simp only [Nat.reducePow, Int.reducePow, Nat.reduceMul, Nat.reduceSub] at hi hlt ⊢ <;>
      split at hi <;> omega
  by_cases hc : 0 ≤ i ∧ i ≤ 0x10FFFF
  · rw [if_pos (key.1.mpr hc), if_pos hc, key.2 hc.1]
    rfl
  · rw [if_neg (fun h => hc (key.1.mp h)), if_neg hc]

/-- **C127** A character is folded to the bytes that its number is folded to as a signed integer. -/
theorem C127_character_fold (E : Env) (h h' : Hdr) (ho : h'.order = h.order) (n : Nat) (hn : n = 1 ∨ n = 2 ∨ n = 4)
    (m m' : DMap) (hm : createMap E (.prim h .character (.bytes n) "bytes") = .ok m)
    (hm' : createMap E (.prim h' (.integer false) (.bytes n) "bytes") = .ok m') (c : Nat) (ns : Namespace) :
    fold E m (.str [c]) ns = fold E m' (.int c) ns := by
  obtain rfl := createMap_prim _ _ _ _ _ _ hm
  obtain rfl := createMap_prim _ _ _ _ _ _ hm'
  rcases hn with rfl | rfl | rfl
  · rw [prim_fold_eq E h _ _ _ .b rfl, prim_fold_eq E h' _ _ _ .b rfl, ho]; simp only [foldValue]
  · rw [prim_fold_eq E h _ _ _ .h rfl, prim_fold_eq E h' _ _ _ .h rfl, ho]; simp only [foldValue]
  · rw [prim_fold_eq E h _ _ _ .i rfl, prim_fold_eq E h' _ _ _ .i rfl, ho]; simp only [foldValue]

/-- **C127** A boolean compares the number that an unsigned integer of the same size and byte order reads at the same place
with its values for false and true; if it is neither, the result is the one that has no value. -/
theorem C127_boolean (E : Env) (h h' : Hdr) (ho : h'.order = h.order) (f t : Option Int) (n : Nat)
    (hn : n = 1 ∨ n = 2 ∨ n = 4) (m m' : DMap)
    (hm : createMap E (.prim h (.boolean f t) (.bytes n) "bytes") = .ok m)
    (hm' : createMap E (.prim h' (.integer true) (.bytes n) "bytes") = .ok m')
    (bs : Bytes) (off d : Nat) (ctx : Ctx) (hl : off + n ≤ bs.length) :
    ∃ i : Int, (mapStream E m' bs off d ctx).1 = .ok (.int i) ∧
      (mapStream E m bs off d ctx).1 =
        if f = some i then .ok (.bool false)
        else if t = some i then .ok (.bool true)
        else if f = none then .ok (.bool false)
        else if t = none then .ok (.bool true)
        else .error .mapping := by
  refine ⟨_, uint_at E h' n (by omega) m' hm' bs off d ctx hl, ?_⟩
  rw [ho]
  obtain ⟨h1, h2, h3, h4, h5⟩ := C03_boolean_map E h f t n hn m hm bs off d ctx hl _ rfl
  split
  · exact h1 ‹_›
  split
  · exact h2 ‹_› ‹_›
  split
  · exact h3 ‹_› ‹_›
  split
  · exact h4 ‹_› ‹_› ‹_›
  · exact h5 ‹_› ‹_› ‹_› ‹_›

/-- **C127** A boolean is folded to the bytes that its value for false or true is folded to as an unsigned integer, and not
at all if it has none. -/
theorem C127_boolean_fold (E : Env) (h h' : Hdr) (ho : h'.order = h.order) (f t : Option Int) (n : Nat)
    (hn : n = 1 ∨ n = 2 ∨ n = 4) (m m' : DMap)
    (hm : createMap E (.prim h (.boolean f t) (.bytes n) "bytes") = .ok m)
    (hm' : createMap E (.prim h' (.integer true) (.bytes n) "bytes") = .ok m') (v : Bool) (ns : Namespace) :
    (∀ x, (if v then t else f) = some x → fold E m (.bool v) ns = fold E m' (.int x) ns) ∧
      ((if v then t else f) = none → fold E m (.bool v) ns = .error .folding) := by
  obtain rfl := createMap_prim _ _ _ _ _ _ hm
  obtain rfl := createMap_prim _ _ _ _ _ _ hm'
  rcases hn with rfl | rfl | rfl
  · rw [prim_fold_eq E h _ _ _ .B rfl, ← ho]
    constructor
    · intro x hx; rw [prim_fold_eq E h' _ _ _ .B rfl]; cases v <;> cases hx <;> rfl
    · intro hx; cases v <;> cases hx <;> rfl
  · rw [prim_fold_eq E h _ _ _ .H rfl, ← ho]
    constructor
    · intro x hx; rw [prim_fold_eq E h' _ _ _ .H rfl]; cases v <;> cases hx <;> rfl
    · intro hx; cases v <;> cases hx <;> rfl
  · rw [prim_fold_eq E h _ _ _ .I rfl, ← ho]
    constructor
    · intro x hx; rw [prim_fold_eq E h' _ _ _ .I rfl]; cases v <;> cases hx <;> rfl
    · intro hx; cases v <;> cases hx <;> rfl

/-- **C127** The bits of a floating-point number are the number that an unsigned integer of the same size and byte order
reads at the same place, those of single precision after conversion to double precision. -/
theorem C127_float (E : Env) (h h' : Hdr) (ho : h'.order = h.order) (n : Nat) (hn : n = 4 ∨ n = 8) (m m' : DMap)
    (hm : createMap E (.prim h .floatingPoint (.bytes n) "bytes") = .ok m)
    (hm' : createMap E (.prim h' (.integer true) (.bytes n) "bytes") = .ok m')
    (bs : Bytes) (off d : Nat) (ctx : Ctx) (hl : off + n ≤ bs.length) :
    ∃ i : Nat, (mapStream E m' bs off d ctx).1 = .ok (.int i) ∧
      (mapStream E m bs off d ctx).1 = .ok (.float (if n = 4 then E.f32to64 i else i)) := by
  refine ⟨_, uint_at E h' n (by omega) m' hm' bs off d ctx hl, ?_⟩
  obtain rfl := createMap_prim _ _ _ _ _ _ hm
  rw [ho, stored_eq]
  rcases hn with rfl | rfl
  · rw [prim_map_eq E h _ 4 .f rfl bs off d ctx hl]; rfl
  · rw [prim_map_eq E h _ 8 .d rfl bs off d ctx hl]; rfl

/-- **C127** The fields of a UUID are what a structure of an integer of four bytes, two of two bytes and eight single bytes
in the byte order of the UUID has: the first bytes of the UUID are the digits of the integers, most significant first. -/
theorem C127_uuid (E : Env) (h h4 h2 : Hdr) (hord : h.order ≠ .native) (ho4 : h4.order = h.order) (ho2 : h2.order = h.order)
    (m m4 m2 : DMap) (hm : createMap E (.uuid h (.bytes 16) "bytes") = .ok m)
    (hm4 : createMap E (.prim h4 (.integer true) (.bytes 4) "bytes") = .ok m4)
    (hm2 : createMap E (.prim h2 (.integer true) (.bytes 2) "bytes") = .ok m2)
    (bs : Bytes) (off d : Nat) (ctx : Ctx) (hl : off + 16 ≤ bs.length) :
    ∃ u : Bytes, (mapStream E m bs off d ctx).1 = .ok (.uuid u) ∧ u.length = 16 ∧
      (mapStream E m4 bs off d ctx).1 = .ok (.int (number (window u 0 4).reverse)) ∧
      (mapStream E m2 bs (off + 4) d ctx).1 = .ok (.int (number (window u 4 2).reverse)) ∧
      (mapStream E m2 bs (off + 6) d ctx).1 = .ok (.int (number (window u 6 2).reverse)) ∧
      window bs (off + 8) 8 = window u 8 8 := by
  rw [uint_at E h4 4 (by omega) m4 hm4 bs off d ctx (by omega), uint_at E h2 2 (by omega) m2 hm2 bs (off + 4) d ctx (by omega),
    uint_at E h2 2 (by omega) m2 hm2 bs (off + 6) d ctx (by omega), ho4, ho2]
  have hsplit : bs = bs.take off ++ window bs off 16 ++ bs.drop (off + 16) := by
    rw [window, List.append_assoc, ← List.drop_drop, List.take_append_drop, List.take_append_drop]
  have hlen : (window bs off 16).length = 16 := window_length hl
  have hw : ∀ k n, k + n ≤ 16 → window bs (off + k) n = window (window bs off 16) k n := by
    intro k n hk
    simp only [window]
    rw [List.drop_take, List.drop_drop, List.take_take, Nat.min_eq_left (by omega)]
  have hw0 := hw 0 4 (by omega)
  rw [Nat.add_zero] at hw0
  rw [hw0, hw 4 2 (by omega), hw 6 2 (by omega), hw 8 8 (by omega)]
  have hoff : (bs.take off).length = off := by rw [List.length_take]; omega
  generalize window bs off 16 = w at hsplit hlen
  match w, hlen with
  | [a0, a1, a2, a3, a4, a5, a6, a7, a8, a9, a10, a11, a12, a13, a14, a15], _ =>
    have h6 := (C06_uuid E h m hm hord (bs.take off) (bs.drop (off + 16)) a0 a1 a2 a3 a4 a5 a6 a7 a8 a9 a10 a11 a12 a13 a14
      a15 d ctx []).1
    rw [← hsplit, hoff] at h6
    refine ⟨_, h6, ?_⟩
    cases ho : h.order with
    | native => exact absurd ho hord
    | little => simp [window, stored, LeastFirst]
    | big => simp [window, stored, LeastFirst]

/-! ### Examples -/

/-- Maps of all kinds, and bytes they are mapped from. -/
example : ∃ c b i u, createMap exEnv (.prim { name := "c", order := .big } .character (.bytes 2) "bytes") = .ok c ∧
    createMap exEnv (.prim { name := "b", order := .big } (.boolean (some 0) none) (.bytes 2) "bytes") = .ok b ∧
    createMap exEnv (.prim { name := "i", order := .big } (.integer false) (.bytes 2) "bytes") = .ok i ∧
    createMap exEnv (.prim { name := "u", order := .big } (.integer true) (.bytes 2) "bytes") = .ok u ∧
    (mapStream exEnv c [9, 0, 65] 1 0 {}).1 = .ok (.str [65]) ∧ (mapStream exEnv i [9, 0, 65] 1 0 {}).1 = .ok (.int 65) ∧
    (mapStream exEnv b [9, 0, 65] 1 0 {}).1 = .ok (.bool true) ∧
    (mapStream exEnv c [9, 0x80, 65] 1 0 {}).1 = .error .mapping ∧
    (mapStream exEnv i [9, 0x80, 65] 1 0 {}).1 = .ok (.int (-32703)) ∧
    (mapStream exEnv u [9, 0x80, 65] 1 0 {}).1 = .ok (.int 32833) :=
  ⟨_, _, _, _, rfl, rfl, rfl, rfl, rfl, rfl, rfl, rfl, rfl, rfl⟩

/-- A UUID and the integer of its first four bytes. -/
example : ∃ m m4, createMap exEnv (.uuid { name := "g", order := .little } (.bytes 16) "bytes") = .ok m ∧
    createMap exEnv (.prim { name := "u", order := .little } (.integer true) (.bytes 4) "bytes") = .ok m4 ∧
    (mapStream exEnv m [1, 2, 3, 4, 5, 6, 7, 8, 9, 10, 11, 12, 13, 14, 15, 16] 0 0 {}).1 =
      .ok (.uuid [4, 3, 2, 1, 6, 5, 8, 7, 9, 10, 11, 12, 13, 14, 15, 16]) ∧
    (mapStream exEnv m4 [1, 2, 3, 4, 5, 6, 7, 8, 9, 10, 11, 12, 13, 14, 15, 16] 0 0 {}).1 = .ok (.int 0x04030201) :=
  ⟨_, _, rfl, rfl, rfl, rfl⟩

end Dtf
