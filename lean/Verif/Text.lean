import Verif.Spec
/-!
# Text encodings of CPython

What `bytes.decode` and `str.encode` (data_maps.py:1533 and 1579) do for the encodings
ASCII, UTF-8, UTF-16-LE and UTF-16-BE with the default error handler, which raises an
exception. The model takes the codecs as parameters of `Env`; this file gives four of
them a definition and proves the laws the properties about strings need. Texts are lists
of code points.
-/
namespace Dtf

namespace Spec

/-- Unicode scalar values: the code points that are no surrogates. -/
def Scalar (c : Nat) : Prop := c < 0xD800 ∨ (0xE000 ≤ c ∧ c < 0x110000)

instance (c : Nat) : Decidable (Scalar c) := by unfold Scalar; infer_instance

/-- The encodings. -/
inductive Encoding
  | ascii
  | utf8
  | utf16 (little : Bool)
deriving DecidableEq

/-- The size of a code unit in bytes. -/
def Encoding.unit : Encoding → Nat
  | .ascii | .utf8 => 1
  | .utf16 _ => 2

/-- The code points an encoding can represent. -/
def Encoding.Has : Encoding → Nat → Prop
  | .ascii, c => c < 128
  | _, c => Scalar c

end Spec
open Spec

/-- The two bytes of a UTF-16 code unit. -/
def unitBytes (little : Bool) (u : Nat) : Bytes :=
  if little then [UInt8.ofNat (u % 256), UInt8.ofNat (u / 256)]
  else [UInt8.ofNat (u / 256), UInt8.ofNat (u % 256)]

/-- The bytes of one code point; `none` is a `UnicodeEncodeError`. -/
def Spec.Encoding.put : Encoding → Nat → Option Bytes
  | .ascii, c => if c < 128 then some [UInt8.ofNat c] else none
  | .utf8, c =>
    if c < 0x80 then some [UInt8.ofNat c]
    else if c < 0x800 then some [UInt8.ofNat (0xC0 + c / 64), UInt8.ofNat (0x80 + c % 64)]
    else if Scalar c then
      if c < 0x10000 then
        some [UInt8.ofNat (0xE0 + c / 4096), UInt8.ofNat (0x80 + c / 64 % 64), UInt8.ofNat (0x80 + c % 64)]
      else
        some [UInt8.ofNat (0xF0 + c / 262144), UInt8.ofNat (0x80 + c / 4096 % 64),
          UInt8.ofNat (0x80 + c / 64 % 64), UInt8.ofNat (0x80 + c % 64)]
    else none
  | .utf16 little, c =>
    if Scalar c then
      if c < 0x10000 then some (unitBytes little c)
      else some (unitBytes little (0xD800 + (c - 0x10000) / 1024) ++
        unitBytes little (0xDC00 + (c - 0x10000) % 1024))
    else none

/-- `str.encode`. -/
def Spec.Encoding.encode (K : Encoding) : List Nat → Option Bytes
  | [] => some []
  | c :: cs => (K.put c).bind fun a => (K.encode cs).map (a ++ ·)

/-- The value of a UTF-8 continuation byte. -/
def continuation (b : UInt8) : Option Nat :=
  if 0x80 ≤ b.toNat ∧ b.toNat < 0xC0 then some (b.toNat - 0x80) else none

/-- The value of a UTF-16 code unit. -/
def unitValue (little : Bool) (a b : UInt8) : Nat :=
  if little then a.toNat + 256 * b.toNat else b.toNat + 256 * a.toNat

/-- The first code point of some bytes and the bytes after it; `none` is a
`UnicodeDecodeError`. Overlong forms, surrogates in UTF-8 and lone surrogates in UTF-16
are errors, as in CPython. -/
def Spec.Encoding.get : Encoding → Bytes → Option (Nat × Bytes)
  | .ascii, b :: r => if b.toNat < 128 then some (b.toNat, r) else none
  | .utf8, b :: r =>
    if b.toNat < 0x80 then some (b.toNat, r)
    else if 0xC2 ≤ b.toNat ∧ b.toNat < 0xE0 then
      match r with
      | b1 :: r => (continuation b1).map fun x => ((b.toNat - 0xC0) * 64 + x, r)
      | _ => none
    else if 0xE0 ≤ b.toNat ∧ b.toNat < 0xF0 then
      match r with
      | b1 :: b2 :: r =>
        (continuation b1).bind fun x => (continuation b2).bind fun y =>
          let c := (b.toNat - 0xE0) * 4096 + x * 64 + y
          if 0x800 ≤ c ∧ Scalar c then some (c, r) else none
      | _ => none
    else if 0xF0 ≤ b.toNat ∧ b.toNat < 0xF5 then
      match r with
      | b1 :: b2 :: b3 :: r =>
        (continuation b1).bind fun x => (continuation b2).bind fun y => (continuation b3).bind fun z =>
          let c := (b.toNat - 0xF0) * 262144 + x * 4096 + y * 64 + z
          if 0x10000 ≤ c ∧ Scalar c then some (c, r) else none
      | _ => none
    else none
  | .utf16 little, a :: b :: r =>
    let u := unitValue little a b
    if u < 0xD800 ∨ 0xE000 ≤ u then some (u, r)
    else if u < 0xDC00 then
      match r with
      | a' :: b' :: r =>
        let l := unitValue little a' b'
        if 0xDC00 ≤ l ∧ l < 0xE000 then some (0x10000 + (u - 0xD800) * 1024 + (l - 0xDC00), r) else none
      | _ => none
    else none
  | _, _ => none

/-- The code points of at most `n` steps. -/
def Spec.Encoding.decodeN (K : Encoding) : Nat → Bytes → Option (List Nat)
  | _, [] => some []
  | 0, _ :: _ => none
  | n + 1, b :: r => (K.get (b :: r)).bind fun x => (K.decodeN n x.2).map (x.1 :: ·)

/-- `bytes.decode`. -/
def Spec.Encoding.decode (K : Encoding) (b : Bytes) : Option (List Nat) := K.decodeN b.length b

/-- The environment uses this codec for the encoding called `enc`. -/
structure Uses (E : Env) (enc : String) (K : Encoding) : Prop where
  encode : E.encode enc = K.encode
  decode : E.decode enc = K.decode

/-! ### One code point -/

theorem ofNat_toNat_lt {n : Nat} (h : n < 256) : (UInt8.ofNat n).toNat = n := by
  simp [UInt8.toNat_ofNat']; omega

theorem toNat_ofNat_eq {b : UInt8} {n : Nat} (h : n = b.toNat) : UInt8.ofNat n = b := by
  subst h; exact UInt8.ofNat_toNat

theorem unitValue_unitBytes (little : Bool) (u : Nat) (hu : u < 65536) :
    ∃ a b, unitBytes little u = [a, b] ∧ unitValue little a b = u := by
  cases little
  · refine ⟨_, _, rfl, ?_⟩
    simp only [unitValue, Bool.false_eq_true, if_false]
    rw [ofNat_toNat_lt (by omega), ofNat_toNat_lt (by omega)]; omega
  · refine ⟨_, _, rfl, ?_⟩
    simp only [unitValue, if_true]
    rw [ofNat_toNat_lt (by omega), ofNat_toNat_lt (by omega)]; omega

theorem unitBytes_unitValue (little : Bool) (a b : UInt8) : unitBytes little (unitValue little a b) = [a, b] := by
  have h1 := a.toNat_lt
  have h2 := b.toNat_lt
  cases little
  · simp only [unitValue, unitBytes, Bool.false_eq_true, if_false]
    rw [toNat_ofNat_eq (b := a) (by omega), toNat_ofNat_eq (b := b) (by omega)]
  · simp only [unitValue, unitBytes, if_true]
    rw [toNat_ofNat_eq (b := a) (by omega), toNat_ofNat_eq (b := b) (by omega)]

theorem unitValue_lt (little : Bool) (a b : UInt8) : unitValue little a b < 65536 := by
  have h1 := a.toNat_lt
  have h2 := b.toNat_lt
  unfold unitValue; split <;> omega

theorem continuation_of {x : Nat} (h : x < 64) : continuation (UInt8.ofNat (0x80 + x)) = some x := by
  unfold continuation
  rw [ofNat_toNat_lt (by omega), if_pos (by omega)]
  refine congrArg some ?_
  omega

theorem continuation_some {b : UInt8} {x : Nat} (h : continuation b = some x) :
    x < 64 ∧ b.toNat = 0x80 + x := by
  unfold continuation at h
  split at h
  · have h := Option.some.inj h
    omega
  · cases h

theorem Spec.Encoding.put_has (K : Encoding) (c : Nat) : (∃ a, K.put c = some a) ↔ K.Has c := by
  cases K with
  | ascii => simp only [put, Has]; split <;> simp <;> omega
  | utf8 => simp only [put, Has]; (repeat' split) <;> simp <;> unfold Scalar at * <;> omega
  | utf16 little =>
    simp only [put, Has]
    split
    · rename_i hs
      split <;> simp [hs]
    · rename_i hs
      simp [hs]

/-- Reading the bytes of a code point gives it back. -/
theorem Spec.Encoding.get_put {K : Encoding} {c : Nat} {a : Bytes} (h : K.put c = some a) (r : Bytes) :
    K.get (a ++ r) = some (c, r) := by
  cases K with
  | ascii =>
    simp only [put] at h
    split at h
    · cases h
      simp only [List.singleton_append, get]
      rw [ofNat_toNat_lt (by omega), if_pos (by assumption)]
    · cases h
  | utf8 =>
    simp only [put] at h
    split at h
    · cases h
      simp only [List.singleton_append, get]
      rw [ofNat_toNat_lt (by omega), if_pos (by assumption)]
    split at h
    · cases h
      simp only [List.cons_append, List.nil_append, get]
      rw [ofNat_toNat_lt (by omega), if_neg (by omega), if_pos (by omega), continuation_of (by omega)]
      simp only [Option.map_some, Option.some.injEq, Prod.mk.injEq, and_true]
      omega
    split at h
    · rename_i hs
      split at h
      · cases h
        simp only [List.cons_append, List.nil_append, get]
        rw [ofNat_toNat_lt (by omega), if_neg (by omega), if_neg (by omega), if_pos (by omega),
          continuation_of (by omega), continuation_of (by omega)]
        simp only [Option.bind_some]
        have hc : (224 + c / 4096 - 224) * 4096 + c / 64 % 64 * 64 + c % 64 = c := by omega
        rw [hc, if_pos ⟨by omega, hs⟩]
      · cases h
        simp only [List.cons_append, List.nil_append, get]
        have hs' := hs
        unfold Scalar at hs'
        rw [ofNat_toNat_lt (by omega), if_neg (by omega), if_neg (by omega), if_neg (by omega), if_pos (by omega),
          continuation_of (by omega), continuation_of (by omega), continuation_of (by omega)]
        simp only [Option.bind_some]
        have hc : (240 + c / 262144 - 240) * 262144 + c / 4096 % 64 * 4096 + c / 64 % 64 * 64 + c % 64 = c := by
          omega
        rw [hc, if_pos ⟨by omega, hs⟩]
    · cases h
  | utf16 little =>
    simp only [put] at h
    split at h
    · rename_i hs
      unfold Scalar at hs
      split at h
      · cases h
        obtain ⟨x, y, h1, h2⟩ := unitValue_unitBytes little c (by omega)
        rw [h1]
        simp only [List.cons_append, List.nil_append, get, h2]
        rw [if_pos (by omega)]
      · cases h
        obtain ⟨x, y, h1, h2⟩ := unitValue_unitBytes little (0xD800 + (c - 0x10000) / 1024) (by omega)
        obtain ⟨x', y', h3, h4⟩ := unitValue_unitBytes little (0xDC00 + (c - 0x10000) % 1024) (by omega)
        rw [h1, h3]
        simp only [List.cons_append, List.nil_append, get, h2, h4]
        rw [if_neg (by omega), if_pos (by omega), if_pos (by omega)]
        simp only [Option.some.injEq, Prod.mk.injEq, and_true]
        omega
    · cases h

/-- What is read is the bytes of the code point. -/
theorem Spec.Encoding.put_get {K : Encoding} {b r : Bytes} {c : Nat} (h : K.get b = some (c, r)) :
    ∃ a, K.put c = some a ∧ b = a ++ r := by
  cases K with
  | ascii =>
    cases b with
    | nil => simp [get] at h
    | cons x b =>
      simp only [get] at h
      split at h
      · cases h
        refine ⟨[x], ?_, rfl⟩
        simp only [put]
        rw [if_pos (by assumption), UInt8.ofNat_toNat]
      · cases h
  | utf8 =>
    cases b with
    | nil => simp [get] at h
    | cons x b =>
      have hx := x.toNat_lt
      simp only [get] at h
      split at h
      · cases h
        refine ⟨[x], ?_, rfl⟩
        simp only [put]
        rw [if_pos (by assumption), UInt8.ofNat_toNat]
      split at h
      · split at h
        · rename_i b1 r'
          cases h1 : continuation b1 with
          | none => simp [h1] at h
          | some y =>
            obtain ⟨y1, y2⟩ := continuation_some h1
            simp only [h1, Option.map_some, Option.some.injEq, Prod.mk.injEq] at h
            obtain ⟨rfl, rfl⟩ := h
            refine ⟨[x, b1], ?_, rfl⟩
            simp only [put]
            rw [if_neg (by omega), if_pos (by omega), toNat_ofNat_eq (b := x) (by omega),
              toNat_ofNat_eq (b := b1) (by omega)]
        · cases h
      split at h
      · split at h
        · rename_i b1 b2 r'
          cases h1 : continuation b1 with
          | none => simp [h1] at h
          | some y =>
          cases h2 : continuation b2 with
          | none => simp [h1, h2] at h
          | some z =>
            obtain ⟨y1, y2⟩ := continuation_some h1
            obtain ⟨z1, z2⟩ := continuation_some h2
            simp only [h1, h2, Option.bind_some] at h
            split at h
            · rename_i hc
              simp only [Option.some.injEq, Prod.mk.injEq] at h
              obtain ⟨rfl, rfl⟩ := h
              refine ⟨[x, b1, b2], ?_, rfl⟩
              simp only [put]
              rw [if_neg (by omega), if_neg (by omega), if_pos hc.2, if_pos (by omega),
                toNat_ofNat_eq (b := x) (by omega), toNat_ofNat_eq (b := b1) (by omega),
                toNat_ofNat_eq (b := b2) (by omega)]
            · cases h
        · cases h
      split at h
      · split at h
        · rename_i b1 b2 b3 r'
          cases h1 : continuation b1 with
          | none => simp [h1] at h
          | some y =>
          cases h2 : continuation b2 with
          | none => simp [h1, h2] at h
          | some z =>
          cases h3 : continuation b3 with
          | none => simp [h1, h2, h3] at h
          | some w =>
            obtain ⟨y1, y2⟩ := continuation_some h1
            obtain ⟨z1, z2⟩ := continuation_some h2
            obtain ⟨w1, w2⟩ := continuation_some h3
            simp only [h1, h2, h3, Option.bind_some] at h
            split at h
            · rename_i hc
              simp only [Option.some.injEq, Prod.mk.injEq] at h
              obtain ⟨rfl, rfl⟩ := h
              refine ⟨[x, b1, b2, b3], ?_, rfl⟩
              simp only [put]
              rw [if_neg (by omega), if_neg (by omega), if_pos hc.2, if_neg (by omega),
                toNat_ofNat_eq (b := x) (by omega), toNat_ofNat_eq (b := b1) (by omega),
                toNat_ofNat_eq (b := b2) (by omega), toNat_ofNat_eq (b := b3) (by omega)]
            · cases h
        · cases h
      · cases h
  | utf16 little =>
    match b with
    | [] => simp [get] at h
    | [x] => simp [get] at h
    | x :: y :: b =>
      have hu := unitValue_lt little x y
      have hb := unitBytes_unitValue little x y
      simp only [get] at h
      split at h
      · cases h
        refine ⟨[x, y], ?_, rfl⟩
        simp only [put]
        rw [if_pos (by unfold Scalar; omega), if_pos (by omega), hb]
      split at h
      · split at h
        · rename_i x' y' r'
          have hb' := unitBytes_unitValue little x' y'
          split at h
          · simp only [Option.some.injEq, Prod.mk.injEq] at h
            obtain ⟨rfl, rfl⟩ := h
            refine ⟨[x, y, x', y'], ?_, rfl⟩
            generalize unitValue little x y = u at *
            generalize unitValue little x' y' = l at *
            simp only [put]
            rw [if_pos (by unfold Scalar; omega), if_neg (by omega),
              show 0xD800 + (0x10000 + (u - 0xD800) * 1024 + (l - 0xDC00) - 0x10000) / 1024 = u by omega,
              show 0xDC00 + (0x10000 + (u - 0xD800) * 1024 + (l - 0xDC00) - 0x10000) % 1024 = l by omega, hb, hb']
            rfl
          · cases h
        · cases h
      · cases h

theorem Spec.Encoding.put_ne {K : Encoding} {c : Nat} {a : Bytes} (h : K.put c = some a) : a ≠ [] := by
  rintro rfl
  have := get_put h []
  cases K <;> simp [get] at this

/-! ### Whole texts -/

theorem Spec.Encoding.encode_has (K : Encoding) (cs : List Nat) :
    (∃ b, K.encode cs = some b) ↔ ∀ c ∈ cs, K.Has c := by
  induction cs with
  | nil => simp [encode]
  | cons c cs ih =>
    have hcons : (∀ x ∈ c :: cs, K.Has x) ↔ K.Has c ∧ ∀ x ∈ cs, K.Has x := by simp
    rw [hcons, ← ih, ← put_has, encode]
    constructor
    · rintro ⟨b, hb⟩
      cases h1 : K.put c with
      | none => simp [h1] at hb
      | some a =>
        cases h2 : K.encode cs with
        | none => simp [h1, h2] at hb
        | some b' => exact ⟨⟨a, rfl⟩, b', rfl⟩
    · rintro ⟨⟨a, ha⟩, b, hb⟩
      exact ⟨a ++ b, by simp [ha, hb]⟩

theorem Spec.Encoding.decodeN_encode {K : Encoding} {cs : List Nat} {b : Bytes} (h : K.encode cs = some b)
    (n : Nat) (hn : b.length ≤ n) : K.decodeN n b = some cs := by
  induction cs generalizing b n with
  | nil => cases h; simp [decodeN]
  | cons c cs ih =>
    simp only [encode] at h
    cases h1 : K.put c with
    | none => simp [h1] at h
    | some a =>
      cases h2 : K.encode cs with
      | none => simp [h1, h2] at h
      | some b' =>
        simp only [h1, h2, Option.bind_some, Option.map_some, Option.some.injEq] at h
        subst h
        have hne := put_ne h1
        have hg := get_put h1 b'
        cases ha : a with
        | nil => exact absurd ha hne
        | cons x a' =>
          rw [ha] at hg hn
          simp only [List.cons_append, List.length_cons, List.length_append] at hg hn ⊢
          cases n with
          | zero => omega
          | succ n =>
            rw [decodeN, hg]
            simp only [Option.bind_some]
            rw [ih h2 n (by omega)]
            rfl

/-- Decoding what was encoded gives the text back. -/
theorem Spec.Encoding.decode_encode {K : Encoding} {cs : List Nat} {b : Bytes} (h : K.encode cs = some b) :
    K.decode b = some cs := decodeN_encode h _ (Nat.le_refl _)

theorem Spec.Encoding.encode_decodeN {K : Encoding} {n : Nat} {b : Bytes} {cs : List Nat}
    (h : K.decodeN n b = some cs) : K.encode cs = some b := by
  induction n generalizing b cs with
  | zero =>
    cases b with
    | nil => simp only [decodeN] at h; cases h; rfl
    | cons x b => simp [decodeN] at h
  | succ n ih =>
    cases b with
    | nil => simp only [decodeN] at h; cases h; rfl
    | cons x b =>
      rw [decodeN] at h
      cases h1 : K.get (x :: b) with
      | none => simp [h1] at h
      | some p =>
        obtain ⟨c, r⟩ := p
        simp only [h1, Option.bind_some] at h
        cases h2 : K.decodeN n r with
        | none => simp [h2] at h
        | some cs' =>
          simp only [h2, Option.map_some, Option.some.injEq] at h
          subst h
          obtain ⟨a, ha, hb⟩ := put_get h1
          rw [encode, ha, ih h2, hb]
          rfl

/-- Encoding what was decoded gives the bytes back. -/
theorem Spec.Encoding.encode_decode {K : Encoding} {b : Bytes} {cs : List Nat} (h : K.decode b = some cs) :
    K.encode cs = some b := encode_decodeN h

/-! ### No terminator in a text without U+0000 -/

/-- A zero code unit. -/
def Spec.Encoding.nul (K : Encoding) : Bytes := List.replicate K.unit 0

theorem Spec.Encoding.nul_length (K : Encoding) : K.nul.length = K.unit := by simp [nul]

theorem ofNat_ne_zero {n : Nat} (h0 : n ≠ 0) (h : n < 256) : UInt8.ofNat n ≠ 0 := by
  intro hn
  have := congrArg UInt8.toNat hn
  rw [ofNat_toNat_lt h] at this
  exact h0 this

theorem unitBytes_ne (little : Bool) {u : Nat} (h0 : u ≠ 0) (h : u < 65536) : unitBytes little u ≠ [0, 0] := by
  obtain ⟨a, b, h1, h2⟩ := unitValue_unitBytes little u h
  rw [h1]
  intro he
  cases he
  apply h0
  rw [← h2]
  cases little <;> rfl

/-- The code units of a code point other than U+0000 are not zero. -/
theorem Spec.Encoding.put_units {K : Encoding} {c : Nat} {a : Bytes} (h : K.put c = some a) (h0 : c ≠ 0) :
    (∃ j, a.length = j * K.unit) ∧ ∀ k, ¬ window a (0 + k * K.nul.length) K.nul.length = K.nul := by
  have one : ∀ x : UInt8, x ≠ 0 → [x] ≠ [0] := by intro x hx h; cases h; exact hx rfl
  cases K with
  | ascii =>
    simp only [put] at h
    split at h
    · cases h
      refine ⟨⟨1, rfl⟩, ?_⟩
      intro k
      match k with
      | 0 => exact one _ (ofNat_ne_zero h0 (by omega))
      | k + 1 => simp [window, nul, unit]
    · cases h
  | utf8 =>
    simp only [put] at h
    split at h
    · cases h
      refine ⟨⟨1, rfl⟩, ?_⟩
      intro k
      match k with
      | 0 => exact one _ (ofNat_ne_zero h0 (by omega))
      | k + 1 => simp [window, nul, unit]
    split at h
    · cases h
      refine ⟨⟨2, rfl⟩, ?_⟩
      intro k
      match k with
      | 0 => exact one _ (ofNat_ne_zero (by omega) (by omega))
      | 1 => exact one _ (ofNat_ne_zero (by omega) (by omega))
      | k + 2 => simp [window, nul, unit]
    split at h
    · rename_i hs
      unfold Scalar at hs
      split at h
      · cases h
        refine ⟨⟨3, rfl⟩, ?_⟩
        intro k
        match k with
        | 0 => exact one _ (ofNat_ne_zero (by omega) (by omega))
        | 1 => exact one _ (ofNat_ne_zero (by omega) (by omega))
        | 2 => exact one _ (ofNat_ne_zero (by omega) (by omega))
        | k + 3 => simp [window, nul, unit]
      · cases h
        refine ⟨⟨4, rfl⟩, ?_⟩
        intro k
        match k with
        | 0 => exact one _ (ofNat_ne_zero (by omega) (by omega))
        | 1 => exact one _ (ofNat_ne_zero (by omega) (by omega))
        | 2 => exact one _ (ofNat_ne_zero (by omega) (by omega))
        | 3 => exact one _ (ofNat_ne_zero (by omega) (by omega))
        | k + 4 => simp [window, nul, unit]
    · cases h
  | utf16 little =>
    simp only [put] at h
    split at h
    · rename_i hs
      unfold Scalar at hs
      split at h
      · cases h
        have hne := unitBytes_ne little h0 (by omega)
        obtain ⟨x, y, h1, -⟩ := unitValue_unitBytes little c (by omega)
        rw [h1] at hne ⊢
        refine ⟨⟨1, rfl⟩, ?_⟩
        intro k
        match k with
        | 0 => exact hne
        | k + 1 => 
          intro hk
          have := congrArg List.length hk
          simp [window, nul, unit] at this
          omega
      · cases h
        have hne1 := unitBytes_ne little (u := 0xD800 + (c - 0x10000) / 1024) (by omega) (by omega)
        have hne2 := unitBytes_ne little (u := 0xDC00 + (c - 0x10000) % 1024) (by omega) (by omega)
        obtain ⟨x, y, h1, -⟩ := unitValue_unitBytes little (0xD800 + (c - 0x10000) / 1024) (by omega)
        obtain ⟨x', y', h3, -⟩ := unitValue_unitBytes little (0xDC00 + (c - 0x10000) % 1024) (by omega)
        rw [h1] at hne1 ⊢
        rw [h3] at hne2 ⊢
        refine ⟨⟨2, rfl⟩, ?_⟩
        intro k
        match k with
        | 0 => exact hne1
        | 1 => exact hne2
        | k + 2 =>
          intro hk
          have := congrArg List.length hk
          simp [window, nul, unit] at this
          omega
    · cases h

theorem Spec.Encoding.unit_pos (K : Encoding) : 0 < K.unit := by cases K <;> simp [unit]

/-- The encoding of a text without U+0000 is made of code units that are not zero. -/
theorem Spec.Encoding.encode_units {K : Encoding} {cs : List Nat} {b : Bytes} (h : K.encode cs = some b)
    (h0 : ∀ c ∈ cs, c ≠ 0) : K.nul.length ∣ b.length ∧
      ∀ k, ¬ window b (0 + k * K.nul.length) K.nul.length = K.nul := by
  induction cs generalizing b with
  | nil =>
    cases h
    refine ⟨⟨0, rfl⟩, ?_⟩
    intro k hk
    have := congrArg List.length hk
    have hp := K.unit_pos
    simp [window, nul] at this
    omega
  | cons c cs ih =>
    simp only [encode] at h
    cases h1 : K.put c with
    | none => simp [h1] at h
    | some a =>
      cases h2 : K.encode cs with
      | none => simp [h1, h2] at h
      | some b' =>
        simp only [h1, h2, Option.bind_some, Option.map_some, Option.some.injEq] at h
        subst h
        obtain ⟨⟨j, hj⟩, hno⟩ := put_units h1 (h0 c List.mem_cons_self)
        obtain ⟨⟨i, hi⟩, hno'⟩ := ih h2 (fun c hc => h0 c (List.mem_cons_of_mem _ hc))
        rw [nul_length] at hi
        refine ⟨⟨j + i, by rw [List.length_append, hj, hi, nul_length, Nat.mul_add, Nat.mul_comm j]⟩, ?_⟩
        intro k hk
        unfold window at *
        rw [nul_length, Nat.zero_add] at *
        by_cases hkj : k < j
        · refine hno k ?_
          rw [Nat.zero_add]
          have hle : k * K.unit + K.unit ≤ j * K.unit := by
            have := Nat.mul_le_mul_right K.unit (Nat.succ_le_of_lt hkj)
            rwa [Nat.succ_mul] at this
          rwa [List.drop_append_of_le_length (by omega),
            List.take_append_of_le_length (by rw [List.length_drop]; omega)] at hk
        · refine hno' (k - j) ?_
          rw [Nat.zero_add]
          have hle : j * K.unit ≤ k * K.unit := Nat.mul_le_mul_right _ (by omega)
          rw [List.drop_append, List.drop_of_length_le (by omega), List.nil_append, hj, ← Nat.sub_mul] at hk
          exact hk

theorem Spec.Encoding.put_zero (K : Encoding) : K.put 0 = some K.nul := by
  cases K with
  | ascii => rfl
  | utf8 => rfl
  | utf16 little => cases little <;> rfl

/-- A text whose encoding has no zero code unit has no U+0000. -/
theorem Spec.Encoding.units_encode {K : Encoding} {cs : List Nat} {b : Bytes} (h : K.encode cs = some b)
    (hb : ∀ k, ¬ window b (0 + k * K.nul.length) K.nul.length = K.nul) : ∀ c ∈ cs, c ≠ 0 := by
  induction cs generalizing b with
  | nil => simp
  | cons c cs ih =>
    simp only [encode] at h
    cases h1 : K.put c with
    | none => simp [h1] at h
    | some a =>
      cases h2 : K.encode cs with
      | none => simp [h1, h2] at h
      | some b' =>
        simp only [h1, h2, Option.bind_some, Option.map_some, Option.some.injEq] at h
        subst h
        have hc : c ≠ 0 := by
          rintro rfl
          rw [put_zero] at h1
          cases h1
          refine hb 0 ?_
          simp [window]
        obtain ⟨⟨j, hj⟩, -⟩ := put_units h1 hc
        intro x hx
        rw [List.mem_cons] at hx
        rcases hx with rfl | hx
        · exact hc
        · refine ih h2 ?_ x hx
          intro k hk
          refine hb (j + k) ?_
          unfold window at *
          rw [nul_length, Nat.zero_add] at *
          rw [Nat.add_mul, ← hj, ← List.drop_drop, List.drop_left]
          exact hk

end Dtf
