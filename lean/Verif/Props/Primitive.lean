import Verif.PrimLemmas
/-!
# Properties C01–C07: primitive values and UUIDs

Every theorem is about the map the factory creates for a definition
(`createMap`) and the calls MapByteStream (`mapStream`) and FoldByteStream
(`fold`) on it, for any context and recursion depth.
-/
namespace Dtf
open Spec

/-- A concrete platform for the examples: little-endian, no expressions. -/
def exEnv : Env where
  evalExpr _ _ := none
  parses _ := true
  decode _ b := some (b.map (·.toNat))
  encode _ cs := some (cs.map UInt8.ofNat)
  f32to64 u := u
  f64to32 u := some u
  intToF64 _ := none
  nativeLittle := true
  isDigit c := c.isDigit
  isAlnum c := c.isAlphanum
  isKeyword s := s == "class"
  pyIdent _ := true
  lower s := s

/-- **C01** An integer map of size 1, 2, 4 or 8 returns the number the `n` bytes
at the offset denote: congruent modulo `256^n` to their positional value in the
declared byte order, and in the range of the declared format. (The congruence and
the range determine the number, so no other bytes matter.) -/
theorem C01_integer_map (E : Env) (h : Hdr) (unsigned : Bool) (n : Nat)
    (hn : n = 1 ∨ n = 2 ∨ n = 4 ∨ n = 8) (m : DMap)
    (hm : createMap E (.prim h (.integer unsigned) (.bytes n) "bytes") = .ok m)
    (bs : Bytes) (off d : Nat) (ctx : Ctx) (hl : off + n ≤ bs.length) :
    ∃ i : Int, (mapStream E m bs off d ctx).1 = .ok (.int i) ∧
      (mapStream E m bs off d ctx).2.byteSize = some n ∧
      i % 256 ^ n = stored E h.order (window bs off n) ∧
      (if unsigned then 0 ≤ i ∧ i < 256 ^ n else -(256 ^ n) ≤ 2 * i ∧ 2 * i < 256 ^ n) := by
  obtain rfl := createMap_prim _ _ _ _ _ _ hm
  obtain ⟨c, hc, hu, -⟩ := intCode_some (u := unsigned) hn
  rw [prim_map_eq E h _ n c hc bs off d ctx hl, hu, stored_eq]
  have hlt := unsignedOf_lt (E.isLittle h.order) (window bs off n)
  rw [window_length hl] at hlt
  generalize unsignedOf (E.isLittle h.order) (window bs off n) = w at *
  refine ⟨_, rfl, rfl, ?_, ?_⟩
  · cases unsigned
    · simpa using toSigned_emod n w hlt
    · have := pow256 n
      simp only [if_true]
      exact Int.emod_eq_of_lt (by omega) (by omega)
  · cases unsigned
    · simpa using toSigned_bounds n w hlt
    · have := pow256 n
      simp only [if_true]
      omega

/-- A signed big-endian number read from the middle of a stream. -/
example : ∃ m, createMap exEnv (.prim { name := "t", order := .big } (.integer false) (.bytes 2)
      "bytes") = .ok m ∧
    (mapStream exEnv m [7, 0xff, 0xfe, 9] 1 0 {}).1 = .ok (.int (-2)) := ⟨_, rfl, rfl⟩

/-- **C02a** FoldByteStream of an integer map succeeds exactly for the numbers
in the range of its size and format and otherwise raises FoldingError; the
result has exactly `n` bytes. -/
theorem C02_integer_fold_range (E : Env) (h : Hdr) (unsigned : Bool) (n : Nat)
    (hn : n = 1 ∨ n = 2 ∨ n = 4 ∨ n = 8) (m : DMap)
    (hm : createMap E (.prim h (.integer unsigned) (.bytes n) "bytes") = .ok m)
    (i : Int) (ns : Namespace) :
    if (if unsigned then 0 ≤ i ∧ i < 256 ^ n else -(256 ^ n) ≤ 2 * i ∧ 2 * i < 256 ^ n) then
      ∃ b : Bytes, fold E m (.int i) ns = .ok (.bytes b) ∧ b.length = n
    else fold E m (.int i) ns = .error .folding := by
  obtain rfl := createMap_prim _ _ _ _ _ _ hm
  obtain ⟨c, hc, -, hp⟩ := intCode_some (u := unsigned) hn
  rw [prim_fold_eq E h _ _ _ c hc]
  simp only [foldValue, Option.bind, hp, Val.toIndex]
  cases unsigned
  · simp only [packInt, Bool.not_false, if_true, Bool.false_eq_true, if_false]
    split <;> simp_all [bytesOf_length]
  · simp only [packInt, Bool.not_true, if_true, Bool.false_eq_true, if_false]
    split <;> simp_all [bytesOf_length]

/-- **C02b** Mapping a folded integer, anywhere in a byte stream, returns it. -/
theorem C02_integer_map_fold (E : Env) (h : Hdr) (unsigned : Bool) (n : Nat)
    (hn : n = 1 ∨ n = 2 ∨ n = 4 ∨ n = 8) (m : DMap)
    (hm : createMap E (.prim h (.integer unsigned) (.bytes n) "bytes") = .ok m)
    (i : Int) (ns : Namespace) (b : Bytes) (hf : fold E m (.int i) ns = .ok (.bytes b))
    (pre suf : Bytes) (d : Nat) (ctx : Ctx) :
    (mapStream E m (pre ++ b ++ suf) pre.length d ctx).1 = .ok (.int i) := by
  obtain rfl := createMap_prim _ _ _ _ _ _ hm
  obtain ⟨c, hc, hu, hp⟩ := intCode_some (u := unsigned) hn
  rw [prim_fold_eq E h _ _ _ c hc] at hf
  simp only [foldValue, Option.bind, hp, Val.toIndex] at hf
  have hb : packInt (E.isLittle h.order) n (!unsigned) i = some b := by
    revert hf; cases packInt (E.isLittle h.order) n (!unsigned) i <;> simp
  have hbl := packInt_length hb
  rw [prim_map_eq E h _ n c hc _ _ _ _ (by simp [hbl]), hu]
  rw [← hbl, window_append, hbl]
  have hpow := pow256 n
  unfold packInt at hb
  cases unsigned
  · simp only [Bool.not_false, if_true] at hb
    split at hb
    · rename_i h2
      simp only [Option.some.injEq] at hb
      subst hb
      rw [unsignedOf_bytesOf]
      have hlt : (i % 256 ^ n).toNat < 256 ^ n := by
        have h3 := Int.emod_lt_of_pos i (b := 256 ^ n) (by
          have : 0 < 256 ^ n := Nat.pow_pos (by decide)
          omega)
        have h4 := Int.emod_nonneg i (b := 256 ^ n) (by
          have : 0 < 256 ^ n := Nat.pow_pos (by decide)
          omega)
        omega
      rw [Nat.mod_eq_of_lt hlt, toSigned_mod n i h2.1 h2.2]
      rfl
    · simp at hb
  · simp only [Bool.not_true, Bool.false_eq_true, if_false] at hb
    split at hb
    · rename_i h2
      simp only [Option.some.injEq] at hb
      subst hb
      rw [unsignedOf_bytesOf]
      rw [Nat.mod_eq_of_lt (by omega)]
      have : ((i.toNat : Nat) : Int) = i := Int.toNat_of_nonneg h2.1
      simp [this, mapValue]
    · simp at hb

/-- **C02c** Folding a mapped integer returns the bytes it was read from. -/
theorem C02_integer_fold_map (E : Env) (h : Hdr) (unsigned : Bool) (n : Nat)
    (hn : n = 1 ∨ n = 2 ∨ n = 4 ∨ n = 8) (m : DMap)
    (hm : createMap E (.prim h (.integer unsigned) (.bytes n) "bytes") = .ok m)
    (bs : Bytes) (off d : Nat) (ctx : Ctx) (hl : off + n ≤ bs.length) (v : Val)
    (hv : (mapStream E m bs off d ctx).1 = .ok v) (ns : Namespace) :
    fold E m v ns = .ok (.bytes (window bs off n)) := by
  obtain rfl := createMap_prim _ _ _ _ _ _ hm
  obtain ⟨c, hc, hu, hp⟩ := intCode_some (u := unsigned) hn
  rw [prim_map_eq E h _ n c hc bs off d ctx hl, hu] at hv
  simp only [mapValue, Except.ok.injEq] at hv
  subst hv
  rw [prim_fold_eq E h _ _ _ c hc]
  simp only [foldValue, Option.bind, hp, Val.toIndex]
  have hlen := window_length hl
  have hlt := unsignedOf_lt (E.isLittle h.order) (window bs off n)
  have hinv := bytesOf_unsignedOf (E.isLittle h.order) (window bs off n)
  rw [hlen] at hlt hinv
  generalize unsignedOf (E.isLittle h.order) (window bs off n) = w at *
  have hpow := pow256 n
  unfold packInt
  cases unsigned
  · simp only [Bool.not_false, if_true, Bool.false_eq_true, if_false]
    rw [if_pos (toSigned_bounds n w hlt), toSigned_emod n w hlt]
    simp [hinv]
  · simp only [Bool.not_true, if_true, Bool.false_eq_true, if_false]
    rw [if_pos (by omega)]
    simp [hinv]

/-- Folding the number of the previous example gives its bytes; 32768 does not fit. -/
example : ∃ m, createMap exEnv (.prim { name := "t", order := .big } (.integer false) (.bytes 2)
      "bytes") = .ok m ∧
    fold exEnv m (.int (-2)) [] = .ok (.bytes [0xff, 0xfe]) ∧
    fold exEnv m (.int 32768) [] = .error .folding := ⟨_, rfl, rfl, rfl⟩

/-- **C03a** A boolean map: the stored number equal to false_value is False,
equal to true_value is True; if one of the two is unset every other number maps
to that one; if both are set every other number is a MappingError. -/
theorem C03_boolean_map (E : Env) (h : Hdr) (f t : Option Int) (n : Nat)
    (hn : n = 1 ∨ n = 2 ∨ n = 4) (m : DMap)
    (hm : createMap E (.prim h (.boolean f t) (.bytes n) "bytes") = .ok m)
    (bs : Bytes) (off d : Nat) (ctx : Ctx) (hl : off + n ≤ bs.length) (x : Int)
    (hx : x = stored E h.order (window bs off n)) :
    (f = some x → (mapStream E m bs off d ctx).1 = .ok (.bool false)) ∧
    (f ≠ some x → t = some x → (mapStream E m bs off d ctx).1 = .ok (.bool true)) ∧
    (f = none → t ≠ some x → (mapStream E m bs off d ctx).1 = .ok (.bool false)) ∧
    (t = none → f ≠ some x → f ≠ none → (mapStream E m bs off d ctx).1 = .ok (.bool true)) ∧
    (f ≠ none → t ≠ none → f ≠ some x → t ≠ some x →
      (mapStream E m bs off d ctx).1 = .error .mapping) := by
  obtain rfl := createMap_prim _ _ _ _ _ _ hm
  obtain ⟨c, hc, hu⟩ : ∃ c, primCode (.boolean f t) (.bytes n) = some c ∧
      ∀ E o bs, unpackOne E o c bs = .int (unsignedOf (E.isLittle o) bs) := by
    rcases hn with rfl | rfl | rfl
    · exact ⟨.B, rfl, fun _ _ _ => rfl⟩
    · exact ⟨.H, rfl, fun _ _ _ => rfl⟩
    · exact ⟨.I, rfl, fun _ _ _ => rfl⟩
  rw [prim_map_eq E h _ n c hc bs off d ctx hl, hu]
  rw [stored_eq] at hx
  rw [← hx]
  have e : ∀ y : Int, pyEq (.int x) (.int y) = (x == y) := fun _ => rfl
  simp only [mapValue, e]
  rcases f with _ | f <;> rcases t with _ | t <;>
    simp [eq_comm (a := x)] <;> grind

/-- false_value 0 and true_value 3. -/
example : ∃ m, createMap exEnv (.prim { name := "t" } (.boolean (some 0) (some 3)) (.bytes 1)
      "bytes") = .ok m ∧
    (mapStream exEnv m [0, 3, 4] 0 0 {}).1 = .ok (.bool false) ∧
    (mapStream exEnv m [0, 3, 4] 1 0 {}).1 = .ok (.bool true) ∧
    (mapStream exEnv m [0, 3, 4] 2 0 {}).1 = .error .mapping := ⟨_, rfl, rfl, rfl, rfl⟩

/-- **C03b** Folding a boolean whose number is unset is a FoldingError; when
folding succeeds the bytes hold the configured number, and mapping them gives the
boolean back if the two numbers differ. -/
theorem C03_boolean_fold (E : Env) (h : Hdr) (f t : Option Int) (n : Nat)
    (hn : n = 1 ∨ n = 2 ∨ n = 4) (m : DMap)
    (hm : createMap E (.prim h (.boolean f t) (.bytes n) "bytes") = .ok m)
    (v : Bool) (ns : Namespace) (pre suf : Bytes) (d : Nat) (ctx : Ctx) :
    match (if v then t else f) with
    | none => fold E m (.bool v) ns = .error .folding
    | some x =>
      if 0 ≤ x ∧ x < 256 ^ n then
        ∃ b : Bytes, fold E m (.bool v) ns = .ok (.bytes b) ∧ b.length = n ∧
          x = stored E h.order b ∧
          (f ≠ t → (mapStream E m (pre ++ b ++ suf) pre.length d ctx).1 = .ok (.bool v))
      else fold E m (.bool v) ns = .error .folding := by
  have hm' := hm
  obtain rfl := createMap_prim _ _ _ _ _ _ hm
  obtain ⟨c, hc, hp⟩ : ∃ c, primCode (.boolean f t) (.bytes n) = some c ∧
      ∀ E o v, packOne E o c v = v.toIndex.bind (packInt (E.isLittle o) n false) := by
    rcases hn with rfl | rfl | rfl
    · exact ⟨.B, rfl, fun _ _ _ => rfl⟩
    · exact ⟨.H, rfl, fun _ _ _ => rfl⟩
    · exact ⟨.I, rfl, fun _ _ _ => rfl⟩
  rw [prim_fold_eq E h _ _ _ c hc]
  have e : foldValue (.boolean f t) (.bool v) = (if v then t else f).map .int := by
    cases v <;> rfl
  rw [e]
  cases hft : (if v then t else f) with
  | none => rfl
  | some x =>
    have hpow := pow256 n
    simp only [Option.map, Option.bind, hp, Val.toIndex, packInt, Bool.false_eq_true, if_false]
    split
    · rename_i hr
      refine ⟨_, rfl, bytesOf_length _ _ _, ?_, ?_⟩
      · rw [stored_eq, unsignedOf_bytesOf, Nat.mod_eq_of_lt (by omega)]
        omega
      · intro hne
        have hlen := bytesOf_length (E.isLittle h.order) n x.toNat
        have hmap := C03_boolean_map E h f t n hn _ hm' (pre ++ bytesOf (E.isLittle h.order) n x.toNat
          ++ suf) pre.length d ctx (by simp [hlen]) x (by
            rw [window_append' _ _ _ _ hlen, stored_eq, unsignedOf_bytesOf, Nat.mod_eq_of_lt (by omega)]
            omega)
        cases v
        · exact hmap.1 hft
        · have hft : t = some x := hft
          exact hmap.2.1 (by rw [← hft]; exact hne) hft
    · rfl

/-- **C04a** A character map of size `n` maps the stored code point `c` to
`chr(c)` exactly when the sign bit is clear and `c ≤ 0x10FFFF`, otherwise it
raises MappingError. -/
theorem C04_character_map (E : Env) (h : Hdr) (n : Nat) (hn : n = 1 ∨ n = 2 ∨ n = 4) (m : DMap)
    (hm : createMap E (.prim h .character (.bytes n) "bytes") = .ok m)
    (bs : Bytes) (off d : Nat) (ctx : Ctx) (hl : off + n ≤ bs.length) (c : Nat)
    (hc : c = stored E h.order (window bs off n)) :
    (mapStream E m bs off d ctx).1 =
      if c < 2 ^ (8 * n - 1) ∧ c ≤ 0x10FFFF then .ok (.str [c]) else .error .mapping := by
  obtain rfl := createMap_prim _ _ _ _ _ _ hm
  obtain ⟨k, hk, hu⟩ : ∃ k, primCode .character (.bytes n) = some k ∧
      ∀ E o bs, unpackOne E o k bs = .int (toSigned n (unsignedOf (E.isLittle o) bs)) := by
    rcases hn with rfl | rfl | rfl
    · exact ⟨.b, rfl, fun _ _ _ => rfl⟩
    · exact ⟨.h, rfl, fun _ _ _ => rfl⟩
    · exact ⟨.i, rfl, fun _ _ _ => rfl⟩
  rw [prim_map_eq E h _ n k hk bs off d ctx hl, hu]
  rw [stored_eq] at hc
  have hlt := unsignedOf_lt (E.isLittle h.order) (window bs off n)
  rw [window_length hl, ← hc] at hlt
  rw [← hc]
  have hpw : 256 ^ n = 2 * 2 ^ (8 * n - 1) := by rcases hn with rfl | rfl | rfl <;> decide
  have hpow := pow256 n
  have hts : toSigned n c = if 2 * c < 256 ^ n then (c : Int) else (c : Int) - 256 ^ n := rfl
  generalize toSigned n c = i at *
  simp only [mapValue]
  by_cases h1 : c < 2 ^ (8 * n - 1)
  · rw [if_pos (by omega : 2 * c < 256 ^ n)] at hts
    by_cases h2 : c ≤ 0x10FFFF
    · rw [if_pos (by omega), if_pos ⟨h1, h2⟩]
      simp [hts]
    · rw [if_neg (by omega), if_neg (by omega)]
  · rw [if_neg (by omega : ¬ 2 * c < 256 ^ n)] at hts
    rw [if_neg (by omega), if_neg (by omega)]

/-- **C04b** Folding a one-character string succeeds exactly for code points
below `2^(8n-1)`; mapping the result gives the string back. -/
theorem C04_character_fold (E : Env) (h : Hdr) (n : Nat) (hn : n = 1 ∨ n = 2 ∨ n = 4) (m : DMap)
    (hm : createMap E (.prim h .character (.bytes n) "bytes") = .ok m)
    (c : Nat) (hc : c ≤ 0x10FFFF) (ns : Namespace) (pre suf : Bytes) (d : Nat) (ctx : Ctx) :
    if c < 2 ^ (8 * n - 1) then
      ∃ b : Bytes, fold E m (.str [c]) ns = .ok (.bytes b) ∧ b.length = n ∧
        (mapStream E m (pre ++ b ++ suf) pre.length d ctx).1 = .ok (.str [c])
    else fold E m (.str [c]) ns = .error .folding := by
  have hm' := hm
  obtain rfl := createMap_prim _ _ _ _ _ _ hm
  obtain ⟨k, hk, hp⟩ : ∃ k, primCode .character (.bytes n) = some k ∧
      ∀ E o v, packOne E o k v = v.toIndex.bind (packInt (E.isLittle o) n true) := by
    rcases hn with rfl | rfl | rfl
    · exact ⟨.b, rfl, fun _ _ _ => rfl⟩
    · exact ⟨.h, rfl, fun _ _ _ => rfl⟩
    · exact ⟨.i, rfl, fun _ _ _ => rfl⟩
  rw [prim_fold_eq E h _ _ _ k hk]
  simp only [foldValue, Option.bind, hp, Val.toIndex, packInt, if_true]
  have hpw : 256 ^ n = 2 * 2 ^ (8 * n - 1) := by rcases hn with rfl | rfl | rfl <;> decide
  have hpow := pow256 n
  by_cases h1 : c < 2 ^ (8 * n - 1)
  · have e : ((c : Int) % 256 ^ n).toNat = c := by
      rw [Int.emod_eq_of_lt (by omega) (by omega)]; omega
    rw [if_pos h1, if_pos (by omega), e]
    have hlen := bytesOf_length (E.isLittle h.order) n c
    refine ⟨_, rfl, hlen, ?_⟩
    rw [C04_character_map E h n hn _ hm' _ _ d ctx (by simp [hlen]) c]
    · rw [if_pos ⟨h1, hc⟩]
    · rw [window_append' _ _ _ _ hlen, stored_eq, unsignedOf_bytesOf, Nat.mod_eq_of_lt (by omega)]
  · rw [if_neg h1, if_neg (by omega)]

/-- **C04** Folding anything but a string or byte string of length one raises
FoldingError. -/
theorem C04_character_fold_other (E : Env) (h : Hdr) (n : Nat) (m : DMap)
    (hm : createMap E (.prim h .character (.bytes n) "bytes") = .ok m) (v : Val)
    (h1 : ∀ c, v ≠ .str [c]) (h2 : ∀ b, v ≠ .bytes [b]) (ns : Namespace) : fold E m v ns = .error .folding := by
  obtain rfl := createMap_prim _ _ _ _ _ _ hm
  have : foldValue .character v = none := by
    unfold foldValue
    split <;> simp_all
  rw [fold, primFold, this]

example (m : DMap) (hm : createMap exEnv (.prim { name := "c" } .character (.bytes 1) "bytes") = .ok m) :
    fold exEnv m (.str [65, 66]) [] = .error .folding ∧ fold exEnv m (.int 65) [] = .error .folding :=
  ⟨C04_character_fold_other _ _ _ _ hm _ (by simp) (by simp) _, C04_character_fold_other _ _ _ _ hm _ (by simp) (by simp) _⟩

/-- **C04c** Folding a mapped character returns the bytes it was read from. -/
theorem C04_character_fold_map (E : Env) (h : Hdr) (n : Nat) (hn : n = 1 ∨ n = 2 ∨ n = 4) (m : DMap)
    (hm : createMap E (.prim h .character (.bytes n) "bytes") = .ok m)
    (bs : Bytes) (off d : Nat) (ctx : Ctx) (hl : off + n ≤ bs.length) (v : Val)
    (hv : (mapStream E m bs off d ctx).1 = .ok v) (ns : Namespace) :
    fold E m v ns = .ok (.bytes (window bs off n)) := by
  have hmap := C04_character_map E h n hn m hm bs off d ctx hl _ rfl
  rw [hv] at hmap
  split at hmap
  · rename_i h1
    simp only [Except.ok.injEq] at hmap
    subst hmap
    obtain rfl := createMap_prim _ _ _ _ _ _ hm
    obtain ⟨k, hk, hp⟩ : ∃ k, primCode .character (.bytes n) = some k ∧
        ∀ E o v, packOne E o k v = v.toIndex.bind (packInt (E.isLittle o) n true) := by
      rcases hn with rfl | rfl | rfl
      · exact ⟨.b, rfl, fun _ _ _ => rfl⟩
      · exact ⟨.h, rfl, fun _ _ _ => rfl⟩
      · exact ⟨.i, rfl, fun _ _ _ => rfl⟩
    rw [prim_fold_eq E h _ _ _ k hk]
    simp only [foldValue, Option.bind, hp, Val.toIndex, packInt, if_true]
    have hpw : 256 ^ n = 2 * 2 ^ (8 * n - 1) := by rcases hn with rfl | rfl | rfl <;> decide
    have hpow := pow256 n
    have hinv := bytesOf_unsignedOf (E.isLittle h.order) (window bs off n)
    rw [window_length hl, ← stored_eq] at hinv
    generalize stored E h.order (window bs off n) = c at *
    have e : ((c : Int) % 256 ^ n).toNat = c := by
      rw [Int.emod_eq_of_lt (by omega) (by omega)]; omega
    rw [if_pos (by omega), e, hinv]
  · simp at hmap

/-- The euro sign in two little-endian bytes; 0xAC in one byte has its sign bit set. -/
example : ∃ m, createMap exEnv (.prim { name := "t", order := .little } .character (.bytes 2)
      "bytes") = .ok m ∧
    (mapStream exEnv m [0xac, 0x20] 0 0 {}).1 = .ok (.str [0x20ac]) ∧
    fold exEnv m (.str [0x20ac]) [] = .ok (.bytes [0xac, 0x20]) ∧
    fold exEnv m (.str [0x8000]) [] = .error .folding := ⟨_, rfl, rfl, rfl, rfl⟩

/-- **C05a** Folding the value an 8-byte floating-point map produced gives back
the original bytes, for every byte pattern. -/
theorem C05_double_round_trip (E : Env) (h : Hdr) (m : DMap)
    (hm : createMap E (.prim h .floatingPoint (.bytes 8) "bytes") = .ok m)
    (bs : Bytes) (off d : Nat) (ctx : Ctx) (hl : off + 8 ≤ bs.length) (ns : Namespace) :
    ∃ v, (mapStream E m bs off d ctx).1 = .ok v ∧
      fold E m v ns = .ok (.bytes (window bs off 8)) := by
  obtain rfl := createMap_prim _ _ _ _ _ _ hm
  rw [prim_map_eq E h _ 8 .d rfl bs off d ctx hl]
  refine ⟨_, rfl, ?_⟩
  rw [prim_fold_eq E h _ _ _ .d rfl]
  have hinv := bytesOf_unsignedOf (E.isLittle h.order) (window bs off 8)
  rw [window_length hl] at hinv
  simp only [foldValue, Option.bind, unpackOne, packOne, Val.toFloat, Option.map, hinv]

/-- **C05b** The same for a 4-byte map, for every pattern the conversion to
double and back preserves. -/
theorem C05_single_round_trip (E : Env) (h : Hdr) (m : DMap)
    (hm : createMap E (.prim h .floatingPoint (.bytes 4) "bytes") = .ok m)
    (bs : Bytes) (off d : Nat) (ctx : Ctx) (hl : off + 4 ≤ bs.length) (ns : Namespace)
    (hconv : E.f64to32 (E.f32to64 (stored E h.order (window bs off 4))) =
      some (stored E h.order (window bs off 4))) :
    ∃ v, (mapStream E m bs off d ctx).1 = .ok v ∧
      fold E m v ns = .ok (.bytes (window bs off 4)) := by
  obtain rfl := createMap_prim _ _ _ _ _ _ hm
  rw [prim_map_eq E h _ 4 .f rfl bs off d ctx hl]
  refine ⟨_, rfl, ?_⟩
  rw [prim_fold_eq E h _ _ _ .f rfl]
  have hinv := bytesOf_unsignedOf (E.isLittle h.order) (window bs off 4)
  rw [window_length hl] at hinv
  rw [stored_eq] at hconv
  simp only [foldValue, Option.bind, unpackOne, packOne, Val.toFloat, hconv, Option.map, hinv]

/-- A double with a NaN pattern. -/
example : ∃ m, createMap exEnv (.prim { name := "t", order := .big } .floatingPoint (.bytes 8)
      "bytes") = .ok m ∧
    (mapStream exEnv m [0x7f, 0xf0, 0, 0, 0, 0, 0, 1] 0 0 {}).1 = .ok (.float 0x7ff0000000000001) ∧
    fold exEnv m (.float 0x7ff0000000000001) [] = .ok (.bytes [0x7f, 0xf0, 0, 0, 0, 0, 0, 1]) :=
  ⟨_, rfl, rfl, rfl⟩

/-- **C06** A UUID map reads, from any 16 bytes `a … p` in a stream, the UUID
with these bytes in order when big-endian, and with the first field (4 bytes), the
second and the third (2 bytes each) reversed when little-endian; folding gives the
original bytes back. -/
theorem C06_uuid (E : Env) (h : Hdr) (m : DMap)
    (hm : createMap E (.uuid h (.bytes 16) "bytes") = .ok m) (hord : h.order ≠ .native)
    (pre suf : Bytes) (a b c d e f g i j k l n o p q r : UInt8) (dp : Nat) (ctx : Ctx)
    (ns : Namespace) :
    let stream := pre ++ [a, b, c, d, e, f, g, i, j, k, l, n, o, p, q, r] ++ suf
    let value : Val := .uuid (if h.order = .big then [a, b, c, d, e, f, g, i, j, k, l, n, o, p, q, r]
      else [d, c, b, a, f, e, i, g, j, k, l, n, o, p, q, r])
    (mapStream E m stream pre.length dp ctx).1 = .ok value ∧
    (mapStream E m stream pre.length dp ctx).2.byteSize = some 16 ∧
    fold E m value ns = .ok (.bytes [a, b, c, d, e, f, g, i, j, k, l, n, o, p, q, r]) := by
  obtain rfl := createMap_uuid _ _ _ _ _ hm
  intro stream value
  have hs : slice stream pre.length (pre.length + 16) =
      [a, b, c, d, e, f, g, i, j, k, l, n, o, p, q, r] := by
    simp [slice, stream]
  have ht : tooSmall stream pre.length 16 = false := by
    have : tooSmall stream pre.length 16 = _ := tooSmall_eq stream pre.length 16
    rw [this]
    simp [stream]
  cases ho : h.order
  · simp [mapStream, uuidMap, fixedByteSize, ht, hs, ho, value, uuidSwap, fold, uuidFold, uuidAttr]
  · simp [mapStream, uuidMap, fixedByteSize, ht, hs, ho, value, fold, uuidFold, uuidAttr]
  · exact absurd ho hord

/-- The other direction: mapping a folded UUID returns it. -/
theorem C06_uuid_map_fold (E : Env) (h : Hdr) (m : DMap)
    (hm : createMap E (.uuid h (.bytes 16) "bytes") = .ok m) (hord : h.order ≠ .native)
    (u : Bytes) (hu : u.length = 16) (ns : Namespace) (pre suf : Bytes) (d : Nat) (ctx : Ctx) :
    ∃ b : Bytes, b.length = 16 ∧ fold E m (.uuid u) ns = .ok (.bytes b) ∧
      (mapStream E m (pre ++ b ++ suf) pre.length d ctx).1 = .ok (.uuid u) := by
  obtain ⟨a0, a1, a2, a3, a4, a5, a6, a7, a8, a9, a10, a11, a12, a13, a14, a15, rfl⟩ :
      ∃ a0 a1 a2 a3 a4 a5 a6 a7 a8 a9 a10 a11 a12 a13 a14 a15,
        u = [a0, a1, a2, a3, a4, a5, a6, a7, a8, a9, a10, a11, a12, a13, a14, a15] := by
    match u, hu with
    | [a0, a1, a2, a3, a4, a5, a6, a7, a8, a9, a10, a11, a12, a13, a14, a15], _ =>
      exact ⟨_, _, _, _, _, _, _, _, _, _, _, _, _, _, _, _, rfl⟩
  cases ho : h.order
  · have h6 := C06_uuid E h m hm hord pre suf a3 a2 a1 a0 a5 a4 a7 a6 a8 a9 a10 a11 a12 a13 a14 a15
      d ctx ns
    simp only [ho] at h6
    exact ⟨_, rfl, h6.2.2, h6.1⟩
  · have h6 := C06_uuid E h m hm hord pre suf a0 a1 a2 a3 a4 a5 a6 a7 a8 a9 a10 a11 a12 a13 a14 a15
      d ctx ns
    simp only [ho] at h6
    exact ⟨_, rfl, h6.2.2, h6.1⟩
  · exact absurd ho hord

/-- A little-endian UUID definition. -/
example : ∃ m, createMap exEnv (.uuid { name := "t", order := .little } (.bytes 16) "bytes") = .ok m ∧
    (mapStream exEnv m [0, 1, 2, 3, 4, 5, 6, 7, 8, 9, 10, 11, 12, 13, 14, 15] 0 0 {}).1 =
      .ok (.uuid [3, 2, 1, 0, 5, 4, 7, 6, 8, 9, 10, 11, 12, 13, 14, 15]) := ⟨_, rfl, rfl⟩

/-- **C07** For any primitive definition, mapping bytes in little-endian order is
mapping the reversed bytes in big-endian order, and native order is the one of
the two the platform uses. -/
theorem C07_byte_order_duality (E : Env) (h : Hdr) (k : PrimKind) (s : Size) (u : String)
    (ml mb mn : DMap)
    (hl : createMap E (.prim { h with order := .little } k s u) = .ok ml)
    (hb : createMap E (.prim { h with order := .big } k s u) = .ok mb)
    (hn : createMap E (.prim { h with order := .native } k s u) = .ok mn)
    (bs : Bytes) (hs : s = .bytes bs.length) (d : Nat) (ctx : Ctx) :
    mapStream E ml bs 0 d ctx = mapStream E mb bs.reverse 0 d ctx ∧
    mapStream E mn bs 0 d ctx =
      mapStream E (if E.nativeLittle then ml else mb) bs 0 d ctx := by
  obtain rfl := createMap_prim _ _ _ _ _ _ hl
  obtain rfl := createMap_prim _ _ _ _ _ _ hb
  obtain rfl := createMap_prim _ _ _ _ _ _ hn
  have key : ∀ o₁ o₂ : Order, ∀ b₁ b₂ : Bytes, b₁.length = b₂.length →
      s = .bytes b₁.length →
      unsignedOf (E.isLittle o₁) b₁ = unsignedOf (E.isLittle o₂) b₂ →
      mapStream E (.prim { h with order := o₁ } k s u) b₁ 0 d ctx =
        mapStream E (.prim { h with order := o₂ } k s u) b₂ 0 d ctx := by
    intro o₁ o₂ b₁ b₂ hlen hs hun
    unfold mapStream primMap
    have ht : ∀ n, tooSmall b₁ 0 n = tooSmall b₂ 0 n := by intro n; simp [tooSmall, hlen]
    have hr : primRead E o₁ k s (b₁.drop 0) = primRead E o₂ k s (b₂.drop 0) := by
      unfold primRead
      cases hc : primCode k s with
      | none => rfl
      | some c =>
        have hcs := primCode_size (hs ▸ hc)
        simp only [List.drop_zero, hlen]
        rw [List.take_of_length_le (by omega), List.take_of_length_le (by omega)]
        unfold unpackOne
        rw [hun]
    simp only [ht, hr]
  constructor
  · apply key _ _ _ _ (by simp) hs
    simp [unsignedOf, Env.isLittle]
  · cases hE : E.nativeLittle
    · exact key .native .big bs bs rfl hs (by simp [Env.isLittle, hE])
    · exact key .native .little bs bs rfl hs (by simp [Env.isLittle, hE])

/-- A two byte integer in both orders. -/
example : ∃ ml mb, createMap exEnv (.prim { name := "t", order := .little } (.integer true) (.bytes 2)
      "bytes") = .ok ml ∧
    createMap exEnv (.prim { name := "t", order := .big } (.integer true) (.bytes 2) "bytes") = .ok mb ∧
    (mapStream exEnv ml [1, 2] 0 0 {}).1 = .ok (.int 513) ∧
    (mapStream exEnv mb [2, 1] 0 0 {}).1 = .ok (.int 513) := ⟨_, _, rfl, rfl, rfl, rfl⟩

end Dtf
