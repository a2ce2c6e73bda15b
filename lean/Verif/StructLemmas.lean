import Verif.Fold
/-!
Facts about the model of Python's `struct` module.
-/
namespace Dtf

theorem UInt8.toNat_lt' (b : UInt8) : b.toNat < 256 := b.toNat_lt

theorem leNat_lt (bs : Bytes) : leNat bs < 256 ^ bs.length := by
  induction bs with
  | nil => simp [leNat]
  | cons b bs ih =>
    have hb := b.toNat_lt
    simp only [leNat, List.length_cons, Nat.pow_succ]
    omega

theorem toLE_length (n v : Nat) : (toLE n v).length = n := by
  induction n generalizing v with
  | zero => rfl
  | succ n ih => simp [toLE, ih]

theorem leNat_toLE (n v : Nat) : leNat (toLE n v) = v % 256 ^ n := by
  induction n generalizing v with
  | zero => simp [leNat, toLE, Nat.mod_one]
  | succ n ih =>
    simp only [toLE, leNat, ih]
    have : (UInt8.ofNat (v % 256)).toNat = v % 256 := by
      simp [UInt8.toNat_ofNat']
    rw [this, Nat.pow_succ, Nat.mul_comm (256 ^ n) 256, Nat.mod_mul]

theorem toLE_leNat (bs : Bytes) : toLE bs.length (leNat bs) = bs := by
  induction bs with
  | nil => rfl
  | cons b bs ih =>
    have hb := b.toNat_lt
    simp only [List.length_cons, toLE, leNat]
    have h1 : (b.toNat + 256 * leNat bs) % 256 = b.toNat := by omega
    have h2 : (b.toNat + 256 * leNat bs) / 256 = leNat bs := by omega
    rw [h1, h2, ih]
    congr 1
    simp

theorem toLE_mod (n v : Nat) : toLE n (v % 256 ^ n) = toLE n v := by
  have h1 := leNat_toLE n v
  have h2 := toLE_leNat (toLE n v)
  rw [toLE_length, h1] at h2
  exact h2

theorem unsignedOf_lt (l : Bool) (bs : Bytes) : unsignedOf l bs < 256 ^ bs.length := by
  unfold unsignedOf
  split
  · exact leNat_lt bs
  · simpa using leNat_lt bs.reverse

theorem bytesOf_length (l : Bool) (n u : Nat) : (bytesOf l n u).length = n := by
  unfold bytesOf; split <;> simp [toLE_length]

theorem unsignedOf_bytesOf (l : Bool) (n u : Nat) : unsignedOf l (bytesOf l n u) = u % 256 ^ n := by
  unfold unsignedOf bytesOf; cases l <;> simp [leNat_toLE]

theorem bytesOf_unsignedOf (l : Bool) (bs : Bytes) : bytesOf l bs.length (unsignedOf l bs) = bs := by
  unfold unsignedOf bytesOf
  cases l
  · have := toLE_leNat bs.reverse
    simp at this
    simp [this]
  · simp [toLE_leNat]

theorem pow256 (n : Nat) : ((256 ^ n : Nat) : Int) = (256 : Int) ^ n := Int.natCast_pow 256 n

theorem toSigned_bounds (n u : Nat) (h : u < 256 ^ n) :
    -(256 ^ n : Int) ≤ 2 * toSigned n u ∧ 2 * toSigned n u < 256 ^ n := by
  unfold toSigned
  have hp := pow256 n
  generalize (256 : Int) ^ n = P at *
  generalize 256 ^ n = Q at *
  split <;> omega

theorem toSigned_emod (n u : Nat) (h : u < 256 ^ n) : toSigned n u % 256 ^ n = u := by
  unfold toSigned
  have hp := pow256 n
  generalize (256 : Int) ^ n = P at *
  generalize 256 ^ n = Q at *
  split
  · exact Int.emod_eq_of_lt (by omega) (by omega)
  · rw [Int.sub_emod_right]; exact Int.emod_eq_of_lt (by omega) (by omega)

theorem toSigned_mod (n : Nat) (i : Int) (h1 : -(256 ^ n : Int) ≤ 2 * i) (h2 : 2 * i < 256 ^ n) :
    toSigned n (i % 256 ^ n).toNat = i := by
  unfold toSigned
  have hp := pow256 n
  have hpos : 0 < 256 ^ n := Nat.pow_pos (by decide)
  generalize (256 : Int) ^ n = P at *
  generalize 256 ^ n = Q at *
  have hnn := Int.emod_nonneg i (show P ≠ 0 by omega)
  have key : i % P = i ∨ i % P = i + P := by
    by_cases h0 : 0 ≤ i
    · left; exact Int.emod_eq_of_lt h0 (by omega)
    · right
      rw [← Int.add_emod_right]
      exact Int.emod_eq_of_lt (by omega) (by omega)
  generalize i % P = r at *
  split <;> omega

theorem packInt_length {l : Bool} {n : Nat} {s : Bool} {i : Int} {b : Bytes}
    (h : packInt l n s i = some b) : b.length = n := by
  unfold packInt at h
  split at h <;> split at h <;> simp at h <;> subst h <;> exact bytesOf_length _ _ _

theorem packOne_length (E : Env) (o : Order) (c : Code) (v : Val) (b : Bytes)
    (h : packOne E o c v = some b) : b.length = c.size := by
  unfold packOne at h
  cases c <;> simp only [Option.map_eq_some_iff, Option.bind_eq_some_iff] at h
  all_goals first
    | (obtain ⟨a, _, h⟩ := h; first | exact packInt_length h | (subst h; exact bytesOf_length _ _ _))

theorem packAll_length (E : Env) (o : Order) (cs : List Code) (vs : List Val) (b : Bytes)
    (h : packAll E o cs vs = some b) : b.length = codesSize cs := by
  induction cs generalizing vs b with
  | nil => cases vs <;> simp [packAll] at h; subst h; rfl
  | cons c cs ih =>
    cases vs with
    | nil => simp [packAll] at h
    | cons v vs =>
      simp only [packAll, Option.map_eq_some_iff, Option.bind_eq_some_iff] at h
      obtain ⟨a, ha, b', hb', h⟩ := h
      subst h
      simp [codesSize, packOne_length E o c v a ha, ih vs b' hb']

end Dtf
