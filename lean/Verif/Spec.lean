import Verif.Struct
/-!
Small specifications used by the property theorems. They are written
independently of the functions of the model.
-/
namespace Dtf.Spec

/-- Positional notation: the sum of `byte_i * 256^i`. -/
def number (bs : Bytes) : Nat :=
  ((List.range bs.length).map fun i => (bs.getD i 0).toNat * 256 ^ i).sum

/-- Whether data in byte order `o` has its least significant byte first. -/
def LeastFirst (E : Env) (o : Order) : Prop := o = .little ∨ (o = .native ∧ E.nativeLittle = true)

instance (E : Env) (o : Order) : Decidable (LeastFirst E o) := by unfold LeastFirst; infer_instance

/-- The number stored in bytes in byte order `o`. -/
def stored (E : Env) (o : Order) (bs : Bytes) : Nat :=
  if LeastFirst E o then number bs else number bs.reverse

/-- The bytes `bs[off:off+n]`. -/
def window (bs : Bytes) (off n : Nat) : Bytes := (bs.drop off).take n

end Dtf.Spec
