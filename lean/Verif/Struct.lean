import Verif.Py
/-!
The subset of Python's `struct` module that the project uses through
dtfabric/runtime/byte_operations.py: format strings consisting of a byte order
character and optionally repeated codes of `bBhHiIqQfd`, in standard sizes
without alignment.
-/
namespace Dtf

/-- dtfabric/definitions.py:4-12; middle-endian is not in `BYTE_ORDERS`. -/
inductive Order
  | little | big | native
deriving DecidableEq, Repr

/-- dtfabric/runtime/data_maps.py:143-146. -/
def Order.char : Order → Char
  | .big => '>'
  | .little => '<'
  | .native => '='

/-- Whether values in this order are stored least significant byte first. -/
def Env.isLittle (E : Env) : Order → Bool
  | .little => true
  | .big => false
  | .native => E.nativeLittle

/-- Number denoted by bytes, least significant first. -/
def leNat : Bytes → Nat
  | [] => 0
  | b :: bs => b.toNat + 256 * leNat bs

/-- The `n` least significant base-256 digits, least significant first. -/
def toLE : Nat → Nat → Bytes
  | 0, _ => []
  | n + 1, v => UInt8.ofNat (v % 256) :: toLE n (v / 256)

/-- Struct format characters. -/
inductive Code
  | b | B | h | H | i | I | q | Q | f | d
deriving DecidableEq, Repr

def Code.size : Code → Nat
  | .b | .B => 1
  | .h | .H => 2
  | .i | .I | .f => 4
  | .q | .Q | .d => 8

def Code.ofChar : Char → Option Code
  | 'b' => some .b | 'B' => some .B | 'h' => some .h | 'H' => some .H
  | 'i' => some .i | 'I' => some .I | 'q' => some .q | 'Q' => some .Q
  | 'f' => some .f | 'd' => some .d
  | _ => none

def Code.char : Code → Char
  | .b => 'b' | .B => 'B' | .h => 'h' | .H => 'H'
  | .i => 'i' | .I => 'I' | .q => 'q' | .Q => 'Q'
  | .f => 'f' | .d => 'd'

def Code.signed : Code → Bool
  | .b | .h | .i | .q => true
  | _ => false

/-- Bytes in the given order as unsigned number. -/
def unsignedOf (little : Bool) (bs : Bytes) : Nat :=
  leNat (if little then bs else bs.reverse)

/-- Two's complement reading of an `n`-byte unsigned number. -/
def toSigned (n : Nat) (u : Nat) : Int :=
  if 2 * u < 256 ^ n then (u : Int) else (u : Int) - 256 ^ n

/-- `struct.unpack` of one code from exactly `c.size` bytes. -/
def unpackOne (E : Env) (o : Order) (c : Code) (bs : Bytes) : Val :=
  let u := unsignedOf (E.isLittle o) bs
  match c with
  | .f => .float (E.f32to64 u)
  | .d => .float u
  | .b | .h | .i | .q => .int (toSigned c.size u)
  | .B | .H | .I | .Q => .int u

/-- The bytes of an unsigned number in the given order. -/
def bytesOf (little : Bool) (n : Nat) (u : Nat) : Bytes :=
  if little then toLE n u else (toLE n u).reverse

/-- `struct.pack` of an integer; `none` is `struct.error` (out of range). -/
def packInt (little : Bool) (n : Nat) (signed : Bool) (i : Int) : Option Bytes :=
  if signed then
    if -(256 ^ n : Int) ≤ 2 * i ∧ 2 * i < 256 ^ n then
      some (bytesOf little n (i % 256 ^ n).toNat)
    else none
  else if 0 ≤ i ∧ i < 256 ^ n then some (bytesOf little n i.toNat)
  else none

/-- The integer a value stands for in an integer code (`bool` is an `int`). -/
def Val.toIndex : Val → Option Int
  | .int i => some i
  | .bool b => some (boolInt b)
  | _ => none

/-- The double a value stands for in a float code. -/
def Val.toFloat (E : Env) : Val → Option Nat
  | .float f => some f
  | .int i => E.intToF64 i
  | .bool b => E.intToF64 (boolInt b)
  | _ => none

/-- `struct.pack` of one code; `none` is any exception. -/
def packOne (E : Env) (o : Order) (c : Code) (v : Val) : Option Bytes :=
  match c with
  | .f => ((v.toFloat E).bind E.f64to32).map (bytesOf (E.isLittle o) 4)
  | .d => (v.toFloat E).map (bytesOf (E.isLittle o) 8)
  | c => v.toIndex.bind (packInt (E.isLittle o) c.size c.signed)

/-- Total size of a list of codes. -/
def codesSize : List Code → Nat
  | [] => 0
  | c :: cs => c.size + codesSize cs

/-- `struct.unpack_from` on at least `codesSize cs` bytes. -/
def unpackAll (E : Env) (o : Order) : List Code → Bytes → List Val
  | [], _ => []
  | c :: cs, bs => unpackOne E o c (bs.take c.size) :: unpackAll E o cs (bs.drop c.size)

/-- `struct.pack(*values)`: the number of values must match. -/
def packAll (E : Env) (o : Order) : List Code → List Val → Option Bytes
  | [], [] => some []
  | c :: cs, v :: vs => (packOne E o c v).bind fun b => (packAll E o cs vs).map (b ++ ·)
  | _, _ => none

/-- Value of a decimal digit character. -/
def digitVal (c : Char) : Option Nat :=
  if '0'.toNat ≤ c.toNat ∧ c.toNat ≤ '9'.toNat then some (c.toNat - '0'.toNat) else none

/-- Parse of the part of a struct format string after the byte order; `num` is
the repeat count read so far. `none` is `struct.error`. Codes the project never
generates are rejected (simplification). -/
def parseCodes : Option Nat → List Char → Option (List Code)
  | none, [] => some []
  | some _, [] => none
  | num, c :: cs =>
    match digitVal c with
    | some dgt => parseCodes (some (num.getD 0 * 10 + dgt)) cs
    | none =>
      match Code.ofChar c with
      | none => none
      | some k => (parseCodes none cs).map (List.replicate (num.getD 1) k ++ ·)

/-- Decimal digits of a natural number, most significant first. -/
def decFuel : Nat → Nat → List Char
  | 0, _ => []
  | k + 1, n =>
    if n < 10 then [Char.ofNat (48 + n)]
    else decFuel k (n / 10) ++ [Char.ofNat (48 + n % 10)]

/-- `f'{i:d}'`. -/
def decStr : Int → List Char
  | .ofNat n => decFuel (n + 1) n
  | .negSucc n => '-' :: decFuel (n + 2) (n + 1)

/-- A byte stream operation: dtfabric/runtime/byte_operations.py:40-62. The text
of the format string after the byte order character, and its codes. -/
structure Op where
  order : Order
  codes : List Code

/-- `StructOperation(byte_order_string + format_string)`,
dtfabric/runtime/byte_operations.py:43-62; a bad format string is a
`FormatError`. -/
def mkOp (o : Order) (fmt : List Char) : Except Err Op :=
  match parseCodes none fmt with
  | some cs => .ok ⟨o, cs⟩
  | none => .error .format

/-- `StructOperation.ReadFrom`, dtfabric/runtime/byte_operations.py:64-80;
`none` is `IOError`. -/
def Op.readFrom (E : Env) (op : Op) (bs : Bytes) : Option (List Val) :=
  if bs.length < codesSize op.codes then none else some (unpackAll E op.order op.codes bs)

/-- `StructOperation.WriteTo`, dtfabric/runtime/byte_operations.py:82-98;
`none` is any exception. -/
def Op.writeTo (E : Env) (op : Op) (vs : List Val) : Option Bytes :=
  packAll E op.order op.codes vs

end Dtf
