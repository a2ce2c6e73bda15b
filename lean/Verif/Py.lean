/-!
Python values, literals, exceptions and the abstract Python environment.

Everything here models the Python language itself; the project code that uses
it is cited at the use sites.
-/
namespace Dtf

/-- Python `bytes`. -/
abbrev Bytes := List UInt8

/-- Exception classes. `tooSmall`, `mapping`, `folding`, `format`, `reader` are
the project's own classes (dtfabric/errors.py:5-50); `type` .. `syntax` are the
built-in ones the code can leak. `other` marks behaviour that is not modelled
(floating-point sizes). `yaml` are the YAML errors the reader does not catch.
`diverge` is not an exception: it says the call does not
return, and no `except` clause catches it. -/
inductive Err
  | tooSmall | mapping | folding | format | reader
  | type | value | attribute | key | zeroDiv | syntax
  | other | yaml | diverge
deriving DecidableEq, Repr

/-- Python objects that mapping can produce or folding can receive.
`float` carries the 64 bits of the double, `str` the code points, `uuid` the
16 bytes of `uuid.UUID.bytes`, `struct` an instance of a generated structure
values class: class name and attributes in declaration order. -/
inductive Val
  | pyNone
  | bool (b : Bool)
  | int (i : Int)
  | float (bits : Nat)
  | bytes (b : Bytes)
  | str (cs : List Nat)
  | uuid (b : Bytes)
  | tuple (vs : List Val)
  | struct (cls : String) (attrs : List (String × Val))
  | other (id : Nat)

/-- Literals that occur in definitions after YAML parsing (supported values,
terminators, enumeration numbers, constants). Supported values and terminators
that are strings are already encoded to `bytes` by the reader
(dtfabric/reader.py:425-428, 731-737). `other` are lists, dictionaries, dates;
`hashable` says whether Python can use them as dictionary key. -/
inductive Lit
  | null
  | bool (b : Bool)
  | int (i : Int)
  | float (bits : Nat)
  | bytes (b : Bytes)
  | str (s : String)
  | other (hashable : Bool) (id : Nat)
deriving DecidableEq, Repr

/-- Dictionary from names to values, used as namespace of expressions. -/
abbrev Namespace := List (String × Val)

/-- The parts of Python that are parameters of the model. -/
structure Env where
  /-- `eval(expression, namespace)`; `none` is any exception. -/
  evalExpr : String → Namespace → Option Val
  /-- whether `ast.parse` and `compile` accept the expression. -/
  parses : String → Bool
  /-- `bytes.decode(encoding)`; `none` is any exception. -/
  decode : String → Bytes → Option (List Nat)
  /-- `str.encode(encoding)`; `none` is any exception. -/
  encode : String → List Nat → Option Bytes
  /-- single (32 bits) to double (64 bits) conversion done by `struct`. -/
  f32to64 : Nat → Nat
  /-- double to single conversion; `none` is an overflow error. -/
  f64to32 : Nat → Option Nat
  /-- `float(int)`; `none` is an overflow error. -/
  intToF64 : Int → Option Nat
  /-- whether the platform is little-endian. -/
  nativeLittle : Bool
  /-- `str.isdigit`, `str.isalnum` of one character. -/
  isDigit : Char → Bool
  isAlnum : Char → Bool
  /-- `keyword.iskeyword`. -/
  isKeyword : String → Bool
  /-- whether the text is an identifier for the Python parser. -/
  pyIdent : String → Bool
  /-- `str.lower`. -/
  lower : String → String
  /-- `int(text)`; `none` is a `ValueError`. -/
  parseInt : String → Option Int := String.toInt?
  /-- whether Unicode has a character of that name (`unicodedata`). -/
  unicodeName : String → Bool := fun _ => false

/-- The value of a double: not a number, an infinity, or a finite number in units
of `2 ^ -1074`. -/
inductive FVal
  | nan
  | inf (negative : Bool)
  | fin (units : Int)
deriving DecidableEq, Repr

/-- The exponent field of a double. -/
def fExp (bits : Nat) : Nat := bits / 2 ^ 52 % 2048

/-- The value a bit pattern denotes (IEEE 754 binary64). -/
def fVal (bits : Nat) : FVal :=
  let negative : Bool := bits / 2 ^ 63 % 2 = 1
  let fraction : Nat := bits % 2 ^ 52
  if fExp bits = 2047 then
    if fraction = 0 then .inf negative else .nan
  else
    let units : Nat :=
      if fExp bits = 0 then fraction else (2 ^ 52 + fraction) * 2 ^ (fExp bits - 1)
    .fin (if negative then -(units : Int) else units)

/-- Python `float == int`. -/
def floatEqInt (bits : Nat) (i : Int) : Bool := fVal bits = .fin (i * 2 ^ 1074)

/-- Python `float == float`. -/
def floatEq (a b : Nat) : Bool := fVal a ≠ .nan && fVal a = fVal b

/-- Python numbers: `bool` is a subclass of `int`. -/
inductive Num
  | int (i : Int)
  | float (bits : Nat)

def boolInt (b : Bool) : Int := if b then 1 else 0

def Val.num? : Val → Option Num
  | .bool b => some (.int (boolInt b))
  | .int i => some (.int i)
  | .float f => some (.float f)
  | _ => none

def Lit.num? : Lit → Option Num
  | .bool b => some (.int (boolInt b))
  | .int i => some (.int i)
  | .float f => some (.float f)
  | _ => none

def Num.eq : Num → Num → Bool
  | .int a, .int b => a == b
  | .int a, .float b => floatEqInt b a
  | .float a, .int b => floatEqInt a b
  | .float a, .float b => floatEq a b

/-- Python `value == literal`. -/
def pyEq (v : Val) (l : Lit) : Bool :=
  match v.num?, l.num? with
  | some a, some b => a.eq b
  | _, _ =>
    match v, l with
    | .pyNone, .null => true
    | .bytes a, .bytes b => a == b
    | .str cs, .str s => cs == s.toList.map Char.toNat
    | _, _ => false

/-- Python `literal == literal`. -/
def litEq (a b : Lit) : Bool :=
  match a.num?, b.num? with
  | some x, some y => x.eq y
  | _, _ =>
    match a, b with
    | .null, .null => true
    | .bytes x, .bytes y => x == y
    | .str x, .str y => x == y
    | .other _ x, .other _ y => x == y
    | _, _ => false

/-- Whether a literal can be used as dictionary key. -/
def Lit.isHashable : Lit → Bool
  | .other h _ => h
  | _ => true

/-- `value in list`. -/
def pyIn (v : Val) (ls : List Lit) : Bool := ls.any (pyEq v ·)

/-- Truthiness of an optional string. -/
def truthyStr : Option String → Bool
  | some s => s != ""
  | none => false

/-- Truthiness of an optional integer. -/
def truthyInt : Option Int → Bool
  | some i => i != 0
  | none => false

/-- Dictionary lookup. -/
def nsGet (ns : Namespace) (k : String) : Option Val :=
  (ns.find? (·.1 == k)).map (·.2)

/-- `dict[k] = v`. -/
def nsSet (ns : Namespace) (k : String) (v : Val) : Namespace :=
  if ns.any (·.1 == k) then ns.map fun p => if p.1 == k then (k, v) else p
  else ns ++ [(k, v)]

/-- `dict.update(other)`. -/
def nsUpdate (ns other : Namespace) : Namespace :=
  other.foldl (fun acc p => nsSet acc p.1 p.2) ns

/-- `namespace['__builtins__'] = {}`. -/
def withBuiltins (ns : Namespace) : Namespace := nsSet ns "__builtins__" (.other 0)

/-- `getattr(value, name, None)`; attributes of built-in objects are treated as
absent (simplification). -/
def getAttr : Val → String → Val
  | .struct _ attrs, n => (nsGet attrs n).getD .pyNone
  | _, _ => .pyNone

/-- `setattr` on the attributes of an instance. -/
def setAttr (attrs : List (String × Val)) (n : String) (v : Val) : List (String × Val) :=
  nsSet attrs n v

/-- Iteration over a value as done by `f(*value)`; `none` is a `TypeError`. -/
def Val.iter : Val → Option (List Val)
  | .tuple vs => some vs
  | .bytes b => some (b.map fun x => .int x.toNat)
  | .str cs => some (cs.map fun c => .str [c])
  | _ => none

/-- `len(value)`; `none` is a `TypeError`. -/
def Val.len : Val → Option Nat
  | .tuple vs => some vs.length
  | .bytes b => some b.length
  | .str cs => some cs.length
  | _ => none

/-- `type(value).__name__`. -/
def Val.typeName : Val → String
  | .pyNone => "NoneType"
  | .bool _ => "bool"
  | .int _ => "int"
  | .float _ => "float"
  | .bytes _ => "bytes"
  | .str _ => "str"
  | .uuid _ => "UUID"
  | .tuple _ => "tuple"
  | .struct c _ => c
  | .other _ => "object"

/-- Python slice `b[i:j]` with non-negative bounds. -/
def slice (b : Bytes) (i j : Nat) : Bytes := (b.drop i).take (j - i)

end Dtf
