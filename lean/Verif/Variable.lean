import Verif.SchemaMap
/-!
A language of types whose size depends on the data: blocks of bytes, texts and arrays
with a length given by an expression over the fields read before, terminated blocks
and texts, records with conditions, supported values and padding, and groups of records
told apart by the number in a field. What its declarations mean is `Spec.VTy.read`;
`Verif/VariableMap.lean` proves that the maps of their definitions read what they mean.
-/
namespace Dtf

namespace Spec

/-- Comparisons. -/
inductive Rel
  | eq
  | ne
  | lt
  | le

/-- Whole number expressions: numbers, values the caller supplies, fields of records,
sums, differences and products, quotients by a number, the bits two numbers have in
common, and one of two expressions, depending on a comparison. -/
inductive Expr
  | number (n : Nat)
  | given (name : String)
  | field (record name : String)
  | plus (a b : Expr)
  | minus (a b : Expr)
  | times (a b : Expr)
  | over (a : Expr) (n : Nat)
  | bits (a b : Expr)
  | choose (a : Expr) (r : Rel) (c d b : Expr)

/-- Conditions on whole numbers. -/
inductive Test
  | compare (r : Rel) (a b : Expr)
  | both (t u : Test)
  | either (t u : Test)
  | negation (t : Test)

def Rel.text : Rel → String
  | .eq => "=="
  | .ne => "!="
  | .lt => "<"
  | .le => "<="

/-- The text of an expression in a definition file. -/
def Expr.text : Expr → String
  | .number n => toString n
  | .given n => n
  | .field r f => r ++ "." ++ f
  | .plus a b => "(" ++ a.text ++ "+" ++ b.text ++ ")"
  | .minus a b => "(" ++ a.text ++ "-" ++ b.text ++ ")"
  | .times a b => "(" ++ a.text ++ "*" ++ b.text ++ ")"
  | .over a n => "(" ++ a.text ++ "//" ++ toString n ++ ")"
  | .bits a b => "(" ++ a.text ++ "&" ++ b.text ++ ")"
  | .choose a r c d b => "(" ++ a.text ++ " if (" ++ c.text ++ r.text ++ d.text ++ ") else " ++ b.text ++ ")"

/-- The text of a condition in a definition file. -/
def Test.text : Test → String
  | .compare r a b => "(" ++ a.text ++ r.text ++ b.text ++ ")"
  | .both t u => "(" ++ t.text ++ " and " ++ u.text ++ ")"
  | .either t u => "(" ++ t.text ++ " or " ++ u.text ++ ")"
  | .negation t => "(not " ++ t.text ++ ")"

/-- The values the caller supplies, and the records being read, the outermost first,
with their fields so far. -/
abbrev Scope := List (String × Val)

/-- The number in a field of a value. -/
def numberField (v : Option Val) (f : String) : Option Int :=
  match v with
  | some (.struct _ attrs) =>
    match attrs.lookup f with
    | some (.int i) => some i
    | _ => none
  | _ => none

/-- The number in a field of a record. -/
def fieldNumber (s : Scope) (r f : String) : Option Int := numberField (s.lookup r) f

/-- The number a name stands for. -/
def givenNumber (s : Scope) (n : String) : Option Int :=
  match s.lookup n with
  | some (.int i) => some i
  | _ => none

def Rel.holds : Rel → Int → Int → Bool
  | .eq, i, j => i = j
  | .ne, i, j => i ≠ j
  | .lt, i, j => i < j
  | .le, i, j => i ≤ j

/-- The bits two numbers have in common, of a negative number those of its two's complement,
as many as there are to be compared: `-n-1` has the bits `n` does not have. -/
def commonBits : Int → Int → Int
  | .ofNat m, .ofNat n => (m &&& n : Nat)
  | .ofNat m, .negSucc n => (m - (m &&& n) : Nat)
  | .negSucc m, .ofNat n => (n - (n &&& m) : Nat)
  | .negSucc m, .negSucc n => .negSucc (m ||| n)

/-- The value of an expression. Quotients are rounded down. -/
def Expr.value (s : Scope) : Expr → Option Int
  | .number n => some n
  | .given n => givenNumber s n
  | .field r f => fieldNumber s r f
  | .plus a b => match a.value s, b.value s with
    | some i, some j => some (i + j)
    | _, _ => none
  | .minus a b => match a.value s, b.value s with
    | some i, some j => some (i - j)
    | _, _ => none
  | .times a b => match a.value s, b.value s with
    | some i, some j => some (i * j)
    | _, _ => none
  | .over a n => match a.value s with
    | some i => some (i.fdiv n)
    | none => none
  | .bits a b => match a.value s, b.value s with
    | some i, some j => some (commonBits i j)
    | _, _ => none
  | .choose a r c d b => match c.value s, d.value s with
    | some i, some j => if r.holds i j then a.value s else b.value s
    | _, _ => none

/-- Whether a condition holds. -/
def Test.holds (s : Scope) : Test → Option Bool
  | .compare r a b => match a.value s, b.value s with
    | some i, some j => some (r.holds i j)
    | _, _ => none
  | .both t u => match t.holds s, u.holds s with
    | some x, some y => some (x && y)
    | _, _ => none
  | .either t u => match t.holds s, u.holds s with
    | some x, some y => some (x || y)
    | _, _ => none
  | .negation t => match t.holds s with
    | some x => some (!x)
    | none => none

/-- A name that Python code can use. -/
def Usable (E : Env) (n : String) : Prop :=
  Identifier E n ∧ E.isKeyword n = false ∧ E.pyIdent n = true

/-- The expression uses names that Python code can use and does not divide by zero. -/
def Expr.Named (E : Env) : Expr → Prop
  | .number _ => True
  | .given n => Usable E n
  | .field r f => Usable E r ∧ Usable E f
  | .plus a b | .minus a b | .times a b | .bits a b => a.Named E ∧ b.Named E
  | .over a n => a.Named E ∧ n ≠ 0
  | .choose a _ c d b => (a.Named E ∧ b.Named E) ∧ c.Named E ∧ d.Named E

def Test.Named (E : Env) : Test → Prop
  | .compare _ a b => a.Named E ∧ b.Named E
  | .both t u | .either t u => t.Named E ∧ u.Named E
  | .negation t => t.Named E

/-- Python code can consist of the expression: it is neither too long nor nested too deeply for
the interpreter. -/
def Expr.Accepted (E : Env) (e : Expr) : Prop := e.Named E ∧ E.parses e.text = true

def Test.Accepted (E : Env) (t : Test) : Prop := t.Named E ∧ E.parses t.text = true

/-- The expression is not a plain number. -/
def Expr.Computed (e : Expr) : Prop := ∀ n, e ≠ .number n

/-- Python evaluates these expressions and conditions as it should. -/
structure Arithmetic (E : Env) : Prop where
  evaluates : ∀ (e : Expr) (ns : Namespace) (i : Int), e.Accepted E → e.value ns = some i →
    E.evalExpr e.text ns = some (.int i)
  no_number : ∀ e : Expr, e.Accepted E → e.Computed → E.parseInt e.text = none
  decides : ∀ (t : Test) (ns : Namespace) (b : Bool), t.Accepted E → t.holds ns = some b →
    E.evalExpr t.text ns = some (.bool b)

/-- How long a block or text is: a number of bytes, a number of elements, or up to a
terminator. A text of a given size can have a terminator, too: what follows it does not
belong to the text. -/
inductive Len
  | bytes (size : Expr)
  | count (number : Expr)
  | upto (terminator : Bytes)
  | bytesTo (size : Expr) (terminator : Bytes)
  | countTo (number : Expr) (terminator : Bytes)

mutual
/-- A type with the names under which it and its parts are declared. Records have a byte
order of their own. -/
inductive VTy
  | fixed (type : Ty)
  | block (name : String) (element : Ty) (len : Len)
  | text (name encoding : String) (element : Ty) (len : Len)
  | array (name : String) (element : VTy) (count : Expr)
  | list (name : String) (element : VTy) (size : Expr)
  | record (name : String) (big : Bool) (fields : VFields)
  | group (name : String) (base : VTy) (identifier : String) (members : VMembers)
/-- The fields of a record with their conditions and the numbers they may hold; there is
no restriction if no number is given. -/
inductive VFields
  | nil
  | cons (name : String) (condition : Option Test) (values : List Int) (type : VTy) (rest : VFields)
  | padding (name : String) (alignment : Nat) (rest : VFields)
/-- The records of a group, and possibly one for all other cases. -/
inductive VMembers
  | nil
  | default (type : VTy)
  | cons (type : VTy) (rest : VMembers)
end

def VTy.name : VTy → String
  | .fixed t => t.name
  | .block n _ _ | .text n _ _ _ | .array n _ _ | .list n _ _ | .record n _ _ | .group n _ _ _ => n

/-- The byte order of a type; blocks, texts and arrays have that of their elements,
groups that of the record at the start of all their records. -/
def VTy.big : VTy → Bool
  | .fixed t => t.big
  | .block _ e _ | .text _ _ e _ => e.big
  | .array _ e _ | .list _ e _ => e.big
  | .record _ b _ => b
  | .group _ base _ _ => base.big
termination_by structural t => t

def VFields.names : VFields → List String
  | .nil => []
  | .cons n _ _ _ fs | .padding n _ fs => n :: fs.names

def VFields.types : VFields → List VTy
  | .nil => []
  | .cons _ _ _ t fs => t :: fs.types
  | .padding _ _ fs => fs.types

/-- The names of the paddings. -/
def VFields.pads : VFields → List String
  | .nil => []
  | .cons _ _ _ _ fs => fs.pads
  | .padding n _ fs => n :: fs.pads

/-- The numbers the field may hold. -/
def VFields.valuesOf (name : String) : VFields → List Int
  | .nil => []
  | .cons n _ vs _ fs => if n = name then vs else fs.valuesOf name
  | .padding n _ fs => if n = name then [] else fs.valuesOf name

/-- The numbers that tell a record of a group. -/
def VTy.keys (identifier : String) : VTy → List Int
  | .record _ _ fs => fs.valuesOf identifier
  | _ => []

/-- The size of a record of scalars in the given byte order without conditions. -/
def VFields.flat (big : Bool) : VFields → Option Nat
  | .nil => some 0
  | .cons _ none _ (.fixed (.scalar _ b _ size)) fs =>
    match fs.flat big with
    | some n => if b = big then some (size + n) else none
    | none => none
  | _ => none

/-- Whether a field may hold the value. -/
def allowed (values : List Int) (v : Val) : Bool :=
  match values, v with
  | [], _ => true
  | values, .int i => values.contains i
  | _, _ => false

/-- The number of bytes up to the next multiple of the alignment. -/
def gap (position alignment : Nat) : Nat := (alignment - position % alignment) % alignment

/-- What reading gives: a value and the bytes left, too few bytes, or a failure. -/
inductive Outcome (α : Type)
  | done (value : α) (rest : Bytes)
  | short
  | invalid

/-- Take `n` bytes. -/
def takeBytes (n : Int) (bs : Bytes) : Outcome Bytes :=
  if n < 0 then .invalid
  else if n ≤ bs.length then .done (bs.take n.toNat) (bs.drop n.toNat)
  else .short

/-- The bytes before the first terminator at a multiple of its size, and those behind
it. -/
def splitAt (t : Bytes) : Nat → Bytes → Option (Bytes × Bytes)
  | 0, _ => none
  | n + 1, bs =>
    if bs.take t.length = t then some ([], bs.drop t.length)
    else
      match splitAt t n (bs.drop t.length) with
      | none => none
      | some (b, rest) => some (bs.take t.length ++ b, rest)

/-- The bytes before the terminator, and those from it on. -/
def cutAt (t : Bytes) (bs : Bytes) : Bytes × Bytes :=
  match splitAt t bs.length bs with
  | none => (bs, [])
  | some (b, rest) => (b, t ++ rest)

/-- Take `n` bytes and divide them. -/
def takeParts (cut : Bytes → Bytes × Bytes) (n : Int) (bs : Bytes) : Outcome (Bytes × Bytes) :=
  match takeBytes n bs with
  | .done b rest => .done (cut b) rest
  | .short => .short
  | .invalid => .invalid

/-- The bytes of a block or text up to the terminator, and the bytes from the terminator on
that belong to it, too. -/
def Len.read (unit : Nat) (s : Scope) (bs : Bytes) : Len → Outcome (Bytes × Bytes)
  | .bytes e =>
    match e.value s with
    | none => .invalid
    | some n => takeParts (·, []) n bs
  | .count e =>
    match e.value s with
    | none => .invalid
    | some n => takeParts (·, []) (n * unit) bs
  | .bytesTo e t =>
    match e.value s with
    | none => .invalid
    | some n => takeParts (cutAt t) n bs
  | .countTo e t =>
    match e.value s with
    | none => .invalid
    | some n => takeParts (cutAt t) (n * unit) bs
  | .upto t =>
    match splitAt t bs.length bs with
    | none => .short
    | some (b, rest) => .done (b, t) rest

/-- Read one value after the other. There is no element at the end of the bytes. -/
def repeated (read : Bytes → Outcome Val) : Nat → Bytes → Outcome (List Val)
  | 0, bs => .done [] bs
  | n + 1, bs =>
    if bs = [] then .short
    else
      match read bs with
      | .short => .short
      | .invalid => .invalid
      | .done v bs =>
        match repeated read n bs with
        | .short => .short
        | .invalid => .invalid
        | .done vs bs => .done (v :: vs) bs

/-- Read one value after the other until they have taken `n` bytes, or one of them is the
last. The fuel is the number of bytes. -/
def covering (read : Bytes → Outcome Val) (last : Val → Bool) : Nat → Nat → Bytes → Outcome (List Val)
  | _, 0, bs => .done [] bs
  | 0, _ + 1, _ => .short
  | fuel + 1, n + 1, bs =>
    if bs = [] then .short
    else
      match read bs with
      | .short => .short
      | .invalid => .invalid
      | .done v rest =>
        if last v then .done [v] rest
        else
          match covering read last fuel (n + 1 - (bs.length - rest.length)) rest with
          | .short => .short
          | .invalid => .invalid
          | .done vs rest => .done (v :: vs) rest

/-- The size of the elements of a list, if all have the same. -/
def VTy.unit : VTy → Option Nat
  | .fixed t => some t.size
  | _ => none

/-- A block that consists of the terminator only is the last of a list. -/
def VTy.isLast : VTy → Val → Bool
  | .block _ _ (.upto t), .bytes b => b = t
  | _, _ => false

/-- Whether a field is present. -/
def present (s : Scope) : Option Test → Option Bool
  | none => some true
  | some t => t.holds s

mutual
/-- What a type means: the value at the start of the bytes and the bytes left. A
negative length and bytes that are no text of the encoding are failures. A list has as
many elements of a fixed size as fit in its size, or as many others as are needed for it. The
elements of an array or list and the records of a group do not see the records around them. A record of
scalars in its byte order needs all its bytes. `size` is the number of bytes of the stream: there are
`size - bs.length` bytes before `bs`. -/
def VTy.read (decode : String → Bytes → Option (List Nat)) (size : Nat) (t : VTy) (s : Scope) (bs : Bytes) :
    Outcome Val :=
  match t with
  | .fixed t =>
    match t.read bs with
    | none => .short
    | some (v, rest) => .done v rest
  | .block _ e len =>
    match len.read e.size s bs with
    | .short => .short
    | .invalid => .invalid
    | .done (b, t) rest => .done (.bytes (b ++ t)) rest
  | .text _ encoding e len =>
    match len.read e.size s bs with
    | .short => .short
    | .invalid => .invalid
    | .done (b, _) rest =>
      match decode encoding b with
      | none => .invalid
      | some cs => .done (.str cs) rest
  | .array _ e count =>
    match count.value s with
    | none => .invalid
    | some n =>
      if n < 0 then .invalid
      else
        match repeated (fun bs => e.read decode size [] bs) n.toNat bs with
        | .short => .short
        | .invalid => .invalid
        | .done vs rest => .done (.tuple vs) rest
  | .list _ e bytes =>
    match bytes.value s with
    | none => .invalid
    | some n =>
      if n < 0 then .invalid
      else
        match (match e.unit with
          | some k => repeated (fun bs => e.read decode size [] bs) (n.toNat / k) bs
          | none => covering (fun bs => e.read decode size [] bs) e.isLast bs.length n.toNat bs) with
        | .short => .short
        | .invalid => .invalid
        | .done vs rest => .done (.tuple vs) rest
  | .record name big fs =>
    if bs.length < (fs.flat big).getD 0 then .short
    else
      match fs.read decode size s name [] bs with
      | .short => .short
      | .invalid => .invalid
      | .done attrs rest => .done (.struct name attrs) rest
  | .group _ base identifier ms =>
    match base.read decode size [] bs with
    | .short => .short
    | .invalid => .invalid
    | .done v _ =>
      match numberField (some v) identifier with
      | none => .invalid
      | some i => ms.read decode size identifier i bs
termination_by structural t
/-- The fields follow each other; the value of an absent one is None. Padding are the
bytes up to the next multiple of the alignment in the stream. -/
def VFields.read (decode : String → Bytes → Option (List Nat)) (size : Nat) (fs : VFields) (s : Scope)
    (name : String) (before : List (String × Val)) (bs : Bytes) : Outcome (List (String × Val)) :=
  match fs with
  | .nil => .done before bs
  | .cons n c values t fs =>
    match present (s ++ [(name, .struct name before)]) c with
    | none => .invalid
    | some false => fs.read decode size s name (before ++ [(n, .pyNone)]) bs
    | some true =>
      match t.read decode size (s ++ [(name, .struct name before)]) bs with
      | .short => .short
      | .invalid => .invalid
      | .done v rest =>
        if allowed values v then fs.read decode size s name (before ++ [(n, v)]) rest else .invalid
  | .padding n a fs =>
    if gap (size - bs.length) a ≤ bs.length then
      fs.read decode size s name (before ++ [(n, .bytes (bs.take (gap (size - bs.length) a)))])
        (bs.drop (gap (size - bs.length) a))
    else .short
termination_by structural fs
/-- The record of the group that may hold the number in the field, from the same bytes. -/
def VMembers.read (decode : String → Bytes → Option (List Nat)) (size : Nat) (ms : VMembers)
    (identifier : String) (i : Int) (bs : Bytes) : Outcome Val :=
  match ms with
  | .nil => .invalid
  | .default t => t.read decode size [] bs
  | .cons t ms =>
    if i ∈ t.keys identifier then t.read decode size [] bs
    else ms.read decode size identifier i bs
termination_by structural ms
end

mutual
/-- How deep arrays and records are nested. -/
def VTy.height : VTy → Nat
  | .fixed t => t.height
  | .block _ _ _ | .text _ _ _ _ => 0
  | .array _ e _ | .list _ e _ => e.height + 1
  | .record _ _ fs => fs.height + 1
  | .group _ base _ ms => max base.height ms.height
termination_by structural t => t
def VFields.height : VFields → Nat
  | .nil => 0
  | .cons _ _ _ t fs => max t.height fs.height
  | .padding _ _ fs => fs.height
termination_by structural fs => fs
def VMembers.height : VMembers → Nat
  | .nil => 0
  | .default t => t.height
  | .cons t ms => max t.height ms.height
termination_by structural ms => ms
end

/-! Which fields an expression may name -/

/-- What is known of a name: it stands for a number, or for a record with the given
number fields. -/
inductive Thing
  | number
  | record (fields : List String)

/-- The values the caller supplies and the records around a type, the outermost first,
with their number fields before it. -/
abbrev Known := List (String × Thing)

def Expr.Within (k : Known) : Expr → Prop
  | .number _ => True
  | .given n => k.lookup n = some .number
  | .field r f => ∃ fs, k.lookup r = some (.record fs) ∧ f ∈ fs
  | .plus a b | .minus a b | .times a b | .bits a b => a.Within k ∧ b.Within k
  | .over a _ => a.Within k
  | .choose a _ c d b => (a.Within k ∧ b.Within k) ∧ c.Within k ∧ d.Within k

def Test.Within (k : Known) : Test → Prop
  | .compare _ a b => a.Within k ∧ b.Within k
  | .both t u | .either t u => t.Within k ∧ u.Within k
  | .negation t => t.Within k

def Len.Within (k : Known) : Len → Prop
  | .bytes e | .count e | .bytesTo e _ | .countTo e _ => e.Within k
  | .upto _ => True

/-- Numbers. -/
def VTy.IsNumber : VTy → Bool
  | .fixed (.scalar _ _ (.integer _) _) => true
  | _ => false

mutual
/-- Expressions name numbers of the caller and number fields without condition that come
before, in the record or a record around it; no record is inside one of the same name. -/
def VTy.Scoped (k : Known) (t : VTy) : Prop :=
  match t with
  | .fixed _ => True
  | .block _ _ len | .text _ _ _ len => len.Within k
  | .array _ e x | .list _ e x => x.Within k ∧ e.Scoped []
  | .record name _ fs => name ∉ k.map (·.1) ∧ fs.Scoped k name []
  | .group _ base _ ms => base.Scoped [] ∧ ms.Scoped
termination_by structural t
def VFields.Scoped (k : Known) (name : String) (before : List String) (fs : VFields) : Prop :=
  match fs with
  | .nil => True
  | .cons n c _ t fs => (∀ x, c = some x → x.Within (k ++ [(name, .record before)])) ∧
    t.Scoped (k ++ [(name, .record before)]) ∧
    fs.Scoped k name (if c.isNone && t.IsNumber then before ++ [n] else before)
  | .padding _ _ fs => fs.Scoped k name before
termination_by structural fs
def VMembers.Scoped (ms : VMembers) : Prop :=
  match ms with
  | .nil => True
  | .default t => t.Scoped []
  | .cons t ms => t.Scoped [] ∧ ms.Scoped
termination_by structural ms
end

/-- What expressions can use of a value. -/
def seen : Val → Thing
  | .int _ => .number
  | .struct c attrs => .record ((attrs.map (·.1)).filter fun f => (numberField (some (.struct c attrs)) f).isSome)
  | _ => .record []

/-- What expressions can use of the values the caller supplies. The name `__builtins__`
belongs to Python. -/
def given (values : Scope) : Known :=
  values.map fun p => (p.1, if p.1 = "__builtins__" then .record [] else seen p.2)

end Spec
open Spec

/-! ### Definitions -/

/-- A plain number is kept as such. -/
def Spec.Expr.plain : Expr → Option Int
  | .number n => some n
  | _ => none

/-- Other expressions are kept as text. -/
def Spec.Expr.formula : Expr → Option String
  | .number _ => none
  | e => some e.text

/-- The rules of a block or text. -/
def lenInfo (kind : SeqKind) (e : Ty) : Len → SeqInfo
  | .bytes x => { kind := kind, elementDataType := some e.name, dataSize := x.plain, dataSizeExpr := x.formula }
  | .count x => { kind := kind, elementDataType := some e.name, numElements := x.plain, numElementsExpr := x.formula }
  | .upto t => { kind := kind, elementDataType := some e.name, terminator := some (.bytes t) }
  | .bytesTo x t => { kind := kind, elementDataType := some e.name, dataSize := x.plain, dataSizeExpr := x.formula,
                      terminator := some (.bytes t) }
  | .countTo x t => { kind := kind, elementDataType := some e.name, numElements := x.plain, numElementsExpr := x.formula,
                      terminator := some (.bytes t) }

/-- The rules of an array. -/
def countInfo (element : String) (x : Expr) : SeqInfo :=
  { kind := .sequence, elementDataType := some element, numElements := x.plain, numElementsExpr := x.formula }

/-- The rules of a list. -/
def sizeInfo (element : String) (x : Expr) : SeqInfo :=
  { kind := .sequence, elementDataType := some element, dataSize := x.plain, dataSizeExpr := x.formula }

/-- The supported values of a field. -/
def supported (vs : List Int) : Option (List Lit) := if vs = [] then none else some (vs.map .int)

mutual
/-- The definition the reader makes of a type. -/
def vtyDefn : VTy → Defn
  | .fixed t => tyDefn t
  | .block n e len => .seq { name := n, order := orderOf e.big } (lenInfo .stream e len) (tyDefn e)
  | .text n enc e len => .seq { name := n, order := orderOf e.big } (lenInfo (.string enc) e len) (tyDefn e)
  | .array n e count =>
    .seq { name := n, order := orderOf e.big } (countInfo e.name count) (vtyDefn e)
  | .list n e size => .seq { name := n, order := orderOf e.big } (sizeInfo e.name size) (vtyDefn e)
  | .record n big fs => .struct { name := n, order := orderOf big } (vfieldDefns fs)
  | .group n base ident ms =>
    .group { name := n, order := orderOf base.big } (vtyDefn base) ident (vdefaultDefn ms) (vmemberDefns ms)
termination_by structural t => t
def vfieldDefns : VFields → List Defn
  | .nil => []
  | .cons n c vs t fs =>
    .member { name := n, order := orderOf t.big } (vtyDefn t) (c.map Test.text) (some t.name) (supported vs) ::
      vfieldDefns fs
  | .padding n a fs => .padding { name := n, order := .native } (some a) :: vfieldDefns fs
termination_by structural fs => fs
/-- The definition of the record for all other cases. -/
def vdefaultDefn : VMembers → Option Defn
  | .nil => none
  | .default t => some (vtyDefn t)
  | .cons _ ms => vdefaultDefn ms
termination_by structural ms => ms
/-- The definitions of the records of a group. -/
def vmemberDefns : VMembers → List Defn
  | .nil | .default _ => []
  | .cons t ms => vtyDefn t :: vmemberDefns ms
termination_by structural ms => ms
end

/-- What is needed of a length. -/
def LenOk (E : Env) (e : Ty) : Len → Prop
  | .bytes x | .count x => x.Accepted E ∧ ∀ n, x = .number n → 0 < n
  | .upto t => t ≠ [] ∧ t.length = e.size
  | .bytesTo x t | .countTo x t => x.Accepted E ∧ (∀ n, x = .number n → 0 < n) ∧ t ≠ []

/-- The fields that are numbers. -/
def numberFields : Fields → List String
  | .nil => []
  | .cons n t fs => if (VTy.fixed t).IsNumber then n :: numberFields fs else numberFields fs

def vnumberFields : VFields → List String
  | .nil => []
  | .cons n _ _ t fs => if t.IsNumber then n :: vnumberFields fs else vnumberFields fs
  | .padding _ _ fs => vnumberFields fs

/-- The fields of a record that are numbers. -/
def Spec.VTy.numbers : VTy → List String
  | .fixed (.record _ _ fs) => numberFields fs
  | .record _ _ fs => vnumberFields fs
  | _ => []

/-- The records of a group. -/
def Spec.VMembers.records : VMembers → List VTy
  | .nil | .default _ => []
  | .cons t ms => t :: ms.records

/-- The numbers that tell the records of a group. -/
def Spec.VMembers.keys (ident : String) : VMembers → List Int
  | .nil | .default _ => []
  | .cons t ms => t.keys ident ++ ms.keys ident

/-- Elements of a list: of a fixed size, or with a terminator. -/
def Spec.VTy.Listed (e : VTy) (x : Expr) : Prop :=
  match e with
  | .fixed _ => x.Computed
  | .block _ _ (.upto _) | .text _ _ _ (.upto _) => ∀ k, x = .number k → 0 < k
  | _ => False

mutual
/-- What is needed of a type for its definition to be read and mapped. An array of a given
number of elements of fixed size is `fixed`. -/
def VTyOk (E : Env) : VTy → Prop
  | .fixed t => TyOk E t
  | .block n e len | .text n _ e len => Nameable n ∧ (∃ n b k s, e = .scalar n b k s) ∧ TyOk E e ∧ LenOk E e len
  | .array n e count => Nameable n ∧ count.Accepted E ∧ (∀ k, count = .number k → 0 < k ∧ ∀ t, e ≠ .fixed t) ∧
    VTyOk E e
  | .list n e x => Nameable n ∧ x.Accepted E ∧ e.Listed x ∧ VTyOk E e
  | .record n _ fs => Nameable n ∧ ValidNames E n fs.names ∧
    (∀ x ∈ n :: fs.names, x ≠ "super" ∧ E.pyIdent x = true ∧ Unquoted x) ∧ (∀ x ∈ fs.names, x ≠ n ∧ x ≠ "self") ∧
    (∀ t ∈ fs.types, ∀ u ∈ fs.types, t.name = u.name → t = u) ∧
    (∀ x ∈ fs.pads, x.toList.head? ≠ some '_' ∧ ∀ t ∈ fs.types, x ≠ t.name) ∧ VFieldsOk E fs
  | .group n base ident ms => Nameable n ∧ ident ∈ base.numbers ∧ VTyOk E base ∧ (ms.keys ident).Nodup ∧
    ms.records ≠ [] ∧ VMembersOk E ident ms
termination_by structural t => t
def VFieldsOk (E : Env) : VFields → Prop
  | .nil => True
  | .cons _ c vs t fs => (∀ x, c = some x → x.Accepted E) ∧ (vs ≠ [] → t.IsNumber = true) ∧ VTyOk E t ∧ VFieldsOk E fs
  | .padding _ a fs => 0 < a ∧ VFieldsOk E fs
termination_by structural fs => fs
def VMembersOk (E : Env) (ident : String) : VMembers → Prop
  | .nil => True
  | .default t => VTyOk E t
  | .cons t ms => t.keys ident ≠ [] ∧ VTyOk E t ∧ VMembersOk E ident ms
termination_by structural ms => ms
end

theorem vtyDefn_name (t : VTy) : (vtyDefn t).name = t.name := by
  cases t with
  | fixed t => rw [vtyDefn, tyDefn_name]; rfl
  | _ => simp [vtyDefn, Defn.name, Defn.hdr, VTy.name]

theorem vtyDefn_order (t : VTy) : (vtyDefn t).order? = some (orderOf t.big) := by
  cases t with
  | fixed t => rw [vtyDefn, tyDefn_order]; rfl
  | _ => simp [vtyDefn, Defn.order?, VTy.big]

theorem vfieldDefns_names : ∀ fs : VFields, (vfieldDefns fs).map Defn.name = fs.names
  | .nil => by simp [vfieldDefns, VFields.names]
  | .cons n c vs t fs => by
    simp only [vfieldDefns, VFields.names, List.map_cons, vfieldDefns_names fs]
    rfl
  | .padding n a fs => by
    simp only [vfieldDefns, VFields.names, List.map_cons, vfieldDefns_names fs]
    rfl

theorem vtyOk_nameable {E : Env} {t : VTy} (h : VTyOk E t) : Nameable t.name := by
  cases t <;> rw [VTyOk] at h
  · exact tyOk_nameable h
  · exact h.1
  · exact h.1
  · exact h.1
  · exact h.1
  · exact h.1
  · exact h.1

end Dtf
