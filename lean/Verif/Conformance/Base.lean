import Verif.Hint
import Verif.Fold
import Verif.Fabric
import Verif.Float
import Verif.Text
import Verif.Arithmetic
import Verif.Conformance.Files
/-!
# The model against the tests of the project

The assertions of the tests of the project (/repo/tests), which say what the Python code does
for given definitions and bytes, evaluated on the model by the interpreter of Lean. These are tests of
the model, not proofs of properties: no claim in properties.jsonl rests on them.

Here: the Python platform the tests run on, and what the assertions need.
-/
namespace Dtf
namespace Conformance
open Spec

/-- The value of a name, whatever it is. -/
def name (n : String) (ns : Namespace) : Option Val := nsGet ns n

/-- The value of an expression of numbers. -/
def num (e : Expr) (ns : Namespace) : Option Val := Tree.eval ns (.num e)

/-- The value of a comparison. -/
def rel (r : Rel) (a b : Expr) (ns : Namespace) : Option Val := Tree.eval ns (.test (.compare r a b))

/-- What Python makes of the expressions in the definition files of the tests. -/
def expressions : List (String × (Namespace → Option Val)) := [
  ("n", name "n"),
  ("size", name "size"),
  ("vector_size", name "vector_size"),
  ("number_of_properties", name "number_of_properties"),
  ("vector.number_of_elements", num (.field "vector" "number_of_elements")),
  ("string_array.number_of_strings", num (.field "string_array" "number_of_strings")),
  ("string_array_with_size.strings_data_size",
    num (.field "string_array_with_size" "strings_data_size")),
  ("sphere3d.number_of_triangles", num (.field "sphere3d" "number_of_triangles")),
  ("utf16_string.size", num (.field "utf16_string" "size")),
  ("bsm_token_data_arg32.argument_value_size",
    num (.field "bsm_token_data_arg32" "argument_value_size")),
  ("bsm_token_data_arg64.argument_value_size",
    num (.field "bsm_token_data_arg64" "argument_value_size")),
  ("structure_with_padding_and_stream.data_size",
    num (.field "structure_with_padding_and_stream" "data_size")),
  ("structure_with_value.data_size", num (.field "structure_with_value" "data_size")),
  ("0 if extension_block.size == 0 else extension_block.size - 4",
    num (.choose (.number 0) .eq (.field "extension_block" "size") (.number 0)
      (.minus (.field "extension_block" "size") (.number 4)))),
  ("structure_with_condition.flags & 0x0001 != 0",
    rel .ne (.bits (.field "structure_with_condition" "flags") (.number 0x0001)) (.number 0)),
  ("structure_with_condition.flags & 0x8000 != 0",
    rel .ne (.bits (.field "structure_with_condition" "flags") (.number 0x8000)) (.number 0)),
  ("union_with_condition.flags & 0x8000 != 0",
    rel .ne (.bits (.field "union_with_condition" "flags") (.number 0x8000)) (.number 0))]

/-- The encodings the tests use. -/
def encoding : String → Option Encoding
  | "ascii" => some .ascii
  | "utf8" => some .utf8
  | "utf-16-le" => some (.utf16 true)
  | _ => none

def wordChar (c : Char) : Bool := c.isAlphanum || c == '_'

/-- The platform: little-endian, with the expressions and encodings above. -/
def testEnv : Env where
  evalExpr s ns := (expressions.lookup s).bind fun f => f ns
  parses s := (expressions.lookup s).isSome
  decode e b := (encoding e).bind fun K => K.decode b
  encode e cs := (encoding e).bind fun K => K.encode cs
  f32to64 := widen
  f64to32 := narrow
  intToF64 _ := none
  nativeLittle := true
  isDigit c := c.isDigit
  isAlnum c := c.isAlphanum
  isKeyword s := ["False", "None", "True", "and", "as", "assert", "async", "await", "break", "class",
    "continue", "def", "del", "elif", "else", "except", "finally", "for", "from", "global", "if",
    "import", "in", "is", "lambda", "nonlocal", "not", "or", "pass", "raise", "return", "try", "while",
    "with", "yield"].contains s
  pyIdent s := s.toList.all wordChar && !s.toList.head?.all (·.isDigit)
  lower s := String.ofList (s.toList.map (·.toLower))

/-- _CreateDefinitionRegistryFromFile, tests/test_lib.py:22-51. -/
def load (f : YamlFile) : Registry := (readFileObject testEnv {} f).2

def definition (f : YamlFile) (n : String) : Option Defn := (load f).getByName testEnv n

/-- Assignment to `byte_order` of a definition. -/
def withOrder (o : Order) : Defn → Defn
  | .prim h k s u => .prim { h with order := o } k s u
  | .uuid h s u => .uuid { h with order := o } s u
  | .seq h i e => .seq { h with order := o } i e
  | .struct h ms => .struct { h with order := o } ms
  | d => d

/-- Assignment to `false_value` and `true_value` of a definition. -/
def withBooleans (f t : Option Int) : Defn → Defn
  | .prim h _ s u => .prim h (.boolean f t) s u
  | d => d

/-- Assignment to `elements_data_size` and `number_of_elements` of a definition. -/
def withSizes (size number : Option Int) : Defn → Defn
  | .seq h i e => .seq h { i with dataSize := size, numElements := number } e
  | d => d

/-- The map of a definition of a file. -/
def mapFor (f : YamlFile) (n : String) (edit : Defn → Defn := id) : Except Err DMap :=
  match definition f n with
  | none => .error .key
  | some d => createMap testEnv (edit d)

mutual
/-- The same Python object. -/
def same : Val → Val → Bool
  | .pyNone, .pyNone => true
  | .bool a, .bool b => a == b
  | .int a, .int b => a == b
  | .float a, .float b => a == b
  | .bytes a, .bytes b => a == b
  | .str a, .str b => a == b
  | .uuid a, .uuid b => a == b
  | .tuple a, .tuple b => sames a b
  | _, _ => false
termination_by structural v => v
def sames : List Val → List Val → Bool
  | [], [] => true
  | a :: as, b :: bs => same a b && sames as bs
  | _, _ => false
termination_by structural vs => vs
end

def text (s : String) : Val := .str (s.toList.map (·.toNat))

def ascii (s : String) : Bytes := s.toList.map fun c => UInt8.ofNat c.toNat

def utf16le (s : String) : Bytes := s.toList.flatMap fun c => [UInt8.ofNat c.toNat, 0]

/-- `value.to_bytes(4, byteorder='little')` of the numbers `range(start, stop)`. -/
def words (start stop : Nat) : Bytes :=
  (List.range (stop - start)).flatMap fun i => bytesOf true 4 (start + i)

/-- MapByteStream. -/
def mapBytes (f : YamlFile) (n : String) (bs : Bytes) (edit : Defn → Defn := id) (off : Nat := 0)
    (depth : Nat := 0) (ctx : Ctx := {}) : Except Err Val :=
  match mapFor f n edit with
  | .error e => .error e
  | .ok m => (mapStream testEnv m bs off depth ctx).1

/-- The context after MapByteStream. -/
def contextAfter (f : YamlFile) (n : String) (bs : Bytes) (ctx : Ctx := {}) : Ctx :=
  match mapFor f n with
  | .error _ => ctx
  | .ok m => (mapStream testEnv m bs 0 0 ctx).2

/-- FoldByteStream. -/
def foldBytes (f : YamlFile) (n : String) (v : Val) (edit : Defn → Defn := id) (ns : Namespace := []) :
    Except Err Val :=
  match mapFor f n edit with
  | .error e => .error e
  | .ok m => fold testEnv m v ns

/-- GetSizeHint. -/
def hint (f : YamlFile) (n : String) (ctx : Ctx := {}) : Except Err (Option Int) :=
  match mapFor f n with
  | .error e => .error e
  | .ok m => (getSizeHint testEnv m ctx).1

/-- GetStructFormatString. -/
def formatString (f : YamlFile) (n : String) (edit : Defn → Defn := id) : Except Err (Option String) :=
  match mapFor f n edit with
  | .error e => .error e
  | .ok m => m.fmt.map (·.map String.ofList)

/-- Attribute or item of a value. -/
inductive Step
  | attr (n : String)
  | item (i : Nat)

def Step.of : Step → Val → Option Val
  | .attr n, .struct _ as => as.lookup n
  | .item i, .tuple vs => vs[i]?
  | _, _ => none

/-- `assertEqual` on what a call returns, or a part of it. -/
def gives (r : Except Err Val) (v : Val) (path : List Step := []) : Bool :=
  match r with
  | .error _ => false
  | .ok x => ((path.foldl (fun o s => o.bind s.of) (some x)).map (same v)).getD false

/-- `assertEqual` on attributes of what a call returns. -/
def givesAll (r : Except Err Val) (expected : List (List Step × Val)) : Bool :=
  expected.all fun e => gives r e.2 e.1

/-- `assertRaises`. -/
def raises {α : Type} (r : Except Err α) (e : Err) : Bool :=
  match r with
  | .error x => x == e
  | .ok _ => false

def ok {α : Type} : Except Err α → Bool
  | .ok _ => true
  | .error _ => false

def equal {α : Type} [DecidableEq α] (r : Except Err α) (x : α) : Bool :=
  match r with
  | .error _ => false
  | .ok y => decide (y = x)

end Conformance
end Dtf
