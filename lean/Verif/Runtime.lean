import Verif.Defs
/-!
Structure values classes, dtfabric/runtime/runtime.py.
-/
namespace Dtf

/-- StructureValuesClassFactory._IsIdentifier, dtfabric/runtime/runtime.py:105-117. -/
def isIdentifier (E : Env) (s : String) : Bool :=
  match s.toList with
  | [] => false
  | c :: cs => !E.isDigit c && (c :: cs).all fun x => E.isAlnum x || x == '_'

/-- The checks on one attribute name, dtfabric/runtime/runtime.py:148-166. -/
def attrNameOk (E : Env) (seen : List String) (n : String) : Bool :=
  isIdentifier E n && !(n.toList.head? == some '_') && !E.isKeyword n && !seen.contains n

/-- The loop over the members, dtfabric/runtime/runtime.py:145-166. -/
def attrNamesOk (E : Env) : List String → List String → Bool
  | _, [] => true
  | seen, n :: ns => attrNameOk E seen n && attrNamesOk E (n :: seen) ns

/-- StructureValuesClassFactory._ValidateDataTypeDefinition,
dtfabric/runtime/runtime.py:119-166; all failures are `ValueError`. -/
def validateClass (E : Env) (name : String) (memberNames : List String) : Except Err Unit :=
  if !isIdentifier E name then .error .value
  else if E.isKeyword name then .error .value
  else if memberNames.isEmpty then .error .value
  else if !attrNamesOk E [] memberNames then .error .value
  else .ok ()

/-- The names of the built-in types, dtfabric/runtime/runtime.py:33-40. -/
def nativeTypeName : PrimKind → String
  | .boolean _ _ => "bool"
  | .character => "str"
  | .floatingPoint => "float"
  | .integer _ => "int"

/-- The type of a sequence, stream or string in the text of a class,
dtfabric/runtime/runtime.py:33-40, 74-79; formatting `None` with `:s` is a `TypeError`
(`none`). -/
def seqTypeText (info : SeqInfo) : Option (List Char) :=
  match info.kind with
  | .sequence => info.elementDataType.map fun t => "tuple[".toList ++ t.toList ++ [']']
  | .stream => some "bytes".toList
  | .string _ => some "str".toList

/-- The type of a member in the text of a class, dtfabric/runtime/runtime.py:69-79;
formatting `None` with `:s` is a `TypeError` (`none`). -/
def memberTypeText : Defn → Option (List Char)
  | .member _ d _ dt _ =>
    match d with
    | .prim _ k _ _ => some (nativeTypeName k).toList
    | .uuid _ _ _ => some "uuid.UUID".toList
    | .seq _ info _ => seqTypeText info
    | _ => dt.map String.toList
  | .prim _ k _ _ => some (nativeTypeName k).toList
  | .uuid _ _ _ => some "uuid.UUID".toList
  | .seq _ info _ => seqTypeText info
  | _ => some []

/-- A description, or the name if there is none, without dots at its end,
dtfabric/runtime/runtime.py:54-56, 65-67. -/
def shownText (description : Option String) (name : String) : List Char :=
  let text := match description with
    | some d => if d = "" then name.toList else d.toList
    | none => name.toList
  (text.reverse.dropWhile (· == '.')).reverse

/-- `<=` of two texts: by code points. -/
def lineLe : List Char → List Char → Bool
  | [], _ => true
  | _ :: _, [] => false
  | a :: as, b :: bs => a.toNat < b.toNat || (a.toNat = b.toNat && lineLe as bs)

/-- `sorted` of a list of texts. -/
def insertLine (l : List Char) : List (List Char) → List (List Char)
  | [] => [l]
  | k :: ks => if lineLe l k then l :: k :: ks else k :: insertLine l ks
def sortLines : List (List Char) → List (List Char)
  | [] => []
  | l :: ls => insertLine l (sortLines ls)

/-- `separator.join(texts)`. -/
def joinLines (sep : List Char) : List (List Char) → List Char
  | [] => []
  | [l] => l
  | l :: k :: ls => l ++ sep ++ joinLines sep (k :: ls)

/-- One line of the attributes in the documentation of a class,
dtfabric/runtime/runtime.py:83-85. -/
def attributeLine (d : Defn) (type : List Char) : List Char :=
  "    ".toList ++ d.name.toList ++ " (".toList ++ type ++ "): ".toList ++
    shownText d.hdr.description d.name ++ ['.']

/-- The documentation of a class between the quotes, dtfabric/runtime/runtime.py:21-25,
52-92; `none` is the `TypeError` of `memberTypeText`. -/
def classDoc (nm : String) (description : Option String) (ms : List Defn) : Option (List Char) :=
  (ms.mapM fun d => (memberTypeText d).map (attributeLine d)).map fun lines =>
    shownText description nm ++ ".\n\n  Attributes:\n".toList ++ joinLines ['\n'] (sortLines lines) ++
      "\n  ".toList

/-- The text of a class after its documentation, dtfabric/runtime/runtime.py:26-31, 81-82,
93-94. -/
def classCode (nm : String) (names : List String) : List Char :=
  "\n\n  def __init__(self, ".toList ++
    joinLines ", ".toList (names.map fun n => n.toList ++ "=None".toList) ++
    "):\n    \"\"\"Initializes an instance of ".toList ++ nm.toList ++
    ".\"\"\"\n    super(".toList ++ nm.toList ++ ", self).__init__()\n".toList ++
    joinLines ['\n'] (sortLines (names.map fun n => "    self.".toList ++ n.toList ++ " = ".toList ++ n.toList)) ++
    ['\n']

/-- StructureValuesClassFactory._CreateClassTemplate, dtfabric/runtime/runtime.py:42-103. -/
def classText (nm : String) (description : Option String) (ms : List Defn) : Option (List Char) :=
  (classDoc nm description ms).map fun doc =>
    "class ".toList ++ nm.toList ++ "(object):\n  \"\"\"".toList ++ doc ++ "\"\"\"".toList ++
      classCode nm (ms.map Defn.name)

/-- What follows the literal text that has been opened with three quotes, after `q`
quotes in a row: the Python tokenizer skips the character after a backslash and stops
at three quotes in a row. `none`: the literal does not end. -/
def literalEnd (q : Nat) : List Char → Option (List Char)
  | [] => none
  | c :: cs =>
    if c = '"' then if q = 2 then some cs else literalEnd (q + 1) cs
    else if c = '\\' then
      match cs with
      | [] => none
      | _ :: rest => literalEnd 0 rest
    else literalEnd 0 cs

/-- The number written with the next `n` hexadecimal digits. -/
def hexValue (acc : Nat) : Nat → List Char → Option Nat
  | 0, _ => some acc
  | _ + 1, [] => none
  | n + 1, c :: cs =>
    if '0' ≤ c ∧ c ≤ '9' then hexValue (16 * acc + (c.toNat - 48)) n cs
    else if 'a' ≤ c ∧ c ≤ 'f' then hexValue (16 * acc + (c.toNat - 87)) n cs
    else if 'A' ≤ c ∧ c ≤ 'F' then hexValue (16 * acc + (c.toNat - 55)) n cs
    else none

/-- Whether a character occurs in the names of Unicode characters. -/
def nameChar (c : Char) : Bool := c.isAlphanum || c == ' ' || c == '-'

/-- Whether the name of a character up to a closing brace follows; `acc` is its part
read already, reversed. -/
def charName (E : Env) (acc : List Char) : List Char → Bool
  | [] => false
  | c :: cs =>
    if c = '}' then E.unicodeName (String.ofList acc.reverse)
    else nameChar c && charName E (c :: acc) cs

/-- Whether the Python parser accepts the escape sequence of a backslash and the
character `c` before the text `cs`. -/
def escapeOk (E : Env) (c : Char) (cs : List Char) : Bool :=
  if c = 'x' then (hexValue 0 2 cs).isSome
  else if c = 'u' then (hexValue 0 4 cs).isSome
  else if c = 'U' then match hexValue 0 8 cs with
    | some v => v ≤ 0x10ffff
    | none => false
  else if c = 'N' then match cs with
    | '{' :: name => charName E [] name
    | _ => false
  else true

/-- Whether the Python parser accepts all escape sequences in the text of a literal;
unknown ones are accepted (with a warning). -/
def escapesOk (E : Env) : List Char → Bool
  | [] => true
  | c :: cs =>
    if c = '\\' then
      match cs with
      | [] => true
      | e :: rest => escapeOk E e rest && escapesOk E rest
    else escapesOk E cs

/-- What Python makes of the documentation `doc` of a class whose other text is `code`,
dtfabric/runtime/runtime.py:191. If the documentation ends at another place, then what
follows is run as code (`Err.other`: nothing is said about what happens then). A null
character is a `SyntaxError` (a `ValueError` before Python 3.12). -/
def readDoc (E : Env) (doc code : List Char) : Except Err Unit :=
  if doc.contains '\x00' then .error .syntax
  else
    match literalEnd 0 (doc ++ "\"\"\"".toList ++ code) with
    | none => .error .syntax
    | some rest =>
      if rest ≠ code then .error .other
      else if escapesOk E doc then .ok () else .error .syntax

/-- Whether a text has no quote, no backslash and no null character. -/
def plainText (t : List Char) : Bool := t.all fun c => c != '"' && c != '\\' && c != '\x00'

/-- Whether all texts put into the documentation of a class are plain. -/
def plainTexts (nm : String) (description : Option String) (ms : List Defn) : Bool :=
  plainText nm.toList && plainText (description.getD "").toList &&
    ms.all fun d => plainText d.name.toList && plainText ((memberTypeText d).getD []) &&
      plainText (d.hdr.description.getD "").toList

/-- StructureValuesClassFactory.CreateClass, dtfabric/runtime/runtime.py:168-194.
Executing the template fails with `SyntaxError` when a member is called `self`
(duplicate argument, :27) or a name is no identifier for the Python parser.
The result tells whether instances can be created: a member called `super` or
like the class, or a class called `super`, hides the name used in
`super({type_name}, self)` (:29), which makes every instantiation a `TypeError`.
Plain texts are not looked at again: `readDoc_plain` (module `ClassText`) proves that
this makes no difference. -/
def createClass (E : Env) (name : String) (description : Option String) (members : List Defn) :
    Except Err Bool :=
  let names := members.map Defn.name
  match validateClass E name names with
  | .error e => .error e
  | .ok () =>
    match classDoc name description members with
    | none => .error .type
    | some doc =>
      match (if plainTexts name description members then .ok ()
        else readDoc E doc (classCode name names)) with
      | .error e => .error e
      | .ok () =>
        if names.contains "self" || !(name :: names).all E.pyIdent then .error .syntax
        else .ok (!(names.contains "super" || names.contains name || name == "super"))

/-- Attributes of a new instance created without arguments: every attribute is
`None`, dtfabric/runtime/runtime.py:81-82. -/
def newInstance (names : List String) : List (String × Val) := names.map fun n => (n, .pyNone)

/-- Instance created with positional arguments, dtfabric/runtime/runtime.py:81-82:
missing arguments default to `None`, too many arguments are a `TypeError`
(`none`). -/
def newInstanceArgs : List String → List Val → Option (List (String × Val))
  | ns, [] => some (newInstance ns)
  | [], _ :: _ => none
  | n :: ns, v :: vs => (newInstanceArgs ns vs).map ((n, v) :: ·)

/-- Instance created with positional and keyword arguments,
dtfabric/runtime/data_maps.py:1972-1978 and dtfabric/runtime/runtime.py:81-82: the positional ones
come first; too many of them, an unknown keyword, or a keyword for a member given
by position is a `TypeError` (`none`). The keys of `kw` are distinct. -/
def newInstanceCall (names : List String) (args : List Val) (kw : Namespace) :
    Option (List (String × Val)) :=
  if names.length < args.length then none
  else if kw.all (fun p => (names.drop args.length).contains p.1) then
    some (List.zip (names.take args.length) args ++
      (names.drop args.length).map fun n => (n, (nsGet kw n).getD .pyNone))
  else none

end Dtf
