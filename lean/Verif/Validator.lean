import Verif.Reader
/-!
The definitions validator, dtfabric/scripts/validate_definitions.py, with the
parts of the Python modules glob and fnmatch it uses.
-/
namespace Dtf

/-- One item of a file name pattern of the Python module fnmatch. -/
inductive PatItem
  | star
  | any
  | lit (c : Char)
  | set (neg : Bool) (ranges : List (Char × Char))
deriving DecidableEq, Repr

/-- The items between brackets: single characters and ranges. -/
def setRanges : List Char → List (Char × Char)
  | a :: '-' :: b :: cs => (a, b) :: setRanges cs
  | a :: cs => (a, a) :: setRanges cs
  | [] => []

/-- Splits at the first `]`. -/
def untilBracket : List Char → Option (List Char × List Char)
  | [] => none
  | ']' :: cs => some ([], cs)
  | c :: cs => (untilBracket cs).map fun p => (c :: p.1, p.2)

/-- The contents of a bracket expression after `[`, and the rest; a `]` right after
the opening bracket or the `!` is an ordinary character. -/
def bracket (cs : List Char) : Option (PatItem × List Char) :=
  let (neg, cs) := match cs with
    | '!' :: cs => (true, cs)
    | cs => (false, cs)
  match cs with
  | ']' :: cs => (untilBracket cs).map fun p => (.set neg (setRanges (']' :: p.1)), p.2)
  | cs => (untilBracket cs).map fun p => (.set neg (setRanges p.1), p.2)

/-- `fnmatch.translate`. The first argument bounds the length of the pattern. -/
def translate : Nat → List Char → List PatItem
  | 0, _ => []
  | _ + 1, [] => []
  | n + 1, '*' :: cs => .star :: translate n cs
  | n + 1, '?' :: cs => .any :: translate n cs
  | n + 1, '[' :: cs => match bracket cs with
    | some (i, cs) => i :: translate n cs
    | none => .lit '[' :: translate n cs
  | n + 1, c :: cs => .lit c :: translate n cs

/-- The suffixes of a list, longest first. -/
def suffixes : List Char → List (List Char)
  | [] => [[]]
  | c :: cs => (c :: cs) :: suffixes cs

/-- Whether a name matches a translated pattern. -/
def matches? : List PatItem → List Char → Bool
  | [], cs => cs.isEmpty
  | .star :: ps, cs => (suffixes cs).any (matches? ps)
  | .any :: ps, cs => match cs with
    | [] => false
    | _ :: cs => matches? ps cs
  | .lit a :: ps, cs => match cs with
    | [] => false
    | c :: cs => c == a && matches? ps cs
  | .set neg rs :: ps, cs => match cs with
    | [] => false
    | c :: cs => (rs.any fun r => r.1 ≤ c && c ≤ r.2) != neg && matches? ps cs

/-- `fnmatch.fnmatch` on a system with case-sensitive names. -/
def fnmatch (name pattern : String) : Bool :=
  matches? (translate pattern.toList.length pattern.toList) name.toList

/-- `glob.has_magic`. -/
def hasMagic (s : String) : Bool := s.toList.any fun c => c == '*' || c == '?' || c == '['

/-- A file or directory. Files that cannot be opened or are not UTF-8 hold
nothing. -/
inductive Node
  | file (content : Option YamlFile)
  | dir (entries : List (String × Node))

/-- `name.startswith('.')`. -/
def hidden (name : String) : Bool := name.toList.head? == some '.'

/-- The entries of a directory that one component of a path pattern stands for:
`glob._glob1` for patterns, which leaves out hidden names unless the pattern is
hidden, and `glob._glob0` for names. -/
def globEntries (pattern : String) (entries : List (String × Node)) : List (String × Node) :=
  if hasMagic pattern then
    entries.filter fun e => (!hidden e.1 || hidden pattern) && fnmatch e.1 pattern
  else entries.filter fun e => e.1 == pattern

/-- `glob.glob` on the components of a path: the components and node of every
match. Paths with `.` and `..` and symbolic links are not modelled. -/
def glob : List String → Node → List (List String × Node)
  | [], n => [([], n)]
  | p :: ps, .dir es => (globEntries p es).flatMap fun e => (glob ps e.2).map fun m => (e.1 :: m.1, m.2)
  | _ :: _, .file _ => []

/-- CheckFile, dtfabric/scripts/validate_definitions.py:45-75. Opening a directory
or unreadable file is an `OSError` or `UnicodeDecodeError`. -/
def checkFile (E : Env) : Node → Except Err Bool
  | .dir _ | .file none => .error .other
  | .file (some f) => match (readFileObject E {} f).1 with
    | .ok _ => .ok true
    | .error .key | .error .format => .ok false
    | .error e => .error e

/-- The loop of CheckDirectory, :38-43: the result and the paths it checked. -/
def checkFiles (E : Env) : Bool → List (List String × Node) → Except Err Bool × List (List String)
  | result, [] => (.ok result, [])
  | result, m :: ms =>
    match checkFile E m.2 with
    | .error e => (.error e, [m.1])
    | .ok b =>
      let (r, checked) := checkFiles E (result && b) ms
      (r, m.1 :: checked)

/-- CheckDirectory, dtfabric/scripts/validate_definitions.py:20-43. -/
def checkDirectory (E : Env) (root : Node) (path : List String) (extension : String := "yaml") :
    Except Err Bool × List (List String) :=
  let spec := if extension != "" then "*." ++ extension else "*"
  let found := glob (path ++ [spec]) root
  checkFiles E true (found.mergeSort fun a b => decide ("/".intercalate a.1 ≤ "/".intercalate b.1))

/-- The file or directory a path leads to, `os.path.exists` and `os.path.isdir`. -/
def Node.find : List String → Node → Option Node
  | [], n => some n
  | p :: ps, .dir es => match es.find? fun e => e.1 == p with
    | some e => Node.find ps e.2
    | none => none
  | _ :: _, .file _ => none

/-- The check of a directory or file, :115-119. -/
def checkSource (E : Env) (root : Node) (path : List String) : Node → Except Err Bool
  | .dir _ => (checkDirectory E root path).1
  | .file f => checkFile E (.file f)

/-- Main, dtfabric/scripts/validate_definitions.py:74-126: the exit code or the
exception. `none` is a missing or empty argument. What is printed and the
arguments argparse itself refuses or answers are not modelled. -/
def validatorMain (E : Env) (root : Node) : Option (List String) → Except Err Nat
  | none => .ok 1
  | some path => match Node.find path root with
    | none => .ok 1
    | some n => match checkSource E root path n with
      | .error e => .error e
      | .ok b => if !b then .ok 1 else .ok 0

/-- The exit status of the process, :129-130; Python ends a script on an uncaught
exception with status 1. -/
def validatorStatus (E : Env) (root : Node) (source : Option (List String)) : Nat :=
  match validatorMain E root source with
  | .ok n => n
  | .error _ => 1

end Dtf
