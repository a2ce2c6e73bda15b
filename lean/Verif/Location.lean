import Verif.ReaderLemmas
/-!
Where the reader says that an error is: the attribute `name` of a
DefinitionReaderError (dtfabric/errors.py:13-34) and the first words of the text of
a FormatError. The functions are those of `Reader` once more, with the name kept;
`readFileAt_forget` shows that they are the same without it. Of the rest of a text
nothing is said.
-/
namespace Dtf

/-- An exception raised while a definition is read: a DefinitionReaderError with
its name (`none`: no name), or another one. -/
inductive ReadFault
  | reader (name : Option String)
  | other (e : Err)
deriving DecidableEq, Repr

/-- The class of the exception. -/
def ReadFault.err : ReadFault → Err
  | .reader _ => .reader
  | .other e => e

/-- The name of a definition as argument; `""` stands for a missing name. -/
def nameArg (name : String) : Option String := if name == "" then none else some name

/-- A part of the reader whose DefinitionReaderErrors all carry the argument
`definition_name`. These are all `raise` statements of dtfabric/reader.py except for
the lines 746, 1266, 1270, 1274 and 1281 and those that read members. -/
def withName {α : Type} (name : Option String) : Except Err α → Except ReadFault α
  | .ok a => .ok a
  | .error .reader => .error (.reader name)
  | .error e => .error (.other e)

/-- The loop over members, dtfabric/reader.py:272-285. -/
def addMembersAt (rm : Yaml → Except ReadFault Defn) (name : Option String) :
    Builder → List Yaml → Except ReadFault Builder
  | b, [] => .ok b
  | b, m :: ms => do
    let sect ← withName name (m.get "section")
    if sect.truthy then do
      let n ← withName name sect.text
      addMembersAt rm name (b.addSection n) ms
    else do
      let d ← rm m
      match b.addMember d with
      | (.error _, _) => .error (if d.name == "" then .other .type else .reader name)
      | (.ok _, b) => addMembersAt rm name b ms

/-- _ReadDataTypeDefinitionWithMembers, dtfabric/reader.py:225-287. -/
def readWithMembersAt (rm : Yaml → Except ReadFault Defn) (isUnion : Bool) (d : Yaml) (name : String) :
    Except ReadFault Defn := do
  let members ← withName (nameArg name) (d.get "members")
  if !members.truthy then .error (.reader (nameArg name))
  else do
    let h ← withName (nameArg name) (readHdr valuesWithMembers d name)
    let o ← withName (nameArg name) (readAttrs attrsStorage d)
    let items ← withName (nameArg name) members.iter
    let b ← addMembersAt rm (nameArg name) { isUnion := isUnion } items
    let h := { h with order := o.getD .native }
    .ok (if isUnion then .union h b.members else .struct h b.members)

/-- The callbacks, dtfabric/reader.py:15-37. `rm` reads a member of the definition
whose name is the first argument. -/
def readTypedAt (E : Env) (reg : Registry)
    (rm : Option String → Bool → Yaml → Except ReadFault Defn) (t : TypeInd)
    (isMember : Bool) (d : Yaml) (name : String) : Except ReadFault Defn :=
  match t with
  | .structure =>
    if isMember then .error (.reader (nameArg name))
    else readWithMembersAt (rm (nameArg name) true) false d name
  | .union => readWithMembersAt (rm (nameArg name) false) true d name
  | t => withName (nameArg name) (readTyped E reg (fun _ _ => .error .other) t isMember d name)

/-- `except DefinitionReaderError` around a definition that is a member,
dtfabric/reader.py:749-755. -/
def rename {α : Type} (name : Option String) : Except ReadFault α → Except ReadFault α
  | .error (.reader _) => .error (.reader name)
  | r => r

/-- _ReadMemberDataTypeDefinitionMember, dtfabric/reader.py:660-787; `owner` is the
argument `definition_name`. -/
def readMemberAt (E : Env) (reg : Registry) :
    Nat → Option String → Bool → Yaml → Except ReadFault Defn
  | 0, _, _, _ => .error (.other .diverge)
  | fuel + 1, owner, conditions, d =>
    if !d.truthy then .error (.reader owner)
    else do
      let name ← withName owner (d.get "name")
      let ty ← withName owner (d.get "type")
      if !name.truthy && (match ty with | .str "union" => false | _ => true) then
        .error (.reader owner)
      else do
        let nm ← withName owner (memberName name)
        let dataType ← withName owner (d.get "data_type")
        if dataType.isNone && ty.isNone then .error (.reader owner)
        else if !dataType.isNone && !ty.isNone then .error (.reader owner)
        else do
          let condition ← withName owner (d.get "condition")
          if !conditions && condition.truthy then .error (.reader owner)
          else do
            let value ← withName owner (d.get "value")
            let values ← withName owner (d.get "values")
            if !value.isNone && !values.isNone then .error (.reader owner)
            else do
              let sv ← withName owner (supportedValues value values)
              if !ty.isNone then do
                let t ← withName (nameArg nm) (callback ty)
                let inner ← rename owner (readTypedAt E reg (readMemberAt E reg fuel) t true d nm)
                let cond ← withName owner (memberCondition condition)
                if condition.truthy || sv.isSome then
                  .ok (.member { name := nm, order := inner.orderOrNative } inner cond none sv)
                else .ok inner
              else do
                let inner ← withName owner (resolve E reg dataType)
                let _ ← withName owner (checkKeys valuesMember d)
                let aliases ← withName owner (d.get "aliases")
                let description ← withName owner (d.get "description")
                let as ← withName owner aliases.names
                let desc ← withName owner description.text?
                let dt ← withName owner dataType.text
                let cond ← withName owner (memberCondition condition)
                .ok (.member
                  { name := nm, order := inner.orderOrNative, aliases := as, description := desc }
                  inner cond (some dt) sv)

/-- _ReadDefinition, dtfabric/reader.py:1250-1284. -/
def readDefinitionAt (E : Env) (reg : Registry) (d : Yaml) : Except ReadFault Defn :=
  if !d.truthy then .error (.reader none)
  else do
    let name ← withName none (d.get "name")
    if !name.truthy then .error (.reader none)
    else do
      let nm ← withName none name.text
      let ty ← withName (some nm) (d.get "type")
      if !ty.truthy then .error (.reader (some nm))
      else do
        let t ← withName (some nm) (callback ty)
        readTypedAt E reg (readMemberAt E reg d.depth) t false d nm

/-- The text of a FormatError up to the place where the definition is named,
dtfabric/reader.py:1375-1377. -/
def inText (name : Option String) : String := "in: " ++ name.getD "<NAMELESS>"

/-- _GetFormatErrorLocation for no definition, dtfabric/reader.py:1332-1341, 1380. -/
def afterText : Option String → String
  | some n => "after: " ++ n
  | none => "at start"

/-- What ReadFileObject raises: a FormatError with the first words of its text, or
another exception. -/
inductive FileFault
  | format (start : String)
  | other (e : Err)
deriving DecidableEq, Repr

/-- The class of the exception. -/
def FileFault.err : FileFault → Err
  | .format _ => .format
  | .other e => e

/-- `except DefinitionReaderError`, dtfabric/reader.py:1375-1377. -/
def ReadFault.file : ReadFault → FileFault
  | .reader n => .format (inText n)
  | .other e => .other e

/-- The loop of ReadFileObject, dtfabric/reader.py:1361-1373, with the name of the
last definition. -/
def readDocsAt (E : Env) (reg : Registry) (last : Option String) :
    List Yaml → Except ReadFault (Option String) × Registry
  | [] => (.ok last, reg)
  | d :: ds =>
    match readDefinitionAt E reg d with
    | .error e => (.error e, reg)
    | .ok x =>
      match reg.register E x with
      | (.error e, reg) => (.error (.other e), reg)
      | (.ok _, reg) => readDocsAt E reg (some x.name) ds

/-- ReadFileObject, dtfabric/reader.py:1343-1381. -/
def readFileAt (E : Env) (reg : Registry) (f : YamlFile) : Except FileFault Unit × Registry :=
  match readDocsAt E reg none f.docs with
  | (.error e, reg) => (.error e.file, reg)
  | (.ok last, reg) =>
    match f.ending with
    | .done => (.ok (), reg)
    | .scanner => (.error (.format (afterText last)), reg)
    | .other => (.error (.other .yaml), reg)

/-- Without the names. -/
def forget {α : Type} : Except ReadFault α → Except Err α
  | .ok a => .ok a
  | .error e => .error e.err

@[simp] theorem forget_ok {α : Type} (a : α) : forget (.ok a : Except ReadFault α) = .ok a := rfl
@[simp] theorem forget_error {α : Type} (e : ReadFault) :
    forget (.error e : Except ReadFault α) = .error e.err := rfl

@[simp] theorem forget_withName {α : Type} (n : Option String) (r : Except Err α) :
    forget (withName n r) = r := by
  rcases r with e | a
  · cases e <;> rfl
  · rfl

@[simp] theorem forget_rename {α : Type} (n : Option String) (r : Except ReadFault α) :
    forget (rename n r) = forget r := by
  rcases r with (_ | e) | a <;> rfl

@[simp] theorem forget_bind {α β : Type} (r : Except ReadFault α) (f : α → Except ReadFault β) :
    forget (r >>= f) = (forget r >>= fun a => forget (f a)) := by
  rcases r with e | a <;> rfl

theorem forget_ite {α : Type} (c : Prop) [Decidable c] (a b : Except ReadFault α) :
    forget (if c then a else b) = if c then forget a else forget b := by
  by_cases h : c <;> simp [h]

theorem addMembersAt_forget (rm : Yaml → Except ReadFault Defn) (n : Option String) (b : Builder)
    (ms : List Yaml) :
    forget (addMembersAt rm n b ms) = addMembers (fun m => forget (rm m)) b ms := by
  induction ms generalizing b with
  | nil => rfl
  | cons m ms ih =>
    simp only [addMembersAt, addMembers, forget_bind, forget_withName, forget_ite, ih]
    congr 1; funext sect
    congr 1; congr 1; funext d
    generalize b.addMember d = r
    rcases r with ⟨_ | _, b⟩
    · by_cases h : (d.name == "") = true <;> simp [h, ReadFault.err]
    · exact ih b

theorem readWithMembersAt_forget (rm : Yaml → Except ReadFault Defn) (u : Bool) (d : Yaml)
    (n : String) :
    forget (readWithMembersAt rm u d n) = readWithMembers (fun m => forget (rm m)) u d n := by
  simp only [readWithMembersAt, readWithMembers, forget_bind, forget_withName, forget_ite,
    addMembersAt_forget, forget_ok, forget_error, ReadFault.err]

theorem readTypedAt_forget (E : Env) (reg : Registry)
    (rm : Option String → Bool → Yaml → Except ReadFault Defn)
    (rm' : Bool → Yaml → Except Err Defn) (h : ∀ o c m, forget (rm o c m) = rm' c m)
    (t : TypeInd) (im : Bool) (d : Yaml) (n : String) :
    forget (readTypedAt E reg rm t im d n) = readTyped E reg rm' t im d n := by
  cases t <;> simp only [readTypedAt, readTyped, forget_withName, forget_ite, forget_error,
    ReadFault.err, readWithMembersAt_forget, h]

theorem readMemberAt_forget (E : Env) (reg : Registry) (f : Nat) (o : Option String) (c : Bool)
    (m : Yaml) : forget (readMemberAt E reg f o c m) = readMember E reg f c m := by
  induction f generalizing o c m with
  | zero => rfl
  | succ f ih =>
    simp only [readMemberAt, readMember, forget_bind, forget_withName, forget_ite, forget_ok,
      forget_error, forget_rename, ReadFault.err]
    simp only [readTypedAt_forget E reg (readMemberAt E reg f) (readMember E reg f)
      (fun o c m => ih o c m)]
    rfl

theorem readDefinitionAt_forget (E : Env) (reg : Registry) (d : Yaml) :
    forget (readDefinitionAt E reg d) = readDefinition E reg d := by
  simp only [readDefinitionAt, readDefinition, forget_bind, forget_withName, forget_ite,
    forget_error, ReadFault.err]
  simp only [readTypedAt_forget E reg (readMemberAt E reg d.depth) (readMember E reg d.depth)
      (fun o c m => readMemberAt_forget E reg _ o c m)]

end Dtf
