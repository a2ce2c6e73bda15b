import Verif.Defs
/-!
Definition objects under construction: DataTypeDefinitionWithMembers with its
size cache and sections, and EnumerationDefinition, dtfabric/data_types.py.

A method returns the result and the object afterwards, also when it raises.
-/
namespace Dtf

/-- MemberSectionDefinition, dtfabric/data_types.py:559-577. -/
structure Section where
  name : String
  members : List Defn

/-- The state of a StructureDefinition or UnionDefinition object,
dtfabric/data_types.py:413-432. `members` are the values of the ordered
dictionary `_members_by_name`, whose keys are the names of the members. The
members themselves do not change (simplification). -/
structure Builder where
  isUnion : Bool
  byteSize : Option Int := none
  members : List Defn := []
  sections : List Section := []

/-- `section_definition.members.append(...)` on the last section,
dtfabric/data_types.py:459-461. -/
def appendLast (d : Defn) : List Section → List Section
  | [] => []
  | [s] => [{ s with members := s.members ++ [d] }]
  | s :: t => s :: appendLast d t

/-- AddMemberDefinition, dtfabric/data_types.py:443-461. -/
def Builder.addMember (b : Builder) (d : Defn) : Except Err Unit × Builder :=
  if b.members.any (·.name == d.name) then (.error .key, b)
  else
    (.ok (), { b with byteSize := none, members := b.members ++ [d],
                      sections := appendLast d b.sections })

/-- AddSectionDefinition, dtfabric/data_types.py:463-470. -/
def Builder.addSection (b : Builder) (name : String) : Builder :=
  { b with sections := b.sections ++ [⟨name, []⟩] }

/-- GetByteSize of StructureDefinition and UnionDefinition with the cached
`_byte_size`, dtfabric/data_types.py:584-608, 616-632. -/
def Builder.getByteSize (b : Builder) : Option Int × Builder :=
  match b.byteSize with
  | some n => (some n, b)
  | none =>
    if b.members.isEmpty then (none, b)
    else
      let n := if b.isUnion then unionSize 0 b.members else structSize 0 b.members
      (n, { b with byteSize := n })

/-- GetMemberDefinitionByName, dtfabric/data_types.py:480-490. -/
def Builder.memberByName (b : Builder) (n : String) : Option Defn :=
  b.members.find? (·.name == n)

/-- The calls on a definition with members. -/
inductive BuildOp
  | addMember (d : Defn)
  | addSection (name : String)
  | getByteSize

def Builder.step (b : Builder) : BuildOp → Builder
  | .addMember d => (b.addMember d).2
  | .addSection n => b.addSection n
  | .getByteSize => b.getByteSize.2

/-- A history of calls on a fresh object. -/
def Builder.run (isUnion : Bool) (ops : List BuildOp) : Builder :=
  ops.foldl Builder.step { isUnion := isUnion }

/-- The state of a StructureFamilyDefinition or StructureGroupDefinition object,
dtfabric/data_types.py:842-904, 907-972; `members` as above. Only a group has a byte
order, that of the base it was made with (:945-946), a default and an identifier
(:947-948); the attributes a family has not are those of no use here. -/
structure LayoutBuilder where
  base : Defn
  order : Order
  default : Option Defn := none
  identifier : String := ""
  members : List Defn := []

/-- StructureFamilyDefinition(name, base), dtfabric/data_types.py:853-871. -/
def LayoutBuilder.family (base : Defn) : LayoutBuilder :=
  { base := base, order := .native }

/-- StructureGroupDefinition(name, base, identifier, default),
dtfabric/data_types.py:922-948. -/
def LayoutBuilder.group (base : Defn) (identifier : String) (default : Option Defn) : LayoutBuilder :=
  { base := base, order := base.orderOrNative, default := default, identifier := identifier }

/-- AddMemberDefinition, dtfabric/data_types.py:882-895, 959-972. -/
def LayoutBuilder.addMember (b : LayoutBuilder) (d : Defn) : Except Err Unit × LayoutBuilder :=
  if b.members.any (·.name == d.name) then (.error .key, b)
  else (.ok (), { b with members := b.members ++ [d] })

/-- StructureFamilyDefinition.SetBaseDefinition, dtfabric/data_types.py:897-904. -/
def LayoutBuilder.setBase (b : LayoutBuilder) (d : Defn) : LayoutBuilder :=
  { b with base := d }

/-- The calls on a family; on a group only the first. -/
inductive LayoutOp
  | addMember (d : Defn)
  | setBase (d : Defn)

def LayoutBuilder.step (b : LayoutBuilder) : LayoutOp → LayoutBuilder
  | .addMember d => (b.addMember d).2
  | .setBase d => b.setBase d

/-- The state of an EnumerationDefinition object, dtfabric/data_types.py:738-742.
The three dictionaries are association lists from key to value. -/
structure EnumBuilder where
  values : List EnumVal := []
  perAlias : List (String × EnumVal) := []
  perName : List (String × EnumVal) := []
  perNumber : List (Lit × EnumVal) := []

/-- `dict[key] = value` for a dictionary with string keys. -/
def dictSet {α : Type} (l : List (String × α)) (k : String) (v : α) : List (String × α) :=
  if l.any (·.1 == k) then l.map fun p => if p.1 == k then (p.1, v) else p else l ++ [(k, v)]

/-- EnumerationDefinition.AddValue, dtfabric/data_types.py:744-776. Looking up an
unhashable number is a `TypeError`. -/
def EnumBuilder.addValue (b : EnumBuilder) (name : String) (number : Lit) (aliases : List String) :
    Except Err Unit × EnumBuilder :=
  if b.perName.any (·.1 == name) then (.error .key, b)
  else if !number.isHashable then (.error .type, b)
  else if b.perNumber.any (litEq ·.1 number) then (.error .key, b)
  else if aliases.any fun a => b.perAlias.any (·.1 == a) then (.error .key, b)
  else
    let v : EnumVal := { name := name, number := number, aliases := aliases }
    (.ok (),
      { values := b.values ++ [v],
        perName := b.perName ++ [(name, v)],
        perNumber := b.perNumber ++ [(number, v)],
        perAlias := aliases.foldl (fun l a => dictSet l a v) b.perAlias })

/-- EnumerationMap.GetName, dtfabric/runtime/data_maps.py:2122-2136. -/
def EnumBuilder.getName (b : EnumBuilder) (number : Lit) : Option String :=
  (b.perNumber.find? (litEq ·.1 number)).map (·.2.name)

/-- One AddValue call. -/
structure AddCall where
  name : String
  number : Lit
  aliases : List String := []

/-- A history of AddValue calls on a fresh object. -/
def EnumBuilder.run (calls : List AddCall) : EnumBuilder :=
  calls.foldl (fun b c => (b.addValue c.name c.number c.aliases).2) {}

end Dtf
