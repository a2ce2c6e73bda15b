import Verif.Maps
/-!
The data type definitions registry, dtfabric/registry.py, and the lookups of the
data type map factory, dtfabric/runtime/data_maps.py:2425-2471.

A method returns the result and the registry afterwards, also when it raises.
Definitions do not change after they were registered (simplification).
-/
namespace Dtf

/-- The state of a DataTypeDefinitionsRegistry, dtfabric/registry.py:17-22.
Dictionaries are association lists in insertion order. -/
structure Registry where
  aliases : List (String × String) := []
  definitions : List (String × Defn) := []
  formats : List String := []

/-- `dict.get(key)`. -/
def dictGet {α : Type} (l : List (String × α)) (k : String) : Option α :=
  (l.find? (·.1 == k)).map (·.2)

/-- `key in dict`. -/
def dictHas {α : Type} (l : List (String × α)) (k : String) : Bool := l.any (·.1 == k)

/-- `dict[key] = value`: a new key goes to the end. -/
def dictPut {α : Type} (l : List (String × α)) (k : String) (v : α) : List (String × α) :=
  if dictHas l k then l.map fun p => if p.1 == k then (p.1, v) else p else l ++ [(k, v)]

/-- `TYPE_INDICATOR == TYPE_INDICATOR_FORMAT`, dtfabric/registry.py:94. -/
def Defn.isFormat : Defn → Bool
  | .format _ _ _ => true
  | _ => false

/-- DeregisterDefinition, dtfabric/registry.py:24-42. -/
def Registry.deregister (E : Env) (r : Registry) (d : Defn) : Except Err Unit × Registry :=
  let name := E.lower d.name
  if !dictHas r.definitions name then (.error .key, r)
  else (.ok (), { r with definitions := r.definitions.filter (·.1 != name) })

/-- GetDefinitionByName, dtfabric/registry.py:44-58. -/
def Registry.getByName (E : Env) (r : Registry) (name : String) : Option Defn :=
  let lookup := E.lower name
  let lookup := if dictHas r.definitions lookup then lookup else (dictGet r.aliases name).getD lookup
  dictGet r.definitions lookup

/-- GetDefinitions, dtfabric/registry.py:60-66. -/
def Registry.getDefinitions (r : Registry) : List Defn := r.definitions.map (·.2)

/-- RegisterDefinition, dtfabric/registry.py:68-96. -/
def Registry.register (E : Env) (r : Registry) (d : Defn) : Except Err Unit × Registry :=
  let name := E.lower d.name
  if dictHas r.definitions name then (.error .key, r)
  else if dictHas r.aliases d.name then (.error .key, r)
  else if d.hdr.aliases.any (dictHas r.aliases ·) then (.error .key, r)
  else
    (.ok (),
      { definitions := dictPut r.definitions name d,
        aliases := d.hdr.aliases.foldl (fun l a => dictPut l a name) r.aliases,
        formats := if d.isFormat then r.formats ++ [name] else r.formats })

/-- The calls that change a registry. -/
inductive RegOp
  | register (d : Defn)
  | deregister (d : Defn)

def Registry.step (E : Env) (r : Registry) : RegOp → Except Err Unit × Registry
  | .register d => r.register E d
  | .deregister d => r.deregister E d

/-- A history of calls on a fresh registry; calls that raise are passed over. -/
def Registry.run (E : Env) (ops : List RegOp) : Registry :=
  ops.foldl (fun r op => (r.step E op).2) {}

/-- DataTypeMapFactory.CreateDataTypeMap, dtfabric/runtime/data_maps.py:2425-2441;
`DMap.missing` is Python `None`. -/
def Registry.createDataTypeMap (E : Env) (r : Registry) (name : String) : Except Err DMap :=
  match r.getByName E name with
  | none => .ok .missing
  | some d => createMap E d

end Dtf
