import Verif.Registry
import Verif.Reader
/-!
The data type fabric: a map factory made from one definition file.
-/
namespace Dtf

/-- DataTypeFabric.__init__, dtfabric/runtime/fabric.py:14-30; the state of the
fabric is its registry. `none` stands for `None` and for empty data, which are not
read. What the YAML parser makes of the data is given, as for `readFileObject`. -/
def fabric (E : Env) (file : Option YamlFile) : Except Err Registry :=
  match file with
  | none => .ok {}
  | some f =>
    match readFileObject E {} f with
    | (.error e, _) => .error e
    | (.ok _, reg) => .ok reg

/-- DataTypeFabric.GetDefinitionByName, dtfabric/runtime/fabric.py:32-42. -/
def fabricDefinition (E : Env) (reg : Registry) (name : String) : Option Defn := reg.getByName E name

end Dtf
