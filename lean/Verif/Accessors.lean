import Verif.Maps
/-! Accessors of data type maps that read no byte stream. -/
namespace Dtf

/-- FormatMap.layout, dtfabric/runtime/data_maps.py:2178-2185: the layout elements
of the definition, each with the name of its data type and its offset
(LayoutElementDefinition, dtfabric/data_types.py:795-811). Other maps have no such
attribute. -/
def DMap.layout : DMap → Except Err (List (String × Option Int))
  | .format _ l => .ok l
  | _ => .error .attribute

end Dtf
