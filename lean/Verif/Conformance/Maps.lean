import Verif.Conformance.Base
/-!
The assertions of /repo/tests/runtime/data_maps.py. Left out are those on the abstract base classes,
on internal helpers the model does not have as functions of their own, and calls with `None` in place
of a byte stream or a definition.
-/
namespace Dtf
namespace Conformance

/-! ### DataTypeMap, tests/runtime/data_maps.py:49-96 -/

#guard (definition integerYaml "int32le").bind Defn.byteSize = some 4
#guard equal (hint integerYaml "int32le") (some 4) = true

/-! ### BooleanMap, tests/runtime/data_maps.py:202-328 -/

#guard raises (mapFor booleansYaml "bool32" (withBooleans none none)) .format = true
#guard equal (formatString booleansYaml "bool8") (some "B") = true
#guard equal (formatString booleansYaml "bool16") (some "H") = true
#guard equal (formatString booleansYaml "bool32") (some "I") = true

#guard gives (foldBytes booleansYaml "bool8" (.bool false) (withBooleans (some 0) (some 1)))
    (.bytes [0]) = true
#guard gives (foldBytes booleansYaml "bool8" (.bool true) (withBooleans (some 0) (some 1)))
    (.bytes [1]) = true
#guard raises (foldBytes booleansYaml "bool8" .pyNone (withBooleans (some 0) (some 1))) .folding = true
#guard gives (foldBytes booleansYaml "bool16" (.bool false) (withBooleans (some 0xffff) (some 1)))
    (.bytes [0xff, 0xff]) = true
#guard gives (foldBytes booleansYaml "bool16" (.bool true) (withBooleans (some 0xffff) (some 1)))
    (.bytes [1, 0]) = true
#guard gives (foldBytes booleansYaml "bool32" (.bool false) (withBooleans (some 0) none))
    (.bytes [0, 0, 0, 0]) = true
#guard raises (foldBytes booleansYaml "bool32" (.bool true) (withBooleans (some 0) none)) .folding = true

#guard gives (mapBytes booleansYaml "bool8" [0] (withBooleans (some 0) (some 1))) (.bool false) = true
#guard gives (mapBytes booleansYaml "bool8" [1] (withBooleans (some 0) (some 1))) (.bool true) = true
#guard raises (mapBytes booleansYaml "bool8" [0xff] (withBooleans (some 0) (some 1))) .mapping = true
#guard gives (mapBytes booleansYaml "bool16" [0xff, 0xff] (withBooleans none (some 1))) (.bool false) = true
#guard gives (mapBytes booleansYaml "bool16" [1, 0] (withBooleans none (some 1))) (.bool true) = true
#guard gives (mapBytes booleansYaml "bool32" [0, 0, 0, 0] (withBooleans (some 0) none)) (.bool false) = true
#guard gives (mapBytes booleansYaml "bool32" [0xff, 0xff, 0xff, 0xff] (withBooleans (some 0) none))
    (.bool true) = true
#guard raises (mapBytes booleansYaml "bool32" [1, 0] (withBooleans (some 0) none)) .tooSmall = true

/-! ### CharacterMap, tests/runtime/data_maps.py:331-410 -/

#guard equal (formatString charactersYaml "char") (some "b") = true
#guard equal (formatString charactersYaml "wchar16") (some "h") = true
#guard equal (formatString charactersYaml "wchar32") (some "i") = true
#guard gives (foldBytes charactersYaml "char" (text "A") (withOrder .little)) (.bytes [0x41]) = true
#guard gives (foldBytes charactersYaml "wchar16" (.str [0x24b6]) (withOrder .little))
    (.bytes [0xb6, 0x24]) = true
#guard gives (foldBytes charactersYaml "wchar32" (.str [0x24b6]) (withOrder .little))
    (.bytes [0xb6, 0x24, 0, 0]) = true
#guard gives (mapBytes charactersYaml "char" [0x41] (withOrder .little)) (text "A") = true
#guard gives (mapBytes charactersYaml "wchar16" [0xb6, 0x24] (withOrder .little)) (.str [0x24b6]) = true
#guard gives (mapBytes charactersYaml "wchar32" [0xb6, 0x24, 0, 0] (withOrder .little))
    (.str [0x24b6]) = true
#guard raises (mapBytes charactersYaml "wchar32" [0xb6, 0x24] (withOrder .little)) .tooSmall = true

/-! ### FloatingPointMap, tests/runtime/data_maps.py:413-477. The doubles 12.34000015258789 and 12.34
have the bits 0x4028AE1480000000 and 0x4028AE147AE147AE. -/

#guard equal (formatString floatingPointsYaml "float32") (some "f") = true
#guard equal (formatString floatingPointsYaml "float64") (some "d") = true
#guard gives (foldBytes floatingPointsYaml "float32" (.float 0x4028AE1480000000) (withOrder .little))
    (.bytes [0xa4, 0x70, 0x45, 0x41]) = true
#guard gives (foldBytes floatingPointsYaml "float64" (.float 0x4028AE147AE147AE) (withOrder .little))
    (.bytes [0xae, 0x47, 0xe1, 0x7a, 0x14, 0xae, 0x28, 0x40]) = true
#guard gives (mapBytes floatingPointsYaml "float32" [0xa4, 0x70, 0x45, 0x41] (withOrder .little))
    (.float 0x4028AE1480000000) = true
#guard gives (mapBytes floatingPointsYaml "float64" [0xae, 0x47, 0xe1, 0x7a, 0x14, 0xae, 0x28, 0x40]
    (withOrder .little)) (.float 0x4028AE147AE147AE) = true
#guard raises (mapBytes floatingPointsYaml "float64" [0xa4, 0x70, 0x45, 0x41] (withOrder .little))
    .tooSmall = true

/-! ### IntegerMap, tests/runtime/data_maps.py:480-626 -/

#guard equal (formatString integersYaml "int8") (some "b") = true
#guard equal (formatString integersYaml "int16") (some "h") = true
#guard equal (formatString integersYaml "int32") (some "i") = true
#guard equal (formatString integersYaml "int64") (some "q") = true
#guard equal (formatString integersYaml "uint8") (some "B") = true
#guard equal (formatString integersYaml "uint16") (some "H") = true
#guard equal (formatString integersYaml "uint32") (some "I") = true
#guard equal (formatString integersYaml "uint64") (some "Q") = true
#guard gives (foldBytes integersYaml "uint8" (.int 0x12) (withOrder .little)) (.bytes [0x12]) = true
#guard gives (foldBytes integersYaml "uint16" (.int 0x3412) (withOrder .little))
    (.bytes [0x12, 0x34]) = true
#guard gives (foldBytes integersYaml "uint32" (.int 0x78563412) (withOrder .little))
    (.bytes [0x12, 0x34, 0x56, 0x78]) = true
#guard gives (foldBytes integersYaml "uint32" (.int 0x12345678) (withOrder .big))
    (.bytes [0x12, 0x34, 0x56, 0x78]) = true
#guard gives (foldBytes integersYaml "uint64" (.int 0xf0debc9a78563412) (withOrder .little))
    (.bytes [0x12, 0x34, 0x56, 0x78, 0x9a, 0xbc, 0xde, 0xf0]) = true
#guard gives (mapBytes integersYaml "uint8" [0x12] (withOrder .little)) (.int 0x12) = true
#guard gives (mapBytes integersYaml "uint16" [0x12, 0x34] (withOrder .little)) (.int 0x3412) = true
#guard gives (mapBytes integersYaml "uint32" [0x12, 0x34, 0x56, 0x78] (withOrder .little))
    (.int 0x78563412) = true
#guard gives (mapBytes integersYaml "uint32" [0x12, 0x34, 0x56, 0x78] (withOrder .big))
    (.int 0x12345678) = true
#guard gives (mapBytes integersYaml "uint64" [0x12, 0x34, 0x56, 0x78, 0x9a, 0xbc, 0xde, 0xf0]
    (withOrder .little)) (.int 0xf0debc9a78563412) = true
#guard raises (mapBytes integersYaml "uint64" [0x12, 0x34, 0x56, 0x78] (withOrder .little)) .tooSmall = true

/-! ### UUIDMap, tests/runtime/data_maps.py:629-661 -/

#guard gives (foldBytes uuidYaml "uuid"
    (.uuid [0x00, 0x02, 0x14, 0x01, 0, 0, 0, 0, 0xc0, 0, 0, 0, 0, 0, 0, 0x46]) (withOrder .little))
    (.bytes [0x01, 0x14, 0x02, 0x00, 0, 0, 0, 0, 0xc0, 0, 0, 0, 0, 0, 0, 0x46]) = true
#guard gives (mapBytes uuidYaml "uuid"
    [0x01, 0x14, 0x02, 0x00, 0, 0, 0, 0, 0xc0, 0, 0, 0, 0, 0, 0, 0x46] (withOrder .little))
    (.uuid [0x00, 0x02, 0x14, 0x01, 0, 0, 0, 0, 0xc0, 0, 0, 0, 0, 0, 0, 0x46]) = true

/-! ### ElementSequenceDataTypeMap, tests/runtime/data_maps.py:664-881 -/

/-- The size rules of a sequence of a file, with the size of an element. -/
def rules (f : YamlFile) (n : String) : Option (SeqInfo × ElemInfo) :=
  match mapFor f n with
  | .ok (.seq _ info ei _ _) => some (info, ei)
  | _ => none

def elementsDataSize (f : YamlFile) (n : String) (ns : Namespace := []) : Except Err (Option Int) :=
  match rules f n with
  | none => .error .key
  | some (info, ei) => (calcDataSize testEnv info ei { values := ns }).1

def dataSize (f : YamlFile) (n : String) (ns : Namespace := []) : Except Err Int :=
  match rules f n with
  | none => .error .key
  | some (info, _) => evalDataSize testEnv info ns

def numberOfElements (f : YamlFile) (n : String) (ns : Namespace := []) : Except Err Int :=
  match rules f n with
  | none => .error .key
  | some (info, _) => evalNumElements testEnv info ns

#guard equal (elementsDataSize sequenceYaml "triangle4") (some 48) = true
#guard equal (elementsDataSize sequenceWithContextYaml "nvector" [("n", .int 99)]) (some 396) = true
#guard equal (elementsDataSize sequenceWithContextYaml "variable_size_vector" [("vector_size", .int 404)])
    (some 404) = true
#guard equal (dataSize sequenceWithContextYaml "fixed_size_vector") 32 = true
#guard equal (dataSize sequenceWithContextYaml "variable_size_vector" [("vector_size", .int 404)]) 404 = true
#guard raises (dataSize sequenceWithContextYaml "variable_size_vector") .mapping = true
#guard raises (dataSize sequenceWithContextYaml "variable_size_vector" [("vector_size", .int (-404))])
    .mapping = true
#guard raises (dataSize sequenceWithContextYaml "variable_size_vector" [("vector_size", text "bogus")])
    .mapping = true
#guard equal (numberOfElements sequenceYaml "triangle4") 3 = true
#guard equal (numberOfElements sequenceWithContextYaml "nvector" [("n", .int 99)]) 99 = true
#guard raises (numberOfElements sequenceWithContextYaml "nvector") .mapping = true
#guard raises (numberOfElements sequenceWithContextYaml "nvector" [("n", .int (-99))]) .mapping = true
#guard raises (numberOfElements sequenceWithContextYaml "nvector" [("n", text "bogus")]) .mapping = true
#guard ((rules sequenceYaml "vector4").map (·.1.hasDataSize)) = some false
#guard ((rules sequenceYaml "vector4").map (·.1.terminator.isSome)) = some false
#guard ((rules sequenceYaml "vector4").map (·.1.hasNumElements)) = some true
#guard equal (hint sequenceYaml "vector4") (some 16) = true
#guard equal (hint sequenceWithStructureYaml "vectors") (some 4) = true
#guard (match mapFor sequenceYaml "vector4" with
    | .ok m => equal m.orderStr (some .little)
    | _ => false) = true

/-! ### SequenceMap, tests/runtime/data_maps.py:884-1010 -/

def nums (ns : List Int) : Val := .tuple (ns.map .int)

#guard gives (mapBytes sequenceYaml "triangle4" (words 1 13))
    (.tuple [nums [1, 2, 3, 4], nums [5, 6, 7, 8], nums [9, 10, 11, 12]]) = true
#guard raises (mapBytes sequenceYaml "triangle4" (words 1 13) (depth := 999)) .mapping = true
#guard raises (mapBytes sequenceYaml "triangle4" [0x12, 0x34, 0x56]) .tooSmall = true
#guard gives (foldBytes sequenceYaml "vector4" (nums [1, 2, 3, 4]))
    (.bytes [1, 0, 0, 0, 2, 0, 0, 0, 3, 0, 0, 0, 4, 0, 0, 0]) = true
#guard gives (mapBytes sequenceYaml "vector4" [1, 0, 0, 0, 2, 0, 0, 0, 3, 0, 0, 0, 4, 0, 0, 0])
    (nums [1, 2, 3, 4]) = true
#guard raises (mapBytes sequenceYaml "vector4" [0x12, 0x34, 0x56]) .tooSmall = true
#guard equal (formatString sequenceYaml "vector4") (some "4i") = true
#guard equal (formatString sequenceYaml "vector4" (withSizes (some 16) (some 0))) (some "4i") = true
#guard equal (formatString sequenceYaml "vector4" (withSizes (some 0) (some 0))) none = true

/-! ### StreamMap, tests/runtime/data_maps.py:1013-1113 -/

#guard gives (foldBytes streamYaml "utf16le_stream" (.bytes (utf16le "dtFabric")))
    (.bytes (utf16le "dtFabric")) = true
#guard gives (foldBytes streamYaml "utf16le_stream_with_size" (.bytes (utf16le "dtFabric")) id [("size", .int 16)])
    (.bytes (utf16le "dtFabric")) = true
#guard raises (foldBytes streamYaml "utf16le_stream_with_size" (.bytes (utf16le "dtFabric")) id [("size", .int 8)])
    .folding = true
#guard gives (foldBytes streamYaml "utf16le_stream_with_terminator" (.bytes (utf16le "dtFabric" ++ [0, 0])))
    (.bytes (utf16le "dtFabric" ++ [0, 0])) = true
#guard equal (formatString streamYaml "utf16le_stream") (some "16B") = true
#guard equal (formatString streamYaml "utf16le_stream" (withSizes (some 16) (some 0))) (some "16B") = true
#guard equal (formatString streamYaml "utf16le_stream" (withSizes (some 0) (some 0))) none = true
#guard gives (mapBytes streamYaml "utf16le_stream" (utf16le "dtFabric")) (.bytes (utf16le "dtFabric")) = true
#guard raises (mapBytes streamYaml "utf16le_stream" [0x12, 0x34, 0x56]) .tooSmall = true

/-! ### StringMap, tests/runtime/data_maps.py:1116-1197 -/

#guard gives (foldBytes stringYaml "utf16_string" (text "dtFabric")) (.bytes (utf16le "dtFabric")) = true
#guard equal (formatString stringYaml "utf16_string") (some "16B") = true
#guard equal (formatString stringYaml "utf16_string" (withSizes (some 16) (some 0))) (some "16B") = true
#guard equal (formatString stringYaml "utf16_string" (withSizes (some 0) (some 0))) none = true
#guard gives (mapBytes stringYaml "utf16_string" (utf16le "dtFabric")) (text "dtFabric") = true
#guard raises (mapBytes stringYaml "utf16_string" [0x12, 0x34, 0x56]) .tooSmall = true
#guard gives (mapBytes stringYaml "utf8_string" (ascii "dtFabric\x00and more")) (text "dtFabric") = true
#guard raises (mapBytes stringYaml "utf8_string" (ascii "dtFabri")) .tooSmall = true
#guard gives (mapBytes stringYaml "utf8_string_fixed_size" (ascii "dtFabric\x00and so.")) (text "dtFabric") = true
#guard raises (mapBytes stringYaml "utf8_string_fixed_size" (ascii "dtFabric\x00and so")) .tooSmall = true

/-! ### StructureMap, tests/runtime/data_maps.py:1200-1775 -/

def linear (f : YamlFile) (n : String) : Option Bool :=
  match mapFor f n with
  | .ok (.struct _ _ l _ _ _) => some l
  | _ => none

#guard linear structureYaml "point3d" = some true
#guard linear structureYaml "triangle3d" = some false
#guard linear structureYaml "box3d" = some false
#guard linear structureYaml "sphere3d" = some false

def textBytes : Bytes := [16, 0] ++ utf16le "dtFabric"

#guard givesAll (mapBytes structureWithStringYaml "utf16_string" textBytes)
    [([.attr "size"], .int 16), ([.attr "text"], text "dtFabric")] = true
#guard raises (mapBytes structureWithStringYaml "utf16_string" textBytes (depth := 999)) .mapping = true
#guard raises (mapBytes structureWithStringYaml "utf16_string" ([3, 0] ++ utf16le "dtFabric")) .mapping = true
#guard givesAll (mapBytes structureWithContextYaml "instance_block_header"
      [10, 0, 0, 0, 128, 1, 0, 0, 0, 2, 0, 0, 0, 3, 0, 0, 0] (ctx := { values := [("number_of_properties", .int 3)] }))
    [([.attr "name_offset"], .int 10), ([.attr "unknown1"], .int 0x80),
      ([.attr "property_value_offsets"], nums [1, 2, 3])] = true

/-- The attribute names of the map of a structure. -/
def attributeNames (f : YamlFile) (n : String) : Option (List String) :=
  match mapFor f n with
  | .ok (.struct _ _ _ _ infos _) => some (infos.map (·.name))
  | _ => none

#guard attributeNames structureYaml "point3d" = some ["x", "y", "z"]

#guard (match mapFor structureYaml "point3d" with
    | .ok m =>
      match createValues m [] [("x", .int 1), ("y", .int 2), ("z", .int 3)] with
      | .ok v => gives (fold testEnv m v []) (.bytes (words 1 4))
      | _ => false
    | _ => false) = true
#guard givesAll (mapBytes structureYaml "point3d" (words 1 4))
    [([.attr "x"], .int 1), ([.attr "y"], .int 2), ([.attr "z"], .int 3)] = true
#guard givesAll (mapBytes structureYaml "point3d" (words 1 4) (withOrder .big))
    [([.attr "x"], .int 0x01000000), ([.attr "y"], .int 0x02000000), ([.attr "z"], .int 0x03000000)] = true
#guard equal (formatString structureYaml "point3d") (some "iii") = true

#guard givesAll (mapBytes structureYaml "box3d" (words 1 433))
    [([.attr "triangles", .item 0, .attr "a", .attr "x"], .int 1),
      ([.attr "triangles", .item 0, .attr "a", .attr "y"], .int 2),
      ([.attr "triangles", .item 0, .attr "a", .attr "z"], .int 3)] = true

#guard givesAll (mapBytes structureWithConditionYaml "structure_with_condition" ([0x01, 0x80] ++ words 1 6))
    [([.attr "flags"], .int 0x8001), ([.attr "data1"], .int 1), ([.attr "conditional_data1"], .int 2),
      ([.attr "data2"], .int 3), ([.attr "conditional_data2"], .int 4), ([.attr "data3"], .int 5)] = true
#guard givesAll (mapBytes structureWithConditionYaml "structure_with_condition" ([0x01, 0x00] ++ words 1 6))
    [([.attr "flags"], .int 0x0001), ([.attr "data1"], .int 1), ([.attr "conditional_data1"], .int 2),
      ([.attr "data2"], .int 3), ([.attr "conditional_data2"], .pyNone), ([.attr "data3"], .int 4)] = true

#guard givesAll (mapBytes structureWithValuesYaml "structure_with_values" [2, 0, 0, 0, 0, 0, 0, 0])
    [([.attr "format_version"], .int 2), ([.attr "data_size"], .int 0)] = true
#guard raises (mapBytes structureWithValuesYaml "structure_with_values" [1, 0, 0, 0, 0, 0, 0, 0]) .mapping = true
#guard givesAll (mapBytes structureWithValuesYaml "structure_with_value" [0x74, 0x65, 0x73, 0x74, 0, 0, 0, 0])
    [([.attr "signature"], .bytes (ascii "test")), ([.attr "data_size"], .int 0), ([.attr "data"], .bytes [])] = true
#guard raises (mapBytes structureWithValuesYaml "structure_with_value" [0x54, 0x45, 0x53, 0x54, 0, 0, 0, 0])
    .mapping = true

def sphere : List (List Step × Val) := [
  ([.attr "number_of_triangles"], .int 3),
  ([.attr "triangles", .item 0, .attr "a", .attr "x"], .int 1),
  ([.attr "triangles", .item 0, .attr "a", .attr "y"], .int 2),
  ([.attr "triangles", .item 0, .attr "a", .attr "z"], .int 3),
  ([.attr "triangles", .item 0, .attr "b", .attr "x"], .int 4),
  ([.attr "triangles", .item 0, .attr "b", .attr "y"], .int 5),
  ([.attr "triangles", .item 0, .attr "b", .attr "z"], .int 6),
  ([.attr "triangles", .item 0, .attr "c", .attr "x"], .int 7),
  ([.attr "triangles", .item 0, .attr "c", .attr "y"], .int 8),
  ([.attr "triangles", .item 0, .attr "c", .attr "z"], .int 9),
  ([.attr "triangles", .item 2, .attr "c", .attr "x"], .int 25),
  ([.attr "triangles", .item 2, .attr "c", .attr "y"], .int 26),
  ([.attr "triangles", .item 2, .attr "c", .attr "z"], .int 27)]

def sphereBytes : Bytes := [3, 0, 0, 0] ++ words 1 113

#guard givesAll (mapBytes structureYaml "sphere3d" sphereBytes) sphere = true
#guard raises (mapBytes structureYaml "sphere3d" (sphereBytes.take 64)) .tooSmall = true
#guard givesAll (mapBytes structureYaml "sphere3d" (sphereBytes.drop 64)
    (ctx := contextAfter structureYaml "sphere3d" (sphereBytes.take 64))) sphere = true

#guard givesAll (mapBytes structureWithPaddingYaml "structure_with_padding" [0, 1, 2, 3, 4, 5, 6, 7])
    [([.attr "data_size"], .int 256), ([.attr "padding"], .bytes [2, 3, 4, 5, 6, 7])] = true
#guard raises (mapBytes structureWithPaddingYaml "structure_with_padding" [0, 1, 2, 3, 4, 5, 6]) .tooSmall = true
#guard givesAll (mapBytes structureWithPaddingYaml "structure_with_padding_and_stream" [1, 0, 2, 3, 4, 5, 6, 7])
    [([.attr "data_size"], .int 1), ([.attr "data"], .bytes [2]), ([.attr "padding"], .bytes [3, 4, 5, 6, 7])] = true

def upTo256 : Bytes := (List.range 256).map UInt8.ofNat

#guard givesAll (mapBytes structureWithSequenceYaml "extension_block" ([4, 1, 0, 0] ++ upTo256))
    [([.attr "size"], .int 260), ([.attr "data", .item 0], .int 0), ([.attr "data", .item 255], .int 255)] = true
#guard raises (mapBytes structureWithSequenceYaml "extension_block" ([3, 0, 0, 0] ++ upTo256)) .mapping = true
#guard givesAll (mapBytes structureWithStreamYaml "extension_block" ([4, 1, 0, 0] ++ upTo256))
    [([.attr "size"], .int 260), ([.attr "data"], .bytes upTo256)] = true
#guard raises (mapBytes structureWithStreamYaml "extension_block" ([3, 0, 0, 0] ++ upTo256)) .mapping = true

def twoTexts : Bytes := ascii "dtFabric\x00" ++ ascii "supports\x00"
def threeTexts : Bytes := twoTexts ++ ascii "a string array\x00"

#guard givesAll (mapBytes stringArrayYaml "string_array" ([3, 0, 0, 0] ++ threeTexts))
    [([.attr "number_of_strings"], .int 3), ([.attr "strings", .item 0], text "dtFabric"),
      ([.attr "strings", .item 1], text "supports"), ([.attr "strings", .item 2], text "a string array")] = true
#guard raises (mapBytes stringArrayYaml "string_array" ([3, 0, 0, 0] ++ twoTexts)) .tooSmall = true
#guard givesAll (mapBytes stringArrayYaml "string_array_with_size" ([33, 0, 0, 0] ++ threeTexts))
    [([.attr "strings_data_size"], .int 33), ([.attr "strings", .item 0], text "dtFabric"),
      ([.attr "strings", .item 1], text "supports"), ([.attr "strings", .item 2], text "a string array")] = true
#guard raises (mapBytes stringArrayYaml "string_array_with_size" ([33, 0, 0, 0] ++ twoTexts)) .tooSmall = true

#guard equal (hint structureWithStringYaml "utf16_string") (some 2) = true
#guard raises (mapBytes structureWithStringYaml "utf16_string" (textBytes.take 2)) .tooSmall = true
#guard equal (hint structureWithStringYaml "utf16_string"
    (contextAfter structureWithStringYaml "utf16_string" (textBytes.take 2))) (some 18) = true

/-! ### PaddingMap, tests/runtime/data_maps.py:1778-1802 -/

def paddingDefinition : Defn := .padding { name := "padding", description := some "alignment_padding" } (some 4)

#guard (match createMap testEnv paddingDefinition with
    | .ok m => gives (fold testEnv m (.bytes [0x11, 0x22, 0x33]) []) (.bytes [0x11, 0x22, 0x33])
    | _ => false) = true
#guard (match createMap testEnv paddingDefinition with
    | .ok m => gives (mapStream testEnv m [0x00, 0x11, 0x22, 0x33] 0 0 {}).1 (.bytes []) &&
        gives (mapStream testEnv m [0x00, 0x11, 0x22, 0x33] 1 0 {}).1 (.bytes [0x11, 0x22, 0x33])
    | _ => false) = true

/-! ### The maps of semantic and layout types, tests/runtime/data_maps.py:1805-2061 -/

#guard raises (foldBytes constantYaml "maximum_number_of_back_traces" (.int 1)) .folding = true
#guard raises (mapBytes constantYaml "maximum_number_of_back_traces" [1, 0, 0, 0]) .mapping = true
#guard raises (foldBytes enumerationYaml "object_information_type" (.int 1)) .folding = true
#guard raises (mapBytes enumerationYaml "object_information_type" [1, 0, 0, 0]) .mapping = true
#guard raises (foldBytes formatYaml "format_with_layout" .pyNone) .folding = true
#guard raises (mapBytes formatYaml "format_with_layout" [1, 0, 0, 0]) .mapping = true
#guard raises (foldBytes structureGroupYaml "bsm_token" .pyNone) .folding = true
#guard (definition structureGroupYaml "bsm_token").bind Defn.byteSize = none
#guard equal (hint structureGroupYaml "bsm_token") (some 1) = true
#guard raises (mapBytes structureGroupYaml "bsm_token" [1, 0, 0, 0]) .mapping = true

/-- The identifier of the first member of the group without values. -/
def withoutValues : Defn → Defn
  | .group h b i d (.struct sh (.member mh t c dt _ :: ms) :: gs) =>
    .group h b i d (.struct sh (.member mh t c dt none :: ms) :: gs)
  | d => d
#guard ok (mapFor structureGroupYaml "bsm_token")
#guard raises (mapFor structureGroupYaml "bsm_token" withoutValues) .format

/-! ### DataTypeMapFactory, tests/runtime/data_maps.py:2064-2121 -/

def made (f : YamlFile) (n : String) : Option Bool :=
  match (load f).createDataTypeMap testEnv n with
  | .ok .missing => some false
  | .ok _ => some true
  | .error _ => none

#guard made integerYaml "int32le" = some true
#guard made integerYaml "bogus" = some false
#guard (definition integerYaml "bogus").isNone = true

end Conformance
end Dtf
