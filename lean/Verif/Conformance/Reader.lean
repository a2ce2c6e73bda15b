import Verif.Conformance.Base
/-!
The assertions of /repo/tests/reader.py, registry.py, data_types.py, runtime/runtime.py,
runtime/byte_operations.py and runtime/fabric.py. Left out are those on abstract base classes, calls
with `None` in place of a byte stream, a format string or a definition, and assertions that an object
was made that the model has no separate step for. The class of a definition shows in the constructor
of `Defn`.
-/
namespace Dtf
namespace Conformance

/-- The value of a key removed, or set. -/
def without (k : String) : Yaml → Yaml
  | .map es => .map (es.filter fun e => e.1 != .str k)
  | y => y
def setting (k : String) (v : Yaml) : Yaml → Yaml
  | .map es => .map (es.filter (fun e => e.1 != .str k) ++ [(.str k, v)])
  | y => y

/-- The class of a definition, dtfabric/data_types.py. -/
def className : Defn → String
  | .prim _ (.boolean _ _) _ _ => "BooleanDefinition"
  | .prim _ .character _ _ => "CharacterDefinition"
  | .prim _ .floatingPoint _ _ => "FloatingPointDefinition"
  | .prim _ (.integer _) _ _ => "IntegerDefinition"
  | .uuid _ _ _ => "UUIDDefinition"
  | .padding _ _ => "PaddingDefinition"
  | .seq _ info _ => match info.kind with
    | .sequence => "SequenceDefinition"
    | .stream => "StreamDefinition"
    | .string _ => "StringDefinition"
  | .struct _ _ => "StructureDefinition"
  | .union _ _ => "UnionDefinition"
  | .constant _ _ => "ConstantDefinition"
  | .enumeration _ _ => "EnumerationDefinition"
  | .format _ _ _ => "FormatDefinition"
  | .family _ _ _ => "StructureFamilyDefinition"
  | .group _ _ _ _ _ => "StructureGroupDefinition"
  | .member _ _ _ _ _ => "MemberDataTypeDefinition"

/-- `assertIsInstance` on what a call returns. -/
def makes (r : Except Err Defn) (c : String) : Bool :=
  match r with
  | .ok d => className d == c
  | .error _ => false

/-! ### DataTypeDefinitionsReader, tests/reader.py:19-732 -/

def strs (ss : List String) : Yaml := .list (ss.map .str)

def boolValues : Yaml := obj [("aliases", strs ["BOOL"]), ("attributes", obj [("size", .int 4)]),
  ("description", .str "32-bit boolean type")]
#guard makes (readBoolean testEnv false boolValues "bool") "BooleanDefinition"

def charValues : Yaml := obj [("aliases", strs ["CHAR"]), ("attributes", obj [("size", .int 1)]),
  ("description", .str "8-bit character type")]
#guard makes (readCharacter testEnv false charValues "char") "CharacterDefinition"

def constValues : Yaml := obj [("aliases", strs ["AVRF_MAX_TRACES"]),
  ("description", .str "Application verifier resource enumeration maximum number of back traces"),
  ("value", .int 32)]
#guard makes (readConstant false constValues "const") "ConstantDefinition"
#guard raises (readConstant false (without "value" constValues) "const") .reader

#guard ok (readHdr valuesDataType (obj [("aliases", strs ["LONG", "LONG32"]),
  ("description", .str "signed 32-bit integer type")]) "int32")

def integers : Registry := load integersYaml

def memberOf (n t : String) : Yaml := obj [("name", .str n), ("data_type", .str t)]

def pointValues : Yaml := obj [("aliases", strs ["POINT"]), ("attributes", obj [("byte_order", .str "big-endian")]),
  ("description", .str "Point in 3 dimensional space."),
  ("members", .list [memberOf "x" "int32", memberOf "y" "int32", memberOf "z" "int32"])]

def readStructure (isUnion : Bool) (d : Yaml) (n : String) : Except Err Defn :=
  readWithMembers (readMember testEnv integers d.depth (!isUnion)) isUnion d n

#guard makes (readStructure false pointValues "point3d") "StructureDefinition"
#guard (match readStructure false pointValues "point3d" with
  | .ok d => d.order? == some .big
  | _ => false)
#guard raises (readStructure false (setting "attributes" (obj [("byte_order", .str "bogus")]) pointValues) "point3d")
  .reader
#guard raises (readStructure false (setting "members"
  (.list [memberOf "x" "int32", memberOf "y" "bogus", memberOf "z" "int32"]) pointValues) "point3d") .reader
#guard raises (readStructure false (without "members" pointValues) "point3d") .reader

def unionValues : Yaml := obj [("members", .list [memberOf "long" "int32", memberOf "short" "int16"])]
#guard makes (readStructure false unionValues "union") "StructureDefinition"
#guard makes (readStructure true unionValues "union") "UnionDefinition"
#guard raises (readStructure false (setting "members" (.list [memberOf "long" "int32", memberOf "short" "bogus"])
  unionValues) "point3d") .reader
#guard raises (readStructure false (without "members" unionValues) "point3d") .reader

def vectorValues : Yaml := obj [("description", .str "vector with 4 elements"),
  ("element_data_type", .str "int32"), ("number_of_elements", .int 4)]

def readVector (d : Yaml) : Except Err Defn := readElements testEnv integers .sequence valuesElements d "vector4"

#guard makes (readVector vectorValues) "SequenceDefinition"
#guard raises (readVector (setting "attributes" (obj []) vectorValues)) .reader
#guard raises (readVector (setting "attributes" .null (setting "element_data_type" (.str "bogus") vectorValues))) .reader
#guard raises (readVector (setting "element_data_type" (.str "bogus") vectorValues)) .reader
#guard raises (readVector (setting "attributes" .null (without "element_data_type" vectorValues))) .reader
#guard raises (readVector (without "element_data_type" vectorValues)) .reader
#guard raises (readVector (without "number_of_elements" vectorValues)) .reader
#guard raises (readVector (setting "elements_data_size" (.int 32) vectorValues)) .reader
#guard raises (readVector (setting "attributes" (obj [("byte_order", .str "little-endian")]) vectorValues)) .reader
#guard makes (readSequence testEnv integers false vectorValues "vector4") "SequenceDefinition"

def terminatedValues : Yaml := obj [("description", .str "vector with terminator"),
  ("element_data_type", .str "int32"), ("elements_terminator", .str "\x00")]
#guard makes (readVector terminatedValues) "SequenceDefinition"
#guard makes (readVector (setting "elements_terminator" (.bytes [0xff, 0xff, 0xff, 0xff]) terminatedValues))
  "SequenceDefinition"

def enumValues (values : List Yaml) : Yaml :=
  obj [("description", .str "Minidump object information type"), ("values", .list values)]
def enumValue0 : Yaml := obj [("description", .str "No object-specific information available"),
  ("name", .str "MiniHandleObjectInformationNone"), ("number", .int 0)]
def enumValue1 : Yaml := obj [("description", .str "Thread object information"),
  ("name", .str "MiniThreadInformation1"), ("number", .int 1)]

#guard makes (readEnumeration false (enumValues [enumValue0, enumValue1]) "enum") "EnumerationDefinition"
#guard raises (readEnumeration false (enumValues [without "name" enumValue0, enumValue1]) "enum") .reader
#guard raises (readEnumeration false (enumValues [enumValue0, without "name" enumValue1]) "enum") .reader
#guard raises (readEnumeration false (enumValues [enumValue0, without "number" enumValue1]) "enum") .reader
#guard raises (readEnumeration false (enumValues [enumValue0, enumValue1, enumValue1]) "enum") .reader
#guard raises (readEnumeration false (without "values" (enumValues [])) "enum") .reader

def longValues (attributes : List (String × Yaml)) : Yaml := obj [("aliases", strs ["LONG", "LONG32"]),
  ("attributes", obj attributes), ("description", .str "signed 32-bit integer type")]

def readLong (size : Yaml) : Except Err (Hdr × Size × String) :=
  readFixed testEnv attrsInteger (.str "native") .native [1, 2, 4, 8] false
    (longValues [("byte_order", .str "little-endian"), ("size", size)]) "int32"

#guard (match readLong (.int 4) with
  | .ok (_, s, _) => s == .bytes 4
  | _ => false)
#guard raises (readLong (.str "bogus")) .reader

#guard makes (readFloat testEnv false (obj [("aliases", strs ["float", "FLOAT"]),
  ("attributes", obj [("size", .int 4)]), ("description", .str "32-bit floating-point type")]) "float32")
  "FloatingPointDefinition"

def lnkValues : Yaml := obj [("description", .str "Windows Shortcut (LNK) file format"), ("type", .str "format"),
  ("layout", .list [obj [("data_type", .str "file_header"), ("offset", .int 0)]])]
#guard (match readFormat false lnkValues "lnk" with
  | .ok (.format _ _ layout) => layout == [("file_header", some 0)]
  | _ => false)

#guard makes (readInteger testEnv false (longValues [("format", .str "signed"), ("size", .int 4)]) "int32")
  "IntegerDefinition"
#guard raises (readInteger testEnv false (longValues [("format", .str "bogus"), ("size", .int 4)]) "int32") .reader
#guard raises (readInteger testEnv false (longValues [("format", .str "signed"), ("size", .int 3)]) "int32") .reader

def readOne (d : Yaml) : Except Err Defn := readMember testEnv integers d.depth true d

#guard ok (readOne (memberOf "x" "int32"))
#guard raises (readOne (obj [])) .reader
#guard raises (readOne (obj [("bogus", .str "BOGUS")])) .reader
#guard raises (readOne (obj [("name", .str "x")])) .reader
#guard raises (readOne (obj [("name", .str "x"), ("data_type", .str "int32"), ("type", .str "bogus")])) .reader
#guard raises (readOne (obj [("name", .str "x"), ("type", .str "bogus")])) .reader

#guard ok (readHdr valuesEnumeration (obj [("description", .str "semantic data type")]) "enum")
#guard raises (readHdr valuesEnumeration (obj [("description", .str "semantic data type"), ("attributes", obj [])])
  "enum") .reader

#guard (match readStorage attrsInteger false (longValues [("byte_order", .str "little-endian")]) "int32" with
  | .ok h => h.order == .little
  | _ => false)
#guard raises (readStorage attrsInteger false (longValues [("byte_order", .str "bogus")]) "int32") .reader

#guard makes (readStream testEnv integers false (obj [("description", .str "stream with 4 elements"),
  ("element_data_type", .str "uint8"), ("number_of_elements", .int 4)]) "array4") "StreamDefinition"

def stringValues : Yaml := obj [("description", .str "string with 4 characters"), ("encoding", .str "ascii"),
  ("element_data_type", .str "char"), ("number_of_elements", .int 4)]
#guard makes (readString testEnv (load charactersYaml) false stringValues "string4") "StringDefinition"
#guard raises (readString testEnv (load charactersYaml) false (without "encoding" stringValues) "string4") .reader

def uuidValues : Yaml := obj [("aliases", strs ["guid", "GUID", "UUID"]),
  ("attributes", obj [("byte_order", .str "little-endian")]),
  ("description", .str "Globally or Universal unique identifier (GUID or UUID) type")]
#guard makes (readUuid testEnv false uuidValues "uuid") "UUIDDefinition"
#guard raises (readUuid testEnv false (setting "attributes" (obj [("byte_order", .str "little-endian"),
  ("size", .int 32)]) uuidValues) "uuid") .reader

/-! ### DataTypeDefinitionsFileReader, tests/reader.py:735-777 -/

def int32Values : Yaml := setting "name" (.str "int32") (setting "type" (.str "integer")
  (longValues [("format", .str "signed"), ("size", .int 4)]))
#guard makes (readDefinition testEnv {} int32Values) "IntegerDefinition"
#guard raises (readDefinition testEnv {} .null) .reader
#guard raises (readDefinition testEnv {} (setting "type" (.str "bogus") int32Values)) .reader
#guard ok (readFileObject testEnv {} integersYaml).1

/-! ### YAMLDataTypeDefinitionsFileReader, tests/reader.py:780-1531 -/

/-- The file is read, and holds this number of definitions, and the named definition has the class,
the name and GetByteSize. -/
def holds (f : YamlFile) (count : Nat) (n c : String) (size : Option Int) : Bool :=
  ok (readFileObject testEnv {} f).1 && (load f).definitions.length == count &&
  match definition f n with
  | some d => className d == c && d.name == n && d.byteSize == size
  | none => false

/-- The members of a definition: class and name. -/
def membersOf (f : YamlFile) (n : String) : Option (List (String × String)) :=
  ((definition f n).bind Defn.members?).map fun ms => ms.map fun m => (className m, m.name)

def headerOf (f : YamlFile) (n : String) : Option Hdr := (definition f n).map Defn.hdr

#guard holds booleanYaml 1 "bool" "BooleanDefinition" (some 1)
#guard holds characterYaml 1 "char" "CharacterDefinition" (some 1)
#guard holds constantYaml 1 "maximum_number_of_back_traces" "ConstantDefinition" none
#guard (match definition constantYaml "maximum_number_of_back_traces" with
  | some (.constant _ v) => v == .int 32
  | _ => false)
#guard holds enumerationYaml 1 "object_information_type" "EnumerationDefinition" none
#guard (match definition enumerationYaml "object_information_type" with
  | some (.enumeration _ vs) => vs.length == 6
  | _ => false)
#guard holds floatingPointYaml 1 "float32" "FloatingPointDefinition" (some 4)
#guard (headerOf floatingPointYaml "float32").map Hdr.order == some .little
#guard holds formatYaml 4 "format_with_layout" "FormatDefinition" none
#guard (match definition formatYaml "format_with_layout" with
  | some (.format _ o l) => o == some .big && l == [("file_header", some 0)]
  | _ => false)

def integerFile (name : List (String × Yaml)) (attributes : List (String × Yaml)) : YamlFile :=
  { docs := [obj (name ++ [("attributes", obj attributes)])] }
def int32le : List (String × Yaml) := [("name", .str "int32le"), ("type", .str "integer")]

#guard holds (integerFile int32le [("byte_order", .str "little-endian"), ("format", .str "signed"), ("size", .int 4),
  ("units", .str "bytes")]) 1 "int32le" "IntegerDefinition" (some 4)
#guard (match definition (integerFile int32le [("byte_order", .str "little-endian"), ("format", .str "signed"),
    ("size", .int 4), ("units", .str "bytes")]) "int32le" with
  | some (.prim h k s u) => h.order == .little && k == .integer false && s == .bytes 4 && u == "bytes"
  | _ => false)
#guard holds (integerFile [("name", .str "int"), ("type", .str "integer")] [("format", .str "signed")]) 1 "int"
  "IntegerDefinition" none
#guard raises (readFileObject testEnv {} (integerFile int32le [("format", .str "bogus"), ("size", .int 4),
  ("units", .str "bytes")])).1 .format
#guard raises (readFileObject testEnv {} (integerFile int32le [("format", .str "signed"), ("size", .str "bogus"),
  ("units", .str "bytes")])).1 .format
#guard raises (readFileObject testEnv {} (integerFile [("type", .str "integer")] [("format", .str "signed"),
  ("size", .int 1), ("units", .str "bytes")])).1 .format
#guard raises (readFileObject testEnv {} (integerFile [("name", .str "int8")] [("format", .str "signed"),
  ("size", .int 1), ("units", .str "bytes")])).1 .format
#guard raises (readFileObject testEnv {} { docs :=
  (integerFile [("name", .str "int8"), ("type", .str "integer")] [("format", .str "signed"), ("size", .int 1),
    ("units", .str "bytes")]).docs ++
  (integerFile [("name", .str "int16")] [("format", .str "signed"), ("size", .int 2), ("units", .str "bytes")]).docs }).1
  .format
#guard raises (readFileObject testEnv {} paddingYaml).1 .format

#guard holds sequenceYaml 3 "vector4" "SequenceDefinition" (some 16)
#guard (match definition sequenceYaml "vector4" with
  | some (.seq h i _) => h.description == some "4-dimensional vector" && h.aliases == ["VECTOR"] &&
    i.elementDataType == some "int32" && i.numElements == some 4
  | _ => false)
#guard ok (readFileObject testEnv {} sequenceWithStructureYaml).1 &&
  (load sequenceWithStructureYaml).definitions.length == 3 &&
  (definition sequenceWithStructureYaml "vectors").map className == some "SequenceDefinition"
#guard holds streamYaml 4 "utf16le_stream" "StreamDefinition" (some 16)
#guard (match definition streamYaml "utf16le_stream" with
  | some (.seq h i _) => h.description == some "UTF-16 little-endian stream" && h.aliases == ["UTF16LE"] &&
    i.elementDataType == some "wchar16" && i.numElements == some 8
  | _ => false)
#guard holds stringYaml 5 "utf8_string" "StringDefinition" none
#guard (match definition stringYaml "utf8_string" with
  | some (.seq h i _) => h.description == some "UTF-8 string" && i.elementDataType == some "char" &&
    i.terminator == some (.bytes [0]) && i.kind == .string "utf8"
  | _ => false)
#guard holds structureYaml 5 "point3d" "StructureDefinition" (some 12)
#guard (headerOf structureYaml "point3d").map (fun h => (h.description, h.aliases)) ==
  some (some "Point in 3 dimensional space.", ["POINT"])
#guard membersOf structureYaml "point3d" == some [("MemberDataTypeDefinition", "x"), ("MemberDataTypeDefinition", "y"),
  ("MemberDataTypeDefinition", "z")]
#guard (match definition structureYaml "point3d" with
  | some (.struct _ (.member h _ _ t _ :: _)) => h.aliases == ["XCOORD"] && t == some "int32"
  | _ => false)
#guard holds structureYaml 5 "box3d" "StructureDefinition" (some 432)
#guard (headerOf structureYaml "box3d").map (·.description) == some (some "Box in 3 dimensional space.")
#guard membersOf structureYaml "box3d" == some [("SequenceDefinition", "triangles")]
#guard (match definition structureYaml "box3d" with
  | some (.struct _ [.seq _ i _]) => i.elementDataType == some "triangle3d"
  | _ => false)
#guard holds structureYaml 5 "sphere3d" "StructureDefinition" none
#guard (headerOf structureYaml "sphere3d").map (·.description) == some (some "Sphere in 3 dimensional space.")
#guard (match definition structureYaml "sphere3d" with
  | some (.struct _ [_, .seq h i _]) => h.name == "triangles" && i.elementDataType == some "triangle3d"
  | _ => false)
#guard holds structureWithConditionYaml 3 "structure_with_condition" "StructureDefinition" none
#guard (membersOf structureWithConditionYaml "structure_with_condition").map (·.length) == some 6
#guard holds structureWithPaddingYaml 4 "structure_with_padding" "StructureDefinition" (some 8)
#guard (match definition structureWithPaddingYaml "structure_with_padding" with
  | some (.struct _ [_, .padding h a]) => h.name == "padding" && a == some 8
  | _ => false)
#guard holds structureWithSectionYaml 2 "3dsphere" "StructureDefinition" (some 16)
#guard (membersOf structureWithSectionYaml "3dsphere").map (·.length) == some 4
#guard holds structureWithUnionYaml 3 "intfloat32" "StructureDefinition" (some 4)
#guard membersOf structureWithUnionYaml "intfloat32" == some [("UnionDefinition", "")]
#guard holds structureWithValuesYaml 4 "structure_with_value" "StructureDefinition" none
#guard (membersOf structureWithValuesYaml "structure_with_value").map (·.length) == some 3
#guard holds structureWithValuesYaml 4 "structure_with_values" "StructureDefinition" (some 8)
#guard (membersOf structureWithValuesYaml "structure_with_values").map (·.length) == some 2
#guard holds stringArrayYaml 5 "string_array" "StructureDefinition" none
#guard (membersOf stringArrayYaml "string_array").map (·.length) == some 2
#guard holds structureFamilyYaml 8 "group_descriptor" "StructureFamilyDefinition" none
#guard (headerOf structureFamilyYaml "group_descriptor").map (·.description) == some (some "Group descriptor")
#guard (membersOf structureFamilyYaml "group_descriptor").map (fun ms => (ms.length, ms.head?)) ==
  some (2, some ("StructureDefinition", "group_descriptor_ext2"))
#guard holds structureGroupYaml 9 "bsm_token" "StructureGroupDefinition" none
#guard (match definition structureGroupYaml "bsm_token" with
  | some (.group h b i _ _) => h.description == some "BSM token" && className b == "StructureDefinition" &&
    b.name == "bsm_token_base" && i == "token_type"
  | _ => false)
#guard (membersOf structureGroupYaml "bsm_token").map (fun ms => (ms.length, ms.head?)) ==
  some (2, some ("StructureDefinition", "bsm_token_arg32"))
#guard holds unionYaml 3 "union" "UnionDefinition" (some 4)
#guard (match definition unionYaml "union" with
  | some (.union _ [.member h _ _ t _, _]) => h.name == "long" && t == some "int32"
  | _ => false)
#guard raises (readFileObject testEnv {} unionWithConditionYaml).1 .format
#guard holds uuidYaml 1 "uuid" "UUIDDefinition" (some 16)
#guard (match definition uuidYaml "uuid" with
  | some (.uuid h s u) => h.order == .little && s == .bytes 16 && u == "bytes"
  | _ => false)

/-! ### DataTypeDefinitionsRegistry, tests/registry.py:12-87 -/

/-- IntegerDefinition(name, aliases, description). -/
def integerObject (name : String) (aliases : List String) (description : String) : Defn :=
  .prim ⟨name, .native, aliases, some description⟩ (.integer false) .native "bytes"

def int32Definition : Defn := integerObject "int32" ["LONG", "LONG32"] "signed 32-bit integer"
def registered : Registry := (({} : Registry).register testEnv int32Definition).2

#guard ok (({} : Registry).register testEnv int32Definition).1
#guard raises (registered.register testEnv int32Definition).1 .key
#guard raises (registered.register testEnv (integerObject "LONG" [] "long integer")).1 .key
#guard raises (registered.register testEnv (integerObject "test" ["LONG"] "long integer")).1 .key
#guard ok (registered.deregister testEnv int32Definition).1
#guard raises ((registered.deregister testEnv int32Definition).2.deregister testEnv int32Definition).1 .key
#guard (registered.getByName testEnv "int32").map className == some "IntegerDefinition"
#guard (registered.getByName testEnv "LONG32").map className == some "IntegerDefinition"
#guard (registered.getByName testEnv "bogus").isNone
#guard ({} : Registry).getDefinitions.length == 0
#guard registered.getDefinitions.length == 1

/-! ### tests/data_types.py -/

#guard int32Definition.byteSize == none
#guard (Defn.prim { name := "int32" } (.integer false) (.bytes 4) "bytes").byteSize == some 4
#guard !int32Definition.isComposite
#guard (Defn.uuid { name := "guid", aliases := ["GUID"], description := some "GUID" } .native "bytes").isComposite

def elementsOf (k : SeqKind) (size : Nat) (ds ne : Option Int) : Defn :=
  .seq { name := "offsets" } { kind := k, dataSize := ds, numElements := ne }
    (.prim { name := "int32" } (.integer false) (.bytes size) "bytes")

#guard (elementsOf .sequence 4 none none).byteSize == none
#guard (elementsOf .sequence 4 (some 0) (some 32)).byteSize == some 128
#guard (elementsOf .sequence 4 (some 128) (some 0)).byteSize == some 128
#guard (elementsOf (.string "") 2 none none).byteSize == none
#guard (elementsOf (.string "") 2 none (some 32)).byteSize == some 64
#guard (elementsOf (.string "") 2 none none).isComposite

def structMember (condition : Option String) : Option Defn :=
  (definition structureYaml "int32").map fun d =>
    .member { name := "my_struct_member", aliases := ["MY_STRUCT_MEMBER"] } d condition (some "int32") none

#guard (structMember none).map Defn.byteSize == some (some 4)
#guard (structMember (some "bogus")).map Defn.byteSize == some none
#guard (structMember none).map Defn.isComposite == some false
#guard (structMember (some "bogus")).map Defn.isComposite == some true

/-- An object after AddMemberDefinition of the member above. -/
def withMember (isUnion : Bool) : Option (Bool × Builder × Defn) :=
  (structMember none).map fun d =>
    let r := ({ isUnion := isUnion } : Builder).addMember d
    (ok r.1, r.2, d)

#guard (withMember false).map (·.1) == some true
#guard (withMember false).map (fun r => raises (r.2.1.addMember r.2.2).1 .key) == some true
#guard (withMember false).map (fun r => (r.2.1.memberByName "my_struct_member").isSome) == some true
#guard (withMember false).map (fun r => (r.2.1.memberByName "bogus").isSome) == some false
#guard ({ isUnion := false } : Builder).getByteSize.1 == none
#guard (withMember false).map (fun r => r.2.1.getByteSize.1) == some (some 4)
#guard ({ isUnion := true } : Builder).getByteSize.1 == none
#guard (withMember true).map (fun r => r.2.1.getByteSize.1) == some (some 4)
#guard (Defn.struct { name := "my_struct_type" } []).isComposite
#guard (Defn.union { name := "my_union_type" } []).isComposite
#guard (Defn.padding { name := "padding" } (some 4)).byteSize == none
#guard (Defn.enumeration { name := "enum" } []).byteSize == none
#guard (Defn.format { name := "format" } none []).byteSize == none
#guard (Defn.format { name := "format" } none []).isComposite

def oneValue : EnumBuilder := (({} : EnumBuilder).addValue "enum_value" (.int 5) ["value5"]).2
#guard ok (({} : EnumBuilder).addValue "enum_value" (.int 5) ["value5"]).1
#guard raises (oneValue.addValue "enum_value" (.int 7) ["value7"]).1 .key
#guard raises (oneValue.addValue "myenum" (.int 5) ["value7"]).1 .key
#guard raises (oneValue.addValue "myenum" (.int 7) ["value5"]).1 .key

def baseDefinition : Defn := .struct { name := "base", description := some "my base structure type" } []
def otherDefinition : Defn := .struct { name := "member", description := some "my member structure type" } []
def familyObject : LayoutBuilder := (LayoutBuilder.family baseDefinition |>.addMember otherDefinition).2
def groupObject : LayoutBuilder := (LayoutBuilder.group baseDefinition "identifier" none |>.addMember otherDefinition).2
#guard raises (familyObject.addMember otherDefinition).1 .key
#guard raises (groupObject.addMember otherDefinition).1 .key

/-- GetName of the enumeration, tests/runtime/data_maps.py:1881-1896. -/
def nameOf (number : Int) : Option String :=
  match definition enumerationYaml "object_information_type" with
  | some (.enumeration _ vs) =>
    (EnumBuilder.run (vs.map fun v => { name := v.name, number := v.number, aliases := v.aliases })).getName (.int number)
  | _ => some "not an enumeration"
#guard nameOf 2 == some "MiniMutantInformation1"
#guard nameOf (-1) == none

/-! ### tests/runtime/runtime.py -/

#guard isIdentifier testEnv "valid"
#guard isIdentifier testEnv "_valid"
#guard isIdentifier testEnv "valid1"
#guard !isIdentifier testEnv ""
#guard !isIdentifier testEnv "0invalid"
#guard !isIdentifier testEnv "in-valid"
#guard (match definition structureYaml "point3d" with
  | some (.struct h ms) => (classText h.name h.description ms).isSome &&
    ok (validateClass testEnv h.name (ms.map Defn.name)) && ok (createClass testEnv h.name h.description ms)
  | _ => false)

/-! ### tests/runtime/byte_operations.py. The model keeps the byte order apart from the format. -/

#guard ok (mkOp .native "b".toList)
#guard raises (mkOp .native "z".toList) .format

def operation : Except Err Op := mkOp .little "i".toList

#guard (match operation with
  | .ok op => ((op.readFrom testEnv [0x12, 0x34, 0x56, 0x78]).map (sames [.int 0x78563412])) == some true &&
    (op.readFrom testEnv [0x12, 0x34, 0x56]).isNone &&
    op.writeTo testEnv [.int 0x78563412] == some [0x12, 0x34, 0x56, 0x78] &&
    (op.writeTo testEnv [.int 0x9078563412]).isNone
  | _ => false)

/-! ### tests/runtime/fabric.py -/

#guard ok (fabric testEnv (some integerYaml))

end Conformance
end Dtf
