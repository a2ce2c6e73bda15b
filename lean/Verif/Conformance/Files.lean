import Verif.Reader
/-!
The definition files the project is tested with, /repo/test_data, as the YAML parser gives them.
-/
namespace Dtf
namespace Conformance

/-- A YAML mapping with text keys. -/
def obj (es : List (String × Yaml)) : Yaml := .map (es.map fun e => (.str e.1, e.2))

/-- test_data/boolean.yaml -/
def booleanYaml : YamlFile := { docs := [
  obj [("name", .str "bool"), ("type", .str "boolean"), ("attributes", obj [("size", .int 1),
    ("units", .str "bytes")])]] }

/-- test_data/character.yaml -/
def characterYaml : YamlFile := { docs := [
  obj [("name", .str "char"), ("type", .str "character"), ("attributes", obj [("size", .int 1),
    ("units", .str "bytes")])]] }

/-- test_data/constant.yaml -/
def constantYaml : YamlFile := { docs := [
  obj [("name", .str "maximum_number_of_back_traces"), ("aliases", .list [.str "AVRF_MAX_TRACES"]),
    ("type", .str "constant"), ("description",
    .str "Application verifier resource enumeration maximum number of back traces"), ("urls",
    .list [.str "https://msdn.microsoft.com/en-us/library/bb432193(v=vs.85).aspx"]), ("value",
    .int 32)]] }

/-- test_data/enumeration.yaml -/
def enumerationYaml : YamlFile := { docs := [
  obj [("name", .str "object_information_type"), ("aliases",
    .list [.str "MINIDUMP_HANDLE_OBJECT_INFORMATION_TYPE"]), ("type", .str "enumeration"),
    ("description", .str "Minidump object information type"), ("urls",
    .list [.str "https://msdn.microsoft.com/en-us/library/windows/desktop/ms680376(v=vs.85).aspx"]),
    ("values", .list [obj [("name", .str "MiniHandleObjectInformationNone"), ("number", .int 0),
    ("description", .str "No object-specific information available")], obj [("name",
    .str "MiniThreadInformation1"), ("number", .int 1), ("description",
    .str "Thread object information")], obj [("name", .str "MiniMutantInformation1"), ("number",
    .int 2), ("description", .str "Mutant object information")], obj [("name",
    .str "MiniMutantInformation2"), ("number", .int 3), ("description",
    .str "Mutant object information")], obj [("name", .str "MiniProcessInformation1"), ("number",
    .int 4), ("description", .str "Process object information")], obj [("name",
    .str "MiniProcessInformation2"), ("number", .int 5), ("description",
    .str "Process object information")]])]] }

/-- test_data/floating-point.yaml -/
def floatingPointYaml : YamlFile := { docs := [
  obj [("name", .str "float32"), ("aliases", .list [.str "float", .str "FLOAT"]), ("type",
    .str "floating-point"), ("description", .str "32-bit single precision floating-point type"),
    ("attributes", obj [("byte_order", .str "little-endian"), ("size", .int 4), ("units",
    .str "bytes")])]] }

/-- test_data/format.yaml -/
def formatYaml : YamlFile := { docs := [
  obj [("name", .str "format_with_layout"), ("type", .str "format"), ("description",
    .str "Test format with layout"), ("attributes", obj [("byte_order", .str "big-endian")]),
    ("layout", .list [obj [("data_type", .str "file_header"), ("offset", .int 0)]])],
  obj [("name", .str "byte"), ("type", .str "integer"), ("attributes", obj [("format",
    .str "unsigned"), ("size", .int 1), ("units", .str "bytes")])],
  obj [("name", .str "uint32"), ("type", .str "integer"), ("attributes", obj [("format",
    .str "unsigned"), ("size", .int 4), ("units", .str "bytes")])],
  obj [("name", .str "file_header"), ("type", .str "structure"), ("members", .list [obj [("name",
    .str "signature"), ("type", .str "stream"), ("element_data_type", .str "byte"),
    ("elements_data_size", .int 4), ("value", .str "1234")], obj [("name", .str "format_version"),
    ("data_type", .str "uint32")]])]] }

/-- test_data/integer.yaml -/
def integerYaml : YamlFile := { docs := [
  obj [("name", .str "int32"), ("type", .str "integer"), ("attributes", obj [("format",
    .str "signed"), ("size", .int 4), ("units", .str "bytes")])],
  obj [("name", .str "int32be"), ("type", .str "integer"), ("attributes", obj [("byte_order",
    .str "big-endian"), ("format", .str "signed"), ("size", .int 4), ("units", .str "bytes")])],
  obj [("name", .str "int32le"), ("type", .str "integer"), ("attributes", obj [("byte_order",
    .str "little-endian"), ("format", .str "signed"), ("size", .int 4), ("units", .str "bytes")])],
  obj [("name", .str "int"), ("type", .str "integer"), ("attributes", obj [("format",
    .str "signed")])]] }

/-- test_data/padding.yaml -/
def paddingYaml : YamlFile := { docs := [
  obj [("name", .str "padding"), ("type", .str "padding"), ("alignment_size", .int 8)]] }

/-- test_data/sequence.yaml -/
def sequenceYaml : YamlFile := { docs := [
  obj [("name", .str "int32"), ("type", .str "integer"), ("description",
    .str "32-bit signed integer type"), ("attributes", obj [("byte_order", .str "little-endian"),
    ("format", .str "signed"), ("size", .int 4), ("units", .str "bytes")])],
  obj [("name", .str "vector4"), ("aliases", .list [.str "VECTOR"]), ("type", .str "sequence"),
    ("description", .str "4-dimensional vector"), ("element_data_type", .str "int32"),
    ("number_of_elements", .int 4)],
  obj [("name", .str "triangle4"), ("aliases", .list [.str "TRIANGLE"]), ("type", .str "sequence"),
    ("description", .str "4-dimensional triangle"), ("element_data_type", .str "vector4"),
    ("number_of_elements", .int 3)]] }

/-- test_data/sequence_with_context.yaml -/
def sequenceWithContextYaml : YamlFile := { docs := [
  obj [("name", .str "int32"), ("type", .str "integer"), ("description",
    .str "32-bit signed integer type"), ("attributes", obj [("byte_order", .str "little-endian"),
    ("format", .str "signed"), ("size", .int 4), ("units", .str "bytes")])],
  obj [("name", .str "nvector"), ("type", .str "sequence"), ("description",
    .str "n-dimensional vector"), ("element_data_type", .str "int32"), ("number_of_elements",
    .str "n")],
  obj [("name", .str "fixed_size_vector"), ("type", .str "sequence"), ("description",
    .str "vector with a fixed size"), ("element_data_type", .str "int32"), ("elements_data_size",
    .int 32)],
  obj [("name", .str "variable_size_vector"), ("type", .str "sequence"), ("description",
    .str "vector with a variable size"), ("element_data_type", .str "int32"),
    ("elements_data_size", .str "vector_size")]] }

/-- test_data/sequence_with_structure.yaml -/
def sequenceWithStructureYaml : YamlFile := { docs := [
  obj [("name", .str "int32"), ("type", .str "integer"), ("attributes", obj [("format",
    .str "signed"), ("size", .int 4), ("units", .str "bytes")])],
  obj [("name", .str "vector"), ("type", .str "structure"), ("attributes", obj [("byte_order",
    .str "little-endian")]), ("members", .list [obj [("name", .str "number_of_elements"),
    ("data_type", .str "int32")], obj [("name", .str "values"), ("type", .str "sequence"),
    ("element_data_type", .str "int32"), ("number_of_elements",
    .str "vector.number_of_elements")]])],
  obj [("name", .str "vectors"), ("type", .str "sequence"), ("element_data_type", .str "vector"),
    ("number_of_elements", .int 3)]] }

/-- test_data/stream.yaml -/
def streamYaml : YamlFile := { docs := [
  obj [("name", .str "wchar16"), ("aliases", .list [.str "WCHAR"]), ("type", .str "character"),
    ("description", .str "16-bit wide character type"), ("attributes", obj [("byte_order",
    .str "little-endian"), ("size", .int 2), ("units", .str "bytes")])],
  obj [("name", .str "utf16le_stream"), ("aliases", .list [.str "UTF16LE"]), ("type",
    .str "stream"), ("description", .str "UTF-16 little-endian stream"), ("element_data_type",
    .str "wchar16"), ("number_of_elements", .int 8)],
  obj [("name", .str "utf16le_stream_with_size"), ("type", .str "stream"), ("description",
    .str "UTF-16 little-endian stream with size"), ("element_data_type", .str "wchar16"),
    ("elements_data_size", .str "size")],
  obj [("name", .str "utf16le_stream_with_terminator"), ("type", .str "stream"), ("description",
    .str "UTF-16 little-endian stream with terminator"), ("element_data_type", .str "wchar16"),
    ("elements_terminator", .str "\x00\x00")]] }

/-- test_data/string.yaml -/
def stringYaml : YamlFile := { docs := [
  obj [("name", .str "char"), ("type", .str "character"), ("attributes", obj [("byte_order",
    .str "little-endian"), ("size", .int 1), ("units", .str "bytes")])],
  obj [("name", .str "wchar16"), ("aliases", .list [.str "WCHAR"]), ("type", .str "character"),
    ("description", .str "16-bit wide character type"), ("attributes", obj [("byte_order",
    .str "little-endian"), ("size", .int 2), ("units", .str "bytes")])],
  obj [("name", .str "utf8_string"), ("type", .str "string"), ("description", .str "UTF-8 string"),
    ("encoding", .str "utf8"), ("element_data_type", .str "char"), ("elements_terminator",
    .str "\x00")],
  obj [("name", .str "utf8_string_fixed_size"), ("type", .str "string"), ("description",
    .str "UTF-8 string"), ("encoding", .str "utf8"), ("element_data_type", .str "char"),
    ("elements_data_size", .int 16), ("elements_terminator", .str "\x00")],
  obj [("name", .str "utf16_string"), ("type", .str "string"), ("description",
    .str "UTF-16 string"), ("encoding", .str "utf-16-le"), ("element_data_type", .str "wchar16"),
    ("number_of_elements", .int 8)]] }

/-- test_data/string_array.yaml -/
def stringArrayYaml : YamlFile := { docs := [
  obj [("name", .str "char"), ("type", .str "integer"), ("attributes", obj [("format",
    .str "signed"), ("size", .int 1), ("units", .str "bytes")])],
  obj [("name", .str "uint32"), ("type", .str "integer"), ("attributes", obj [("format",
    .str "signed"), ("size", .int 4), ("units", .str "bytes")])],
  obj [("name", .str "cstring"), ("type", .str "string"), ("encoding", .str "ascii"),
    ("element_data_type", .str "char"), ("elements_terminator", .str "\x00")],
  obj [("name", .str "string_array"), ("type", .str "structure"), ("attributes",
    obj [("byte_order", .str "little-endian")]), ("members", .list [obj [("name",
    .str "number_of_strings"), ("data_type", .str "uint32")], obj [("name", .str "strings"),
    ("type", .str "sequence"), ("element_data_type", .str "cstring"), ("number_of_elements",
    .str "string_array.number_of_strings")]])],
  obj [("name", .str "string_array_with_size"), ("type", .str "structure"), ("attributes",
    obj [("byte_order", .str "little-endian")]), ("members", .list [obj [("name",
    .str "strings_data_size"), ("data_type", .str "uint32")], obj [("name", .str "strings"),
    ("type", .str "sequence"), ("element_data_type", .str "cstring"), ("elements_data_size",
    .str "string_array_with_size.strings_data_size")]])]] }

/-- test_data/structure.yaml -/
def structureYaml : YamlFile := { docs := [
  obj [("name", .str "int32"), ("type", .str "integer"), ("description",
    .str "32-bit signed integer type"), ("attributes", obj [("format", .str "signed"), ("size",
    .int 4), ("units", .str "bytes")])],
  obj [("name", .str "point3d"), ("aliases", .list [.str "POINT"]), ("type", .str "structure"),
    ("description", .str "Point in 3 dimensional space."), ("attributes", obj [("byte_order",
    .str "little-endian")]), ("members", .list [obj [("name", .str "x"), ("aliases",
    .list [.str "XCOORD"]), ("data_type", .str "int32")], obj [("name", .str "y"), ("data_type",
    .str "int32")], obj [("name", .str "z"), ("data_type", .str "int32")]])],
  obj [("name", .str "triangle3d"), ("type", .str "structure"), ("description",
    .str "Triangle in 3 dimensional space."), ("members", .list [obj [("name", .str "a"),
    ("data_type", .str "point3d")], obj [("name", .str "b"), ("data_type", .str "point3d")],
    obj [("name", .str "c"), ("data_type", .str "point3d")]])],
  obj [("name", .str "box3d"), ("type", .str "structure"), ("description",
    .str "Box in 3 dimensional space."), ("members", .list [obj [("name", .str "triangles"),
    ("type", .str "sequence"), ("element_data_type", .str "triangle3d"), ("number_of_elements",
    .int 12)]])],
  obj [("name", .str "sphere3d"), ("type", .str "structure"), ("attributes", obj [("byte_order",
    .str "little-endian")]), ("description", .str "Sphere in 3 dimensional space."), ("members",
    .list [obj [("name", .str "number_of_triangles"), ("data_type", .str "int32")], obj [("name",
    .str "triangles"), ("type", .str "sequence"), ("element_data_type", .str "triangle3d"),
    ("number_of_elements", .str "sphere3d.number_of_triangles")]])]] }

/-- test_data/structure_family.yaml -/
def structureFamilyYaml : YamlFile := { docs := [
  obj [("name", .str "byte"), ("type", .str "integer"), ("attributes", obj [("format",
    .str "unsigned"), ("size", .int 1), ("units", .str "bytes")])],
  obj [("name", .str "uint16"), ("type", .str "integer"), ("attributes", obj [("format",
    .str "unsigned"), ("size", .int 2), ("units", .str "bytes")])],
  obj [("name", .str "uint32"), ("type", .str "integer"), ("attributes", obj [("format",
    .str "unsigned"), ("size", .int 4), ("units", .str "bytes")])],
  obj [("name", .str "uint64"), ("type", .str "integer"), ("attributes", obj [("format",
    .str "unsigned"), ("size", .int 8), ("units", .str "bytes")])],
  obj [("name", .str "group_descriptor_ext2"), ("type", .str "structure"), ("description",
    .str "Group descriptor"), ("members", .list [obj [("name", .str "block_bitmap_block_number"),
    ("data_type", .str "uint32")], obj [("name", .str "inode_bitmap_block_number"), ("data_type",
    .str "uint32")], obj [("name", .str "inode_table_block_number"), ("data_type", .str "uint32")],
    obj [("name", .str "number_of_unallocated_blocks"), ("data_type", .str "uint16")],
    obj [("name", .str "number_of_unallocated_inodes"), ("data_type", .str "uint16")],
    obj [("name", .str "number_of_directories"), ("data_type", .str "uint16")], obj [("name",
    .str "padding1"), ("data_type", .str "uint16")], obj [("name", .str "reserved1"), ("type",
    .str "stream"), ("element_data_type", .str "byte"), ("elements_data_size", .int 12)]])],
  obj [("name", .str "group_descriptor_ext4"), ("type", .str "structure"), ("description",
    .str "Group descriptor"), ("members", .list [obj [("name",
    .str "block_bitmap_block_number_lower"), ("data_type", .str "uint32")], obj [("name",
    .str "inode_bitmap_block_number_lower"), ("data_type", .str "uint32")], obj [("name",
    .str "inode_table_block_number_lower"), ("data_type", .str "uint32")], obj [("name",
    .str "number_of_unallocated_blocks_lower"), ("data_type", .str "uint16")], obj [("name",
    .str "number_of_unallocated_inodes_lower"), ("data_type", .str "uint16")], obj [("name",
    .str "number_of_directories_lower"), ("data_type", .str "uint16")], obj [("name",
    .str "block_group_flags"), ("data_type", .str "uint16")], obj [("name",
    .str "exclude_bitmap_block_number_lower"), ("data_type", .str "uint32")], obj [("name",
    .str "block_bitmap_checksum_lower"), ("data_type", .str "uint16")], obj [("name",
    .str "inode_bitmap_checksum_lower"), ("data_type", .str "uint16")], obj [("name",
    .str "number_of_unused_inodes"), ("data_type", .str "uint16")], obj [("name", .str "checksum"),
    ("data_type", .str "uint16")], obj [("name", .str "block_bitmap_block_number_upper"),
    ("data_type", .str "uint32")], obj [("name", .str "inode_bitmap_block_number_upper"),
    ("data_type", .str "uint32")], obj [("name", .str "inode_table_block_number_upper"),
    ("data_type", .str "uint32")], obj [("name", .str "number_of_unallocated_blocks_upper"),
    ("data_type", .str "uint16")], obj [("name", .str "number_of_unallocated_inodes_upper"),
    ("data_type", .str "uint16")], obj [("name", .str "number_of_directories_upper"), ("data_type",
    .str "uint16")], obj [("name", .str "number_of_unused_inodes_upper"), ("data_type",
    .str "uint16")], obj [("name", .str "exclude_bitmap_block_number_upper"), ("data_type",
    .str "uint32")], obj [("name", .str "block_bitmap_checksum_upper"), ("data_type",
    .str "uint16")], obj [("name", .str "inode_bitmap_checksum_upper"), ("data_type",
    .str "uint16")], obj [("name", .str "reserved1"), ("data_type", .str "uint32")]])],
  obj [("name", .str "group_descriptor_base"), ("type", .str "structure"), ("description",
    .str "Group descriptor"), ("members", .list [obj [("name", .str "block_bitmap_block_number"),
    ("data_type", .str "uint64")], obj [("name", .str "inode_bitmap_block_number"), ("data_type",
    .str "uint64")], obj [("name", .str "inode_table_block_number"), ("data_type", .str "uint64")],
    obj [("name", .str "number_of_unallocated_blocks"), ("data_type", .str "uint32")],
    obj [("name", .str "number_of_unallocated_inodes"), ("data_type", .str "uint32")],
    obj [("name", .str "number_of_directories"), ("data_type", .str "uint32")], obj [("name",
    .str "block_group_flags"), ("data_type", .str "uint16")], obj [("name",
    .str "exclude_bitmap_block_number"), ("data_type", .str "uint64")], obj [("name",
    .str "block_bitmap_checksum"), ("data_type", .str "uint32")], obj [("name",
    .str "inode_bitmap_checksum"), ("data_type", .str "uint32")], obj [("name",
    .str "number_of_unused_inodes"), ("data_type", .str "uint32")]])],
  obj [("name", .str "group_descriptor"), ("type", .str "structure-family"), ("description",
    .str "Group descriptor"), ("base", .str "group_descriptor_base"), ("members",
    .list [.str "group_descriptor_ext2", .str "group_descriptor_ext4"])]] }

/-- test_data/structure_group.yaml -/
def structureGroupYaml : YamlFile := { docs := [
  obj [("name", .str "char"), ("type", .str "integer"), ("attributes", obj [("format",
    .str "signed"), ("size", .int 1), ("units", .str "bytes")])],
  obj [("name", .str "uint8"), ("type", .str "integer"), ("attributes", obj [("format",
    .str "unsigned"), ("size", .int 1), ("units", .str "bytes")])],
  obj [("name", .str "uint16"), ("type", .str "integer"), ("attributes", obj [("format",
    .str "unsigned"), ("size", .int 2), ("units", .str "bytes")])],
  obj [("name", .str "uint32"), ("type", .str "integer"), ("attributes", obj [("format",
    .str "unsigned"), ("size", .int 4), ("units", .str "bytes")])],
  obj [("name", .str "uint64"), ("type", .str "integer"), ("attributes", obj [("format",
    .str "unsigned"), ("size", .int 8), ("units", .str "bytes")])],
  obj [("name", .str "bsm_token_arg32"), ("type", .str "structure"), ("attributes",
    obj [("byte_order", .str "big-endian")]), ("members", .list [obj [("name", .str "token_type"),
    ("data_type", .str "uint8"), ("value", .int 45)], obj [("name", .str "argument_index"),
    ("data_type", .str "uint8")], obj [("name", .str "argument_name"), ("data_type",
    .str "uint32")], obj [("name", .str "argument_value_size"), ("data_type", .str "uint16")],
    obj [("name", .str "argument_value"), ("type", .str "string"), ("encoding", .str "ascii"),
    ("element_data_type", .str "char"), ("elements_data_size",
    .str "bsm_token_data_arg32.argument_value_size")]])],
  obj [("name", .str "bsm_token_arg64"), ("type", .str "structure"), ("attributes",
    obj [("byte_order", .str "big-endian")]), ("members", .list [obj [("name", .str "token_type"),
    ("data_type", .str "uint8"), ("value", .int 113)], obj [("name", .str "argument_index"),
    ("data_type", .str "uint8")], obj [("name", .str "argument_name"), ("data_type",
    .str "uint64")], obj [("name", .str "argument_value_size"), ("data_type", .str "uint16")],
    obj [("name", .str "argument_value"), ("type", .str "string"), ("encoding", .str "ascii"),
    ("element_data_type", .str "char"), ("elements_data_size",
    .str "bsm_token_data_arg64.argument_value_size")]])],
  obj [("name", .str "bsm_token_base"), ("type", .str "structure"), ("attributes",
    obj [("byte_order", .str "big-endian")]), ("members", .list [obj [("name", .str "token_type"),
    ("data_type", .str "uint8")]])],
  obj [("name", .str "bsm_token"), ("type", .str "structure-group"), ("description",
    .str "BSM token"), ("base", .str "bsm_token_base"), ("identifier", .str "token_type"),
    ("members", .list [.str "bsm_token_arg32", .str "bsm_token_arg64"])]] }

/-- test_data/structure_with_condition.yaml -/
def structureWithConditionYaml : YamlFile := { docs := [
  obj [("name", .str "uint16"), ("type", .str "integer"), ("attributes", obj [("format",
    .str "unsigned"), ("size", .int 2), ("units", .str "bytes")])],
  obj [("name", .str "uint32"), ("type", .str "integer"), ("attributes", obj [("format",
    .str "unsigned"), ("size", .int 4), ("units", .str "bytes")])],
  obj [("name", .str "structure_with_condition"), ("type", .str "structure"), ("attributes",
    obj [("byte_order", .str "little-endian")]), ("members", .list [obj [("name", .str "flags"),
    ("data_type", .str "uint16")], obj [("name", .str "data1"), ("data_type", .str "uint32")],
    obj [("name", .str "conditional_data1"), ("data_type", .str "uint32"), ("condition",
    .str "structure_with_condition.flags & 0x0001 != 0")], obj [("name", .str "data2"),
    ("data_type", .str "uint32")], obj [("name", .str "conditional_data2"), ("data_type",
    .str "uint32"), ("condition", .str "structure_with_condition.flags & 0x8000 != 0")],
    obj [("name", .str "data3"), ("data_type", .str "uint32")]])]] }

/-- test_data/structure_with_context.yaml -/
def structureWithContextYaml : YamlFile := { docs := [
  obj [("name", .str "byte"), ("type", .str "integer"), ("attributes", obj [("format",
    .str "unsigned"), ("size", .int 1), ("units", .str "bytes")])],
  obj [("name", .str "uint32"), ("type", .str "integer"), ("attributes", obj [("format",
    .str "unsigned"), ("size", .int 4), ("units", .str "bytes")])],
  obj [("name", .str "instance_block_header"), ("type", .str "structure"), ("attributes",
    obj [("byte_order", .str "little-endian")]), ("members", .list [obj [("name",
    .str "name_offset"), ("data_type", .str "uint32")], obj [("name", .str "unknown1"),
    ("data_type", .str "byte")], obj [("name", .str "property_value_offsets"), ("type",
    .str "sequence"), ("element_data_type", .str "uint32"), ("number_of_elements",
    .str "number_of_properties")]])]] }

/-- test_data/structure_with_padding.yaml -/
def structureWithPaddingYaml : YamlFile := { docs := [
  obj [("name", .str "byte"), ("type", .str "integer"), ("attributes", obj [("format",
    .str "unsigned"), ("size", .int 1), ("units", .str "bytes")])],
  obj [("name", .str "uint16"), ("type", .str "integer"), ("attributes", obj [("format",
    .str "unsigned"), ("size", .int 2), ("units", .str "bytes")])],
  obj [("name", .str "structure_with_padding"), ("type", .str "structure"), ("attributes",
    obj [("byte_order", .str "little-endian")]), ("members", .list [obj [("name",
    .str "data_size"), ("data_type", .str "uint16")], obj [("name", .str "padding"), ("type",
    .str "padding"), ("alignment_size", .int 8)]])],
  obj [("name", .str "structure_with_padding_and_stream"), ("type", .str "structure"),
    ("attributes", obj [("byte_order", .str "little-endian")]), ("members", .list [obj [("name",
    .str "data_size"), ("data_type", .str "uint16")], obj [("name", .str "data"), ("type",
    .str "stream"), ("element_data_type", .str "byte"), ("elements_data_size",
    .str "structure_with_padding_and_stream.data_size")], obj [("name", .str "padding"), ("type",
    .str "padding"), ("alignment_size", .int 8)]])]] }

/-- test_data/structure_with_section.yaml -/
def structureWithSectionYaml : YamlFile := { docs := [
  obj [("name", .str "int32"), ("type", .str "integer"), ("attributes", obj [("format",
    .str "signed"), ("size", .int 4), ("units", .str "bytes")])],
  obj [("name", .str "3dsphere"), ("type", .str "structure"), ("members", .list [obj [("section",
    .str "3dcoordinate")], obj [("name", .str "x"), ("data_type", .str "int32")], obj [("name",
    .str "y"), ("data_type", .str "int32")], obj [("name", .str "z"), ("data_type", .str "int32")],
    obj [("section", .str "size")], obj [("name", .str "radius"), ("data_type", .str "int32")]])]] }

/-- test_data/structure_with_sequence.yaml -/
def structureWithSequenceYaml : YamlFile := { docs := [
  obj [("name", .str "byte"), ("type", .str "integer"), ("attributes", obj [("format",
    .str "unsigned"), ("size", .int 1), ("units", .str "bytes")])],
  obj [("name", .str "uint32"), ("type", .str "integer"), ("attributes", obj [("format",
    .str "unsigned"), ("size", .int 4), ("units", .str "bytes")])],
  obj [("name", .str "extension_block"), ("type", .str "structure"), ("attributes",
    obj [("byte_order", .str "little-endian")]), ("members", .list [obj [("name", .str "size"),
    ("data_type", .str "uint32")], obj [("name", .str "data"), ("type", .str "sequence"),
    ("element_data_type", .str "byte"), ("number_of_elements",
    .str "0 if extension_block.size == 0 else extension_block.size - 4")]])]] }

/-- test_data/structure_with_stream.yaml -/
def structureWithStreamYaml : YamlFile := { docs := [
  obj [("name", .str "byte"), ("type", .str "integer"), ("attributes", obj [("format",
    .str "unsigned"), ("size", .int 1), ("units", .str "bytes")])],
  obj [("name", .str "uint32"), ("type", .str "integer"), ("attributes", obj [("format",
    .str "unsigned"), ("size", .int 4), ("units", .str "bytes")])],
  obj [("name", .str "extension_block"), ("type", .str "structure"), ("attributes",
    obj [("byte_order", .str "little-endian")]), ("members", .list [obj [("name", .str "size"),
    ("data_type", .str "uint32")], obj [("name", .str "data"), ("type", .str "stream"),
    ("element_data_type", .str "byte"), ("elements_data_size",
    .str "0 if extension_block.size == 0 else extension_block.size - 4")]])]] }

/-- test_data/structure_with_string.yaml -/
def structureWithStringYaml : YamlFile := { docs := [
  obj [("name", .str "wchar16"), ("type", .str "integer"), ("attributes", obj [("format",
    .str "signed"), ("size", .int 2), ("units", .str "bytes")])],
  obj [("name", .str "uint16"), ("type", .str "integer"), ("attributes", obj [("format",
    .str "unsigned"), ("size", .int 2), ("units", .str "bytes")])],
  obj [("name", .str "utf16_string"), ("type", .str "structure"), ("attributes",
    obj [("byte_order", .str "little-endian")]), ("members", .list [obj [("name", .str "size"),
    ("data_type", .str "uint16")], obj [("name", .str "text"), ("type", .str "string"),
    ("encoding", .str "utf-16-le"), ("element_data_type", .str "wchar16"), ("elements_data_size",
    .str "utf16_string.size")]])]] }

/-- test_data/structure_with_union.yaml -/
def structureWithUnionYaml : YamlFile := { docs := [
  obj [("name", .str "uint32"), ("type", .str "integer"), ("attributes", obj [("format",
    .str "unsigned"), ("size", .int 4), ("units", .str "bytes")])],
  obj [("name", .str "float32"), ("type", .str "floating-point"), ("attributes",
    obj [("byte_order", .str "little-endian"), ("size", .int 4), ("units", .str "bytes")])],
  obj [("name", .str "intfloat32"), ("type", .str "structure"), ("members", .list [obj [("type",
    .str "union"), ("members", .list [obj [("name", .str "int"), ("data_type", .str "uint32")],
    obj [("name", .str "float"), ("data_type", .str "float32")]])]])]] }

/-- test_data/structure_with_values.yaml -/
def structureWithValuesYaml : YamlFile := { docs := [
  obj [("name", .str "byte"), ("type", .str "integer"), ("attributes", obj [("format",
    .str "unsigned"), ("size", .int 1), ("units", .str "bytes")])],
  obj [("name", .str "uint32"), ("type", .str "integer"), ("attributes", obj [("format",
    .str "unsigned"), ("size", .int 4), ("units", .str "bytes")])],
  obj [("name", .str "structure_with_value"), ("type", .str "structure"), ("members",
    .list [obj [("name", .str "signature"), ("type", .str "stream"), ("element_data_type",
    .str "byte"), ("elements_data_size", .int 4), ("value", .str "test")], obj [("name",
    .str "data_size"), ("data_type", .str "uint32")], obj [("name", .str "data"), ("type",
    .str "stream"), ("element_data_type", .str "byte"), ("elements_data_size",
    .str "structure_with_value.data_size")]])],
  obj [("name", .str "structure_with_values"), ("type", .str "structure"), ("attributes",
    obj [("byte_order", .str "little-endian")]), ("members", .list [obj [("name",
    .str "format_version"), ("data_type", .str "uint32"), ("values", .list [.int 2, .int 3])],
    obj [("name", .str "data_size"), ("data_type", .str "uint32")]])]] }

/-- test_data/union.yaml -/
def unionYaml : YamlFile := { docs := [
  obj [("name", .str "int16"), ("type", .str "integer"), ("description",
    .str "16-bit signed integer type"), ("attributes", obj [("format", .str "signed"), ("size",
    .int 2), ("units", .str "bytes")])],
  obj [("name", .str "int32"), ("type", .str "integer"), ("description",
    .str "32-bit signed integer type"), ("attributes", obj [("format", .str "signed"), ("size",
    .int 4), ("units", .str "bytes")])],
  obj [("name", .str "union"), ("type", .str "union"), ("members", .list [obj [("name",
    .str "long"), ("data_type", .str "int32")], obj [("name", .str "short"), ("data_type",
    .str "int16")]])]] }

/-- test_data/union_with_condition.yaml -/
def unionWithConditionYaml : YamlFile := { docs := [
  obj [("name", .str "uint16"), ("type", .str "integer"), ("attributes", obj [("format",
    .str "unsigned"), ("size", .int 2), ("units", .str "bytes")])],
  obj [("name", .str "uint32"), ("type", .str "integer"), ("attributes", obj [("format",
    .str "unsigned"), ("size", .int 4), ("units", .str "bytes")])],
  obj [("name", .str "union_with_condition"), ("type", .str "union"), ("members",
    .list [obj [("name", .str "flags"), ("data_type", .str "uint16")], obj [("name", .str "long"),
    ("data_type", .str "uint32"), ("condition", .str "union_with_condition.flags & 0x8000 != 0")]])]] }

/-- test_data/uuid.yaml -/
def uuidYaml : YamlFile := { docs := [
  obj [("name", .str "uuid"), ("aliases", .list [.str "guid", .str "GUID", .str "UUID"]), ("type",
    .str "uuid"), ("description",
    .str "Globally or Universal unique identifier (GUID or UUID) type"), ("attributes",
    obj [("byte_order", .str "little-endian")])]] }

/-- test_data/definitions/booleans.yaml -/
def booleansYaml : YamlFile := { docs := [
  obj [("name", .str "bool8"), ("aliases", .list [.str "BOOLEAN"]), ("type", .str "boolean"),
    ("description", .str "8-bit boolean type"), ("attributes", obj [("size", .int 1), ("units",
    .str "bytes"), ("false_value", .int 0), ("true_value", .int 1)])],
  obj [("name", .str "bool16"), ("type", .str "boolean"), ("description",
    .str "16-bit boolean type"), ("attributes", obj [("byte_order", .str "little-endian"), ("size",
    .int 2), ("units", .str "bytes"), ("false_value", .int 0), ("true_value", .int 1)])],
  obj [("name", .str "bool32"), ("aliases", .list [.str "BOOL"]), ("type", .str "boolean"),
    ("description", .str "32-bit boolean type"), ("attributes", obj [("byte_order",
    .str "little-endian"), ("size", .int 4), ("units", .str "bytes"), ("false_value", .int 0),
    ("true_value", .int 1)])]] }

/-- test_data/definitions/characters.yaml -/
def charactersYaml : YamlFile := { docs := [
  obj [("name", .str "char"), ("aliases", .list [.str "CHAR"]), ("type", .str "character"),
    ("description", .str "8-bit narrow character type"), ("attributes", obj [("size", .int 1),
    ("units", .str "bytes")])],
  obj [("name", .str "wchar16"), ("aliases", .list [.str "WCHAR"]), ("type", .str "character"),
    ("description", .str "16-bit wide character type"), ("attributes", obj [("byte_order",
    .str "little-endian"), ("size", .int 2), ("units", .str "bytes")])],
  obj [("name", .str "wchar32"), ("type", .str "character"), ("description",
    .str "32-bit wide character type"), ("attributes", obj [("byte_order", .str "little-endian"),
    ("size", .int 4), ("units", .str "bytes")])]] }

/-- test_data/definitions/floating-points.yaml -/
def floatingPointsYaml : YamlFile := { docs := [
  obj [("name", .str "float32"), ("aliases", .list [.str "float", .str "FLOAT"]), ("type",
    .str "floating-point"), ("description", .str "32-bit single precision floating-point type"),
    ("attributes", obj [("byte_order", .str "little-endian"), ("size", .int 4), ("units",
    .str "bytes")])],
  obj [("name", .str "float64"), ("aliases", .list [.str "double", .str "DOUBLE"]), ("type",
    .str "floating-point"), ("description", .str "64-bit double precision floating-point type"),
    ("attributes", obj [("byte_order", .str "little-endian"), ("size", .int 8), ("units",
    .str "bytes")])]] }

/-- test_data/definitions/integers.yaml -/
def integersYaml : YamlFile := { docs := [
  obj [("name", .str "int8"), ("type", .str "integer"), ("description",
    .str "8-bit signed integer type"), ("attributes", obj [("format", .str "signed"), ("size",
    .int 1), ("units", .str "bytes")])],
  obj [("name", .str "int16"), ("type", .str "integer"), ("description",
    .str "16-bit signed integer type"), ("attributes", obj [("byte_order", .str "little-endian"),
    ("format", .str "signed"), ("size", .int 2), ("units", .str "bytes")])],
  obj [("name", .str "int32"), ("aliases", .list [.str "LONG", .str "LONG32"]), ("type",
    .str "integer"), ("description", .str "32-bit signed integer type"), ("attributes",
    obj [("byte_order", .str "little-endian"), ("format", .str "signed"), ("size", .int 4),
    ("units", .str "bytes")])],
  obj [("name", .str "int64"), ("aliases", .list [.str "LONG64"]), ("type", .str "integer"),
    ("description", .str "64-bit signed integer type"), ("attributes", obj [("byte_order",
    .str "little-endian"), ("format", .str "signed"), ("size", .int 8), ("units", .str "bytes")])],
  obj [("name", .str "uint8"), ("aliases", .list [.str "BYTE"]), ("type", .str "integer"),
    ("description", .str "8-bit unsigned integer type"), ("attributes", obj [("format",
    .str "unsigned"), ("size", .int 1), ("units", .str "bytes")])],
  obj [("name", .str "uint16"), ("aliases", .list [.str "WORD"]), ("type", .str "integer"),
    ("description", .str "16-bit unsigned integer type"), ("attributes", obj [("byte_order",
    .str "little-endian"), ("format", .str "unsigned"), ("size", .int 2), ("units", .str "bytes")])],
  obj [("name", .str "uint32"), ("aliases", .list [.str "DWORD", .str "DWORD32", .str "ULONG",
    .str "ULONG32"]), ("type", .str "integer"), ("description",
    .str "32-bit unsigned integer type"), ("attributes", obj [("byte_order", .str "little-endian"),
    ("format", .str "unsigned"), ("size", .int 4), ("units", .str "bytes")])],
  obj [("name", .str "uint64"), ("aliases", .list [.str "DWORDLONG", .str "DWORD64",
    .str "ULONG64"]), ("type", .str "integer"), ("description",
    .str "64-bit unsigned integer type"), ("attributes", obj [("byte_order", .str "little-endian"),
    ("format", .str "unsigned"), ("size", .int 8), ("units", .str "bytes")])]] }

end Conformance
end Dtf
