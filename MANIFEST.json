{
 "claims": [
  {
   "property": "C01",
   "status": "proved",
   "theorems": [
    "Dtf.C01_integer_map"
   ],
   "note": ""
  },
  {
   "property": "C02",
   "status": "proved",
   "theorems": [
    "Dtf.C02_integer_fold_range",
    "Dtf.C02_integer_map_fold",
    "Dtf.C02_integer_fold_map"
   ],
   "note": ""
  },
  {
   "property": "C03",
   "status": "proved",
   "theorems": [
    "Dtf.C03_boolean_map",
    "Dtf.C03_boolean_fold"
   ],
   "note": ""
  },
  {
   "property": "C04",
   "status": "proved",
   "theorems": [
    "Dtf.C04_character_map",
    "Dtf.C04_character_fold",
    "Dtf.C04_character_fold_other",
    "Dtf.C04_character_fold_map"
   ],
   "note": ""
  },
  {
   "property": "C05",
   "status": "proved",
   "theorems": [
    "Dtf.C05_double_round_trip",
    "Dtf.C05_single_round_trip"
   ],
   "note": "4-byte: for every pattern on which the platform's single-double-single conversion is the identity, as the statement says."
  },
  {
   "property": "C06",
   "status": "proved",
   "theorems": [
    "Dtf.C06_uuid",
    "Dtf.C06_uuid_map_fold"
   ],
   "note": ""
  },
  {
   "property": "C07",
   "status": "proved",
   "theorems": [
    "Dtf.C07_fold",
    "Dtf.C07_byte_order_duality"
   ],
   "note": ""
  },
  {
   "property": "C08",
   "status": "proved",
   "theorems": [
    "Dtf.C08_struct_size",
    "Dtf.C08_struct_sum",
    "Dtf.C08_union_size",
    "Dtf.C08_sequence_size",
    "Dtf.C08_member_size",
    "Dtf.C08_other_sizes"
   ],
   "note": ""
  },
  {
   "property": "C09",
   "status": "proved",
   "theorems": [
    "Dtf.C09_size_cache_not_stale",
    "Dtf.C09_duplicate_member"
   ],
   "note": "Members are immutable values: a nested structure that gets members after its parent's size was cached is outside the model."
  },
  {
   "property": "C10",
   "status": "proved",
   "theorems": [
    "Dtf.C10_mapped_size",
    "Dtf.C10_terminator_and_count",
    "Dtf.C10_data_size_not_multiple"
   ],
   "note": ""
  },
  {
   "property": "C11",
   "status": "proved",
   "theorems": [
    "Dtf.C11_exact_size"
   ],
   "note": ""
  },
  {
   "property": "C12",
   "status": "proved",
   "theorems": [
    "Dtf.C12_stays_inside",
    "Dtf.C12_short_terminator"
   ],
   "note": ""
  },
  {
   "property": "C13",
   "status": "proved",
   "theorems": [
    "Dtf.C13_append"
   ],
   "note": ""
  },
  {
   "property": "C14",
   "status": "proved",
   "theorems": [
    "Dtf.C14_offset"
   ],
   "note": ""
  },
  {
   "property": "C15",
   "status": "proved",
   "theorems": [
    "Dtf.C15_fresh",
    "Dtf.C15_reuse"
   ],
   "note": ""
  },
  {
   "property": "C16",
   "status": "proved",
   "theorems": [
    "Dtf.C16_layout",
    "Dtf.C16_complete"
   ],
   "note": ""
  },
  {
   "property": "C17",
   "status": "proved",
   "theorems": [
    "Dtf.C17_elements",
    "Dtf.C17_count",
    "Dtf.C17_data_size",
    "Dtf.C17_terminator",
    "Dtf.C17_no_size",
    "Dtf.C17_fraction"
   ],
   "note": "C17_elements, C17_count, C17_data_size and C17_terminator say what a mapped sequence holds; C17_no_size and C17_fraction which sizes are never mapped. Data sizes that are fractions, infinite or NaN are not modelled."
  },
  {
   "property": "C18",
   "status": "proved",
   "theorems": [
    "Dtf.C18_gate",
    "Dtf.C18_error"
   ],
   "note": ""
  },
  {
   "property": "C19",
   "status": "proved",
   "theorems": [
    "Dtf.C19_supported"
   ],
   "note": ""
  },
  {
   "property": "C20",
   "status": "proved",
   "theorems": [
    "Dtf.C20_sized_stream"
   ],
   "note": ""
  },
  {
   "property": "C21",
   "status": "proved",
   "theorems": [
    "Dtf.C21_terminated_stream"
   ],
   "note": ""
  },
  {
   "property": "C22",
   "status": "proved",
   "theorems": [
    "Dtf.C22_string"
   ],
   "note": ""
  },
  {
   "property": "C23",
   "status": "proved",
   "theorems": [
    "Dtf.C23_padding",
    "Dtf.C23_member"
   ],
   "note": ""
  },
  {
   "property": "C24",
   "status": "partial",
   "theorems": [
    "Dtf.C24_elements_partial",
    "Dtf.C24_integers_partial",
    "Dtf.C24_member_order_partial",
    "Dtf.C24_integer_partial",
    "Dtf.C24_refuted"
   ],
   "note": "The claim is false for structures read in one go: C24_refuted is a structure whose member declares another byte order. Proved for all structures but those of fixed-size primitives in which no two neighbours declare different byte orders and a member disagrees with the structure (C24_member_order_partial), with the values of integers (C24_integer_partial) and of the elements of sequences (C24_elements_partial, C24_integers_partial)."
  },
  {
   "property": "C25",
   "status": "proved",
   "theorems": [
    "Dtf.C25_sequence",
    "Dtf.C25_structure"
   ],
   "note": ""
  },
  {
   "property": "C26",
   "status": "partial",
   "theorems": [
    "Dtf.C26_errors_partial",
    "Dtf.C26_returns_partial",
    "Dtf.C26_native_refuted",
    "Dtf.C26_characters_refuted",
    "Dtf.C26_terminator_refuted",
    "Dtf.C26_integer_terminator_refuted",
    "Dtf.C26_name_refuted",
    "Dtf.C26_native_member_refuted",
    "Dtf.C26_variable_elements_refuted",
    "Dtf.C26_float_refuted"
   ],
   "note": "The claim is false: eight files the reader accepts (C26_*_refuted) give maps that raise TypeError, ValueError or AttributeError. Proved for all streams and contexts for every definition without these defects of its own (Reliable: nested maps may have them, their errors are converted), with C28 for termination; sequences whose data size is a fraction, infinite or NaN are not modelled and excluded (WholeSizes)."
  },
  {
   "property": "C27",
   "status": "proved",
   "theorems": [
    "Dtf.C27_too_deep",
    "Dtf.C27_within_limit"
   ],
   "note": ""
  },
  {
   "property": "C28",
   "status": "proved",
   "theorems": [
    "Dtf.C28_terminates",
    "Dtf.C28_fixed_size_elements",
    "Dtf.C28_iterations",
    "Dtf.C28_endless",
    "Dtf.C28_fraction"
   ],
   "note": ""
  },
  {
   "property": "C29",
   "status": "partial",
   "theorems": [
    "Dtf.C29_retry_partial",
    "Dtf.C29_conditional_refuted",
    "Dtf.C29_group_refuted",
    "Dtf.C29_default_refuted",
    "Dtf.C29_reuse_refuted",
    "Dtf.C29_wide_refuted",
    "Dtf.C29_padding_refuted",
    "Dtf.C29_elements_refuted",
    "Dtf.C29_remainder_refuted",
    "Dtf.C29_number_refuted"
   ],
   "note": "The claim is false with conditional members (C29_conditional_refuted: the hint exceeds the data), with groups as members (C29_group_refuted: the hint does not grow, the loop never ends), with the default of a group (C29_default_refuted: the base's hint is given), with a group and the context of an earlier value (C29_reuse_refuted: the size of that value is given) with terminated streams of wider elements (C29_wide_refuted), with padding in a structure within another one (C29_padding_refuted), with elements of different sizes (C29_elements_refuted), with a data size that is no multiple of the size of the elements (C29_remainder_refuted) and with a number of elements beside a terminator that may be zero (C29_number_refuted). Proved for all data, first reads and namespaces for HintedTypes: nested structures, sequences, streams and strings with sizes known, given by expressions or by terminators, padding of the outermost structure and groups without default as the outermost type (C29_retry_partial)."
  },
  {
   "property": "C30",
   "status": "partial",
   "theorems": [
    "Dtf.C30_resume_partial",
    "Dtf.C30_sequence_refuted",
    "Dtf.C30_padding_refuted",
    "Dtf.C30_group_refuted"
   ],
   "note": "The claim is false when a sequence mapped element by element is followed by another member (C30_sequence_refuted: a resumed sequence reports its total size and the next member is misread), with padding (C30_padding_refuted) and for groups whose base is mapped member by member (C30_group_refuted). Proved for all data, all ways to cut it into pieces and any number of calls for the other maps (Resumable): nested structures, sequences as last member, streams, strings, groups (C30_resume_partial)."
  },
  {
   "property": "C31",
   "status": "partial",
   "theorems": [
    "Dtf.C31_partial",
    "Dtf.C31_any_partial",
    "Dtf.C31_refuted",
    "Dtf.C31_sequence_refuted",
    "Dtf.C31_string_refuted"
   ],
   "note": "The claim is false for linear structures with booleans (C31_refuted: byte 2 comes back as byte 1), for composite sequences (folded to None) and for fixed-size strings cut at a terminator. Proved for all streams and any nesting of the maps in the inductive predicate Foldable: numbers, booleans, characters, UUIDs, padding, streams, strings, linear sequences of numbers, linear structures of numbers and composite structures with conditions and size expressions over earlier members. The floating-point numbers in the value must convert back to single precision (Kept); with CPython's conversions all numbers but NaNs do (C60_structure)."
  },
  {
   "property": "C32",
   "status": "partial",
   "theorems": [
    "Dtf.C32_partial",
    "Dtf.C32_uuid_partial",
    "Dtf.C32_refuted"
   ],
   "note": "The claim is false for a UUID map of native byte order, which folds to None (C32_refuted). Proved for all values for primitive maps and linear structure and sequence maps, and for UUID maps with a byte order and values that are UUIDs or of built-in types."
  },
  {
   "property": "C33",
   "status": "proved",
   "theorems": [
    "Dtf.C33_dispatch",
    "Dtf.C33_unique",
    "Dtf.C33_duplicates"
   ],
   "note": ""
  },
  {
   "property": "C34",
   "status": "proved",
   "theorems": [
    "Dtf.C34_refused",
    "Dtf.C34_group"
   ],
   "note": ""
  },
  {
   "property": "C35",
   "status": "proved",
   "theorems": [
    "Dtf.C35_values_distinct",
    "Dtf.C35_add_value",
    "Dtf.C35_get_name"
   ],
   "note": ""
  },
  {
   "property": "C36",
   "status": "proved",
   "theorems": [
    "Dtf.C36_none",
    "Dtf.C36_kind"
   ],
   "note": ""
  },
  {
   "property": "C37",
   "status": "partial",
   "theorems": [
    "Dtf.C37_member_maps_partial",
    "Dtf.C37_refuted"
   ],
   "note": "The claim is false when a member declared in place is called like the type of another member: C37_refuted. Proved when members with the same type name have the same type (C37_member_maps_partial); C126 shows which definition files meet this."
  },
  {
   "property": "C38",
   "status": "proved",
   "theorems": [
    "Dtf.C38_register",
    "Dtf.C38_unique"
   ],
   "note": ""
  },
  {
   "property": "C39",
   "status": "proved",
   "theorems": [
    "Dtf.C39_definitions",
    "Dtf.C39_lookup",
    "Dtf.C39_unknown"
   ],
   "note": ""
  },
  {
   "property": "C40",
   "status": "partial",
   "theorems": [
    "Dtf.C40_alias_partial",
    "Dtf.C40_deregister_partial",
    "Dtf.C40_refuted"
   ],
   "note": "The claim is false for a definition with aliases: C40_refuted (deregistering keeps the aliases, so registering the definition again raises KeyError and the alias later resolves to another definition of that name). Proved: aliases resolve while registered (C40_alias_partial) and deregistering undoes everything but aliases (C40_deregister_partial)."
  },
  {
   "property": "C41",
   "status": "partial",
   "theorems": [
    "Dtf.C41_wellformed_partial",
    "Dtf.C41_members_partial",
    "Dtf.C41_members_refuted"
   ],
   "note": "The claim is false for member lists: a structure whose only entries are sections is registered without members (C41_members_refuted). Everything else is proved for all sequences of files; that structures and unions have members is proved for documents without sections (C41_members_partial)."
  },
  {
   "property": "C42",
   "status": "proved",
   "theorems": [
    "Dtf.C42_resolved",
    "Dtf.C42_before"
   ],
   "note": ""
  },
  {
   "property": "C43",
   "status": "proved",
   "theorems": [
    "Dtf.C43_unknown_rejected",
    "Dtf.C43_enumeration_unchecked"
   ],
   "note": ""
  },
  {
   "property": "C44",
   "status": "proved",
   "theorems": [
    "Dtf.C44_stops"
   ],
   "note": ""
  },
  {
   "property": "C45",
   "status": "partial",
   "theorems": [
    "Dtf.C45_errors_partial",
    "Dtf.C45_group_refuted",
    "Dtf.C45_terminator_refuted",
    "Dtf.C45_value_refuted",
    "Dtf.C45_unions_refuted",
    "Dtf.C45_yaml_refuted"
   ],
   "note": "The claim is false: five witnesses (C45_*_refuted) raise AttributeError, UnicodeEncodeError, TypeError or a YAML error on documents of the prescribed types. Proved for all typed files under the five corresponding provisos (C45_errors_partial)."
  },
  {
   "property": "C46",
   "status": "proved",
   "theorems": [
    "Dtf.C46_names",
    "Dtf.C46_map",
    "Dtf.C46_attributes"
   ],
   "note": ""
  },
  {
   "property": "C47",
   "status": "proved",
   "theorems": [
    "Dtf.C47_values",
    "Dtf.C47_fold_composite",
    "Dtf.C47_fold_linear"
   ],
   "note": ""
  },
  {
   "property": "C48",
   "status": "partial",
   "theorems": [
    "Dtf.C48_directory_partial",
    "Dtf.C48_magic_refuted",
    "Dtf.C48_leak_refuted"
   ],
   "note": "The claim is false when the directory name has glob characters (C48_magic_refuted: nothing is checked, success is reported) and when the reader raises another error on a file (C48_leak_refuted: the rest is not checked). Proved for all other directories and files (C48_directory_partial); hidden files are not definition files."
  },
  {
   "property": "C49",
   "status": "partial",
   "theorems": [
    "Dtf.C49_map_partial",
    "Dtf.C49_map_exact_partial",
    "Dtf.C49_hint_partial",
    "Dtf.C49_hint_exact_partial",
    "Dtf.C49_refuted"
   ],
   "note": "The claim is false when an expression gives the number of elements: C49_refuted (`__builtins__` is added to the caller's dictionary). Proved for all maps, streams and contexts: nothing but that entry changes, and nothing at all for other maps."
  },
  {
   "property": "C50",
   "status": "partial",
   "theorems": [
    "Dtf.C50_defaults_partial",
    "Dtf.C50_ignored",
    "Dtf.C50_refuted"
   ],
   "note": "The claim is false: false_value and true_value are accepted and ignored (C50_ignored, C50_refuted). Proved for documents that leave them at their defaults (C50_defaults_partial)."
  },
  {
   "property": "C51",
   "status": "partial",
   "theorems": [
    "Dtf.C51_condition_partial",
    "Dtf.C51_size_partial",
    "Dtf.C51_refuted"
   ],
   "note": "The claim is false for a structure nested in one that declares a byte order (it is renamed) and when the context holds a value of that name: C51_refuted. Proved under the structure's own name without such a value, for conditions, stream sizes and element counts."
  },
  {
   "property": "C52",
   "status": "proved",
   "theorems": [
    "Dtf.C52_sections_partition"
   ],
   "note": ""
  },
  {
   "property": "C53",
   "status": "partial",
   "theorems": [
    "Dtf.C53_structure_partial",
    "Dtf.C53_sequence_partial",
    "Dtf.C53_refuted"
   ],
   "note": "False for a sequence whose data size is no multiple of the element size: C53_refuted. Proved for structures whose member types have distinct names and a size in bytes, and exactly up to that remainder for sequences."
  },
  {
   "property": "C54",
   "status": "proved",
   "theorems": [
    "Dtf.C54_document"
   ],
   "note": "Describes is a separate specification of the format (keys, attributes, sizes, members, sections, conditions, values); the reader accepts a document with a definition exactly when the document describes it. Supported false_value and true_value have no effect (C50)."
  },
  {
   "property": "C55",
   "status": "proved",
   "theorems": [
    "Dtf.C55_file",
    "Dtf.C55_lookup",
    "Dtf.C55_split"
   ],
   "note": "Library states what files mean without a registry; proved for any files read before, with lookups and splitting over files."
  },
  {
   "property": "C56",
   "status": "partial",
   "theorems": [
    "Dtf.C56_name_partial",
    "Dtf.C56_alias_partial",
    "Dtf.C56_refuted"
   ],
   "note": "The claim is false for aliases: C56_refuted (a later definition whose name equals the alias but for case takes it over). Proved for names (C56_name_partial) and for aliases when no definition has that name, ignoring case (C56_alias_partial)."
  },
  {
   "property": "C57",
   "status": "proved",
   "theorems": [
    "Dtf.C57_swap",
    "Dtf.C57_lookup"
   ],
   "note": "Proved for exchanging any two neighbouring documents of any file after any files."
  },
  {
   "property": "C58",
   "status": "proved",
   "theorems": [
    "Dtf.C58_sized",
    "Dtf.C58_terminated",
    "Dtf.C58_string",
    "Dtf.C58_sized_back",
    "Dtf.C58_terminated_back",
    "Dtf.C58_string_back",
    "Dtf.C58_sized_string_back"
   ],
   "note": "Proved for all streams, strings and values; the condition on terminators is needed: a value of 3 bytes that ends with a 2-byte terminator folds unchanged and cannot be mapped (example)."
  },
  {
   "property": "C59",
   "status": "proved",
   "theorems": [
    "Dtf.C59_back",
    "Dtf.C59_injective"
   ],
   "note": "Fits says when a value agrees with its type; it covers every nesting of primitives, UUIDs, padding, streams, strings, linear sequences and structures (sequences mapped element by element do not fold). Folding itself checks neither supported values nor that members without a condition are there (example)."
  },
  {
   "property": "C60",
   "status": "proved",
   "theorems": [
    "Dtf.C60_map",
    "Dtf.C60_fold",
    "Dtf.C60_special",
    "Dtf.C60_round_trip",
    "Dtf.C60_structure"
   ],
   "note": "The conversions are defined on bit patterns in Float.lean (NaNs are made quiet, as processors do). C60_map, C60_fold, C60_special, C60_round_trip cover mapping, rounding, infinities/NaNs and the way back; C60_structure carries the round trip to all foldable structures of C31."
  },
  {
   "property": "C61",
   "status": "proved",
   "theorems": [
    "Dtf.C61_fold_map",
    "Dtf.C61_map_text",
    "Dtf.C61_unrepresentable",
    "Dtf.C61_sized"
   ],
   "note": "The codecs are defined in Text.lean, with overlong forms, surrogates and lone surrogates as errors. Proved for all texts and streams; also discharges the hypothesis Lossless of C31 (lossless_uses)."
  },
  {
   "property": "C62",
   "status": "partial",
   "theorems": [
    "Dtf.C62_bytes_partial",
    "Dtf.C62_cut_partial",
    "Dtf.C62_empty_elements_refuted",
    "Dtf.C62_base_refuted"
   ],
   "note": "The claim is false for sequences of elements that take no bytes at the end of the byte stream (C62_empty_elements_refuted) and for groups with a base larger than a member (C62_base_refuted). Proved for all other ordinary definitions: C62_bytes_partial for any two byte streams, C62_cut_partial for cutting. The conditions are on declared sizes only."
  },
  {
   "property": "C63",
   "status": "proved",
   "theorems": [
    "Dtf.C63_bounds",
    "Dtf.C63_takes_bytes",
    "Dtf.C63_terminates"
   ],
   "note": "fewest and greatest are computed from the definition alone. C63_bounds; C63_takes_bytes and C63_terminates turn a positive least size into the conditions of C28."
  },
  {
   "property": "C64",
   "status": "partial",
   "theorems": [
    "Dtf.C64_after_error_partial",
    "Dtf.C64_group_partial",
    "Dtf.C64_group_refuted",
    "Dtf.C64_value_refuted",
    "Dtf.C64_unfinished_refuted"
   ],
   "note": "The claim is false for structure groups: the member identifier stays in the state, and later records are refused (C64_group_refuted) or mapped as another structure (C64_value_refuted). C64_after_error_partial proves the claim for every other type, groups nested in them included; C64_group_partial proves that a group leaves nothing but the identifier and that only groups notice. C64_unfinished_refuted shows why ByteStreamTooSmallError is excepted."
  },
  {
   "property": "C65",
   "status": "proved",
   "theorems": [
    "Dtf.C65_fabric",
    "Dtf.C65_size",
    "Dtf.C65_fold",
    "Dtf.C65_empty"
   ],
   "note": "Ty.read gives the meaning of a declaration independently of the model. C65_fabric (reader, registry, map creation, mapping), C65_size, C65_fold (for writable types; Kept as in C31) and C65_empty. The nesting limit of the code (11 levels below the outermost type) is a hypothesis."
  },
  {
   "property": "C66",
   "status": "proved",
   "theorems": [
    "Dtf.C66_returns",
    "Dtf.C66_sizes",
    "Dtf.C66_nested_refuted"
   ],
   "note": "The heap of definition objects is modelled with the sizes kept in it. C66_returns: the bound on waiting calls is never reached, for cyclic objects too. C66_sizes: invariant over histories that a measure decreases along references and all sizes kept are those of the definition the object unfolds to. C66_nested_refuted shows that the condition is needed."
  },
  {
   "property": "C67",
   "status": "proved",
   "theorems": [
    "Dtf.C67_cause",
    "Dtf.C67_faultless",
    "Dtf.C67_exact",
    "Dtf.C67_errors",
    "Dtf.C67_doubtful",
    "Dtf.C67_same_name",
    "Dtf.C67_format_refuted"
   ],
   "note": "Fault lists what is wrong with a definition and the error, Needs the definitions whose maps are part of the map. C67_cause and C67_faultless are the two directions, C67_exact puts them together, C67_errors lists the errors. C67_doubtful and C67_same_name show that the two provisos are needed, C67_format_refuted that the errors are not only FormatError."
  },
  {
   "property": "C68",
   "status": "partial",
   "theorems": [
    "Dtf.C68_code_partial",
    "Dtf.C68_descriptions_partial",
    "Dtf.C68_inert_partial",
    "Dtf.C68_plain_partial",
    "Dtf.C68_path_refuted",
    "Dtf.C68_code_refuted"
   ],
   "note": "The claim is false: a description with three quotes is run as code (C68_code_refuted) and one with a path such as C:\\Users makes map creation raise SyntaxError (C68_path_refuted); in both cases the reader accepts the file. C68_code_partial: if a class is created, the code depends on the names only. C68_descriptions_partial: inert descriptions do not matter; C68_inert_partial: the other ones never give a class; C68_plain_partial: texts without quotes, backslashes and null characters are inert."
  },
  {
   "property": "C69",
   "status": "proved",
   "theorems": [
    "Dtf.C69_by_name",
    "Dtf.C69_members",
    "Dtf.C69_layout",
    "Dtf.C69_layout_duplicate",
    "Dtf.C69_group"
   ],
   "note": "C69_by_name and C69_members for structures and unions, C69_layout, C69_layout_duplicate and C69_group for families and groups; FirstNamed says which member counts in terms of the calls only."
  },
  {
   "property": "C70",
   "status": "proved",
   "theorems": [
    "Dtf.C70_cause",
    "Dtf.C70_maps",
    "Dtf.C70_errors",
    "Dtf.C70_each"
   ],
   "note": "C70_cause and C70_maps: the mistakes are the only causes; C70_errors: no ZeroDivisionError, TypeError in two cases only; C70_each: an accepted file for each mistake, so the list cannot be shortened."
  },
  {
   "property": "C71",
   "status": "proved",
   "theorems": [
    "Dtf.C71_fabric",
    "Dtf.C71_open",
    "Dtf.C71_mixed"
   ],
   "note": "VTy.read gives the meaning of a declaration independently of definitions, maps, contexts and namespaces. C71_fabric covers reader, registry, map creation and mapping, with conditions, supported values of numbers, padding, structure groups identified by a number, lists (sequences with a data size) and texts with both a length and a terminator. Arithmetic says that Python evaluates the expressions as written if it accepts their text (it has limits on length and nesting); arithmetic_exists shows an environment with a parser for them. bareOf lists the scalars and UUIDs without a byte order, Settled says for which types it is known nevertheless, C71_open and C71_mixed show types for which it is not. The nesting limit of the code is a hypothesis, and so is that expressions name numbers that are there (Scoped)."
  },
  {
   "property": "C72",
   "status": "proved",
   "theorems": [
    "Dtf.C72_fold"
   ],
   "note": "C72_fold: what the bytes mean is VTy.read, as in C71. Writable gives the excepted types: booleans, groups, arrays of variable size, lists, texts with both a length and a terminator (what comes after the terminator is lost), encodings that are not lossless (C61 proves the usual ones lossless), lengths that depend on anything but the record itself. Kept is as in C31 (single precision NaNs)."
  },
  {
   "property": "C73",
   "status": "partial",
   "theorems": [
    "Dtf.C73_status_partial",
    "Dtf.C73_magic_refuted"
   ],
   "note": "The claim is false for directories with pattern characters in their path (C73_magic_refuted). C73_status_partial proves it for all other arguments, all trees and all files, whatever the reader raises on them."
  },
  {
   "property": "C74",
   "status": "proved",
   "theorems": [
    "Dtf.C74_class"
   ],
   "note": "ClassLines gives the lines of the class text: attribute lines are a sorted permutation of one line per member (AttributeLine, MemberType, Summary), the arguments of __init__ are in the order of the members. C68 says when Python reads this text as a literal followed by code."
  },
  {
   "property": "C75",
   "status": "proved",
   "theorems": [
    "Dtf.C75_written",
    "Dtf.C75_same",
    "Dtf.C75_elements",
    "Dtf.C75_mixed"
   ],
   "note": "settle writes out the byte orders that count, Interchangeable lists what a user can see of a definition. C75_same and C75_written are proved by a relation between maps (SameMap) that creation preserves and that mapping, folding and hints respect. C75_elements shows that elements that are no scalars take no byte order; C75_mixed that the conditions (Orderly) are needed: mixed byte orders are C24, equal type names C37, structures without a byte order in one with a byte order are renamed (C51)."
  },
  {
   "property": "C76",
   "status": "partial",
   "theorems": [
    "Dtf.C76_same",
    "Dtf.C76_members",
    "Dtf.C76_location_partial",
    "Dtf.C76_refuted"
   ],
   "note": "The claim is false for a member of a structure or union whose type is misspelt: the text names the member in place of the definition (C76_refuted; dtfabric/reader.py:746 passes the wrong name). Proved for all files without such members (C76_location_partial), and for all files that it is the definition or such a member (C76_members). C76_same: the functions that keep the names are those of the reader without them."
  },
  {
   "property": "C77",
   "status": "proved",
   "theorems": [
    "Dtf.C77_retry"
   ],
   "note": "C77_retry, from the text of the file to the last retry: Retries is the program of C29, VTy.ByHints the types. Strict says that Python has no number for an expression as long as the names it needs have none (strict_exists shows an environment); Expr.NeedsNames takes into account that None == 0 is False and chooses the other expression. C29 refutes the claim for the types left out: conditions, groups within types, wide terminators."
  },
  {
   "property": "C78",
   "status": "proved",
   "theorems": [
    "Dtf.C78_resume"
   ],
   "note": "C78_resume, from the text of the file to the last piece: Feeds is the program of C30, VTy.Piecewise the types. C30 refutes the claim for the types left out: padding, arrays followed by other members, groups whose first record is mapped member by member."
  },
  {
   "property": "C79",
   "status": "partial",
   "theorems": [
    "Dtf.C79_values_partial",
    "Dtf.C79_length_partial",
    "Dtf.C79_bytes",
    "Dtf.C79_refuted",
    "Dtf.C79_errors_refuted",
    "Dtf.C79_elements_refuted",
    "Dtf.C79_depth_refuted",
    "Dtf.C79_float_refuted"
   ],
   "note": "C79_values_partial: two definitions related by Resized (lengths of sequences, streams and strings at any place of structures, sequences and groups given in another way, also in the base, default and members of groups, always with the same value) map the same byte streams to the same values, taking the same bytes. C79_length_partial: one sequence, with expressions over the values of the context. C79_bytes: streams and strings, errors included. Missing because false: a data size that is no multiple of the element size (C79_refuted takes three bytes or two), the errors of sequences (C79_errors_refuted), elements of a sequence with a data size, whose size must be known (C79_elements_refuted), more than eleven levels, as only reading element by element checks the recursion limit (C79_depth_refuted). In sequences a floating-point value counts as the number it equals; streams and strings cannot be cut with one (C79_float_refuted). Unions and families have no map."
  },
  {
   "property": "C80",
   "status": "partial",
   "theorems": [
    "Dtf.C80_small_partial",
    "Dtf.C80_value_partial",
    "Dtf.C80_left",
    "Dtf.C80_scalar_refuted",
    "Dtf.C80_structure_refuted",
    "Dtf.C80_terminator_refuted"
   ],
   "note": "The claim is false for scalars and UUIDs, which set requested_size only if there are enough bytes (C80_scalar_refuted: the number of an earlier call is left), for structures, sequences and groups read part by part, which never set it (C80_structure_refuted), and for streams with a terminator only (C80_terminator_refuted). Proved for types read at once: padding, streams and strings with a length, linear sequences and structures (C80_small_partial, C80_value_partial; the latter for scalars and UUIDs, too). C80_left: in the other cases the attribute is left as it was."
  },
  {
   "property": "C81",
   "status": "proved",
   "theorems": [
    "Dtf.C81_same",
    "Dtf.C81_named",
    "Dtf.C81_identifier",
    "Dtf.C81_types",
    "Dtf.C81_structure",
    "Dtf.C81_quiet"
   ],
   "note": "Induction over the definition (createAs_relabelled): maps of relabelled definitions agree up to names that are not shown (SameMap, as for C75). The conditions are needed: C81_types (types of one structure with the same name are taken for one, C37), C81_structure (the name of a structure is that of its values), C81_quiet (a description with a backslash can make map creation fail, C68), C81_identifier (a group raises AttributeError or FormatError for an identifier member without values). C81_named: the case of one member that is given a named type."
  },
  {
   "property": "C82",
   "status": "proved",
   "theorems": [
    "Dtf.C82_file",
    "Dtf.C82_definitions",
    "Dtf.C82_fabric",
    "Dtf.C82_urls"
   ],
   "note": "Induction over the documents and the depth of nested unions (readMember_reworded): reading related documents in related registries gives the same error or definitions that are equal once descriptions are removed; C81 does the rest. Descriptions are texts or null. C82_urls: urls of a member are refused, unlike those of a definition."
  },
  {
   "property": "C83",
   "status": "partial",
   "theorems": [
    "Dtf.C83_shorter_partial",
    "Dtf.C83_longer_partial",
    "Dtf.C83_refuted"
   ],
   "note": "C83_shorter_partial and C83_longer_partial, from the layout of C16 (layout_append, layout_indifferent) and a proof by induction over definitions that a map depends on the names its expressions can use only through the values of these expressions (createAs_unmoved). False if the shorter structure is read in one go against a byte order one of its members declares (C83_refuted: a further member changes the value of the first one), hence OneOrder, as in C16 and C24. Types of the members with the same name are the same (DistinctTypes, C37)."
  },
  {
   "property": "C84",
   "status": "proved",
   "theorems": [
    "Dtf.C84_into",
    "Dtf.C84_out",
    "Dtf.C84_noticed",
    "Dtf.C84_shown"
   ],
   "note": "C84_into and C84_out, one for each direction. The layout of C16 is split in three and each part is moved to the other structure (layout_move): a map depends on the names around it only through the values of its expressions (createAs_unmoved), on the depth only at the limit (parse_free), and on the name it is created under only if it is a structure (createAs_renamed). Extraction and Unaware state the conditions; C84_noticed and C84_shown show what happens without them: an expression that names a moved member fails, and a structure without byte order shows the name of the structure around it."
  },
  {
   "property": "C85",
   "status": "proved",
   "theorems": [
    "Dtf.C85_number",
    "Dtf.C85_terminator",
    "Dtf.C85_data_size",
    "Dtf.C85_variable",
    "Dtf.C85_behind"
   ],
   "note": "Equivalences, where C20 and C79 give implications: C85_number, C85_terminator, C85_data_size and C85_variable, one for each way a sequence is delimited. The loop over the elements is shown equivalent to Reads (reads_of_seqParse, seqParse_of_reads), by induction; maps read in one go are brought to the loop by linear_seq_iff. Sequences whose element type is a structure member do not occur and are excluded. C85_behind shows that elements have to begin within the byte stream: two empty elements behind its last byte can be mapped one by one, the sequence of them is ByteStreamTooSmallError."
  },
  {
   "property": "C86",
   "status": "proved",
   "theorems": [
    "Dtf.C86_more",
    "Dtf.C86_never"
   ],
   "note": "C86_more. The map of a type means VTy.read (C71). By mutual induction over types, fields and the records of groups: an outcome of VTy.read other than short stays the same with more bytes (vty_steady), and there are bytes with which it is not short (vty_fillable), built from the lengths and terminators of the type. C86_never is the sequence that ends at the number 300, shown to raise ByteStreamTooSmallError on every byte stream by induction over the loop."
  },
  {
   "property": "C87",
   "status": "proved",
   "theorems": [
    "Dtf.C87_sized",
    "Dtf.C87_terminated"
   ],
   "note": "C87_sized and C87_terminated. Streams by C20 and C21; sequences by C85 on the one-byte elements (octets_readable); that a sequence of bytes can fail in no other way than ByteStreamTooSmallError by induction over the loop (octets_short), and from its size when it is read in one go. asNumbers relates the two outcomes, errors included."
  },
  {
   "property": "C88",
   "status": "partial",
   "theorems": [
    "Dtf.C88_size_partial",
    "Dtf.C88_absent_refuted",
    "Dtf.C88_union_refuted",
    "Dtf.C88_padding_refuted"
   ],
   "note": "The claim is false: C88_absent_refuted (CreateStructureValues without the padding: 17 of 20 bytes are written), C88_padding_refuted (padding of the wrong length is written as it is), C88_union_refuted (unions are left out whatever the value). C88_size_partial proves it by induction over definitions for complete values: no member is None, UUIDs are UUIDs, padding has the length GetByteSize counts."
  },
  {
   "property": "C89",
   "status": "proved",
   "theorems": [
    "Dtf.C89_unrolled",
    "Dtf.C89_rolled",
    "Dtf.C89_empty_refuted",
    "Dtf.C89_order_refuted"
   ],
   "note": "C89_unrolled (from the sequence to the structure) and C89_rolled (back, for types that need bytes; needsBytes_sized: all of fixed size above zero). C89_empty_refuted: without that the structure maps from no bytes where the sequence raises ByteStreamTooSmallError. C89_order_refuted: structures hand their byte order on to composite types, sequences do not."
  },
  {
   "property": "C90",
   "status": "proved",
   "theorems": [
    "Dtf.C90_element",
    "Dtf.C90_split",
    "Dtf.C90_terminated",
    "Dtf.C90_data_size",
    "Dtf.C90_stream"
   ],
   "note": "C90_element: elements of fixed size one by one, through the map of the element type itself; C90_split: elements of any size, sequences given by a number of elements. C90_terminated: sequences with a terminator; C90_data_size: with a data size and elements of a fixed size; C90_stream: streams."
  },
  {
   "property": "C91",
   "status": "proved",
   "theorems": [
    "Dtf.C91_outcome",
    "Dtf.C91_chosen"
   ],
   "note": "C91_outcome: every mapped object has an outcome; C91_chosen: for a given outcome an equivalence. Unmissed says that expressions of the present members do not use absent ones."
  },
  {
   "property": "C92",
   "status": "proved",
   "theorems": [
    "Dtf.C92_same",
    "Dtf.C92_order",
    "Dtf.C92_grow",
    "Dtf.C92_default_refuted"
   ],
   "note": "C92_same: same answers where no member of only one group claims the identifier; C92_order: order irrelevant; C92_grow: without default nothing mapped changes; C92_default_refuted: with a default it can."
  },
  {
   "property": "C93",
   "status": "partial",
   "theorems": [
    "Dtf.C93_suited_partial",
    "Dtf.C93_bytes_partial",
    "Dtf.C93_classes",
    "Dtf.C93_type_refuted",
    "Dtf.C93_mapping_refuted"
   ],
   "note": "The claim is false: C93_type_refuted (TypeError for a number given for a stream or for padding in a structure), C93_mapping_refuted (MappingError for a size that cannot be evaluated), C32_refuted and C31_sequence_refuted (None). C93_classes: FoldingError, MappingError and TypeError are all that is ever raised, whatever the value. C93_suited_partial: for values of the right kind only FoldingError; C93_bytes_partial: and never None for types without UUIDs of native byte order and sequences folded element by element."
  },
  {
   "property": "C94",
   "status": "proved",
   "theorems": [
    "Dtf.C94_expressions",
    "Dtf.C94_no_expressions",
    "Dtf.C94_names",
    "Dtf.C94_hint",
    "Dtf.C94_hint_structure",
    "Dtf.C94_elements"
   ],
   "note": "From the induction over definitions of C83 (createAs_unmoved): a map depends on the names its expressions can use only through the values of these expressions. C94_names: expressions are evaluated by their names (ByNames, a condition on the evaluator). C94_no_expressions, C94_elements: elements of sequences and the structures of groups do not see the values of the context. C94_hint, C94_hint_structure: size hints."
  },
  {
   "property": "C95",
   "status": "proved",
   "theorems": [
    "Dtf.C95_size",
    "Dtf.C95_bytes",
    "Dtf.C95_multiple",
    "Dtf.C95_records",
    "Dtf.C95_unaligned",
    "Dtf.C95_inside",
    "Dtf.C95_rows"
   ],
   "note": "C95_size and C95_bytes by the induction over definitions of C10 and C11 (parse_aligned; parse_exact is now its case without padding), with the position in the structure tracked along the members. C95_multiple and C95_records: where types are aligned. C95_unaligned, C95_inside, C95_rows: witnesses that the sizes differ elsewhere."
  },
  {
   "property": "C96",
   "status": "proved",
   "theorems": [
    "Dtf.C96_errors",
    "Dtf.C96_size",
    "Dtf.C96_values",
    "Dtf.C96_string"
   ],
   "note": "What is mapped is of the right kind (parsed_suited, so C93_suited_partial applies) and, for types of fixed size, complete (parsed_complete, so C88_size_partial applies), both by induction over definitions; members by their layout (C16), or from the one operation that reads them. C96_values and C96_string: witnesses for the provisos."
  },
  {
   "property": "C97",
   "status": "proved",
   "theorems": [
    "Dtf.C97_bytes",
    "Dtf.C97_changed",
    "Dtf.C97_function",
    "Dtf.C97_boolean",
    "Dtf.C97_cut",
    "Dtf.C97_uuid",
    "Dtf.C97_rest"
   ],
   "note": "By induction over maps there is a function from objects to the bytes they were mapped from (telling_undoes): numbers by packing them back, members in turn, nothing for members that are None, members of groups by the class name of the object. C97_function states it, C97_bytes and C97_changed follow. C97_boolean, C97_cut, C97_uuid, C97_rest: witnesses for the types left out."
  },
  {
   "property": "C98",
   "status": "partial",
   "theorems": [
    "Dtf.C98_default_partial",
    "Dtf.C98_holds_partial",
    "Dtf.C98_uuid_refuted",
    "Dtf.C98_format_refuted"
   ],
   "note": "C98_default_partial compares the runs of the reader on the two documents step by step, errors included; C98_holds_partial follows from C54. C98_uuid_refuted and C98_format_refuted: the two places where the default of the specification is not the one of the reader. Missing: nothing else; the defaults of UUID sizes and format byte orders do not hold."
  },
  {
   "property": "C99",
   "status": "partial",
   "theorems": [
    "Dtf.C99_required_partial",
    "Dtf.C99_members",
    "Dtf.C99_layout_refuted",
    "Dtf.C99_padding_refuted",
    "Dtf.C99_group_refuted"
   ],
   "note": "By cases on what a document describes (C54); nested unions by induction on the depth of the document (member_required). C99_layout_refuted, C99_padding_refuted, C99_group_refuted: documents the specification rules out and the reader accepts. Missing: nothing else; formats are excluded from C99_required_partial."
  },
  {
   "property": "C100",
   "status": "proved",
   "theorems": [
    "Dtf.C100_layout",
    "Dtf.C100_unknown",
    "Dtf.C100_only"
   ],
   "note": "From C54 and C55: the name of a document of an accepted file finds the definition it describes (found); a format map keeps the layout of its definition. C100_unknown: a layout with an unknown data type."
  },
  {
   "property": "C101",
   "status": "partial",
   "theorems": [
    "Dtf.C101_members",
    "Dtf.C101_packed_partial",
    "Dtf.C101_sequence_partial",
    "Dtf.C101_boolean_refuted",
    "Dtf.C101_none_refuted",
    "Dtf.C101_order_refuted"
   ],
   "note": "C101_members covers all structures folded member by member (an equivalence, any nesting). For structures packed in one go the claim is proved for numbers that are present and in the byte order of the structure; C101_boolean_refuted, C101_none_refuted and C101_order_refuted show that it is false otherwise. Sequences of anything but a fixed number of primitive values fold to None (C31_sequence_refuted)."
  },
  {
   "property": "C102",
   "status": "proved",
   "theorems": [
    "Dtf.C102_members",
    "Dtf.C102_packed",
    "Dtf.C102_mapped",
    "Dtf.C102_place"
   ],
   "note": "From C101: the bytes of the members one after another (joined_append); folding a member depends on the object only through the expressions that give its size (fold_alone). An example shows that SameSize is needed."
  },
  {
   "property": "C103",
   "status": "proved",
   "theorems": [
    "Dtf.C103_records",
    "Dtf.C103_sequence",
    "Dtf.C103_terminated",
    "Dtf.C103_data_size"
   ],
   "note": "Induction over the values with the forward half of C31 (fold_forth) and, for sequences, C85_number, C85_terminator and C85_data_size. TypesDistinct: the members of a structure have different types only under different names, as in C31. C103_sequence names the element map by its definition; that map may carry the byte order of the sequence."
  },
  {
   "property": "C104",
   "status": "proved",
   "theorems": [
    "Dtf.C104_mapped",
    "Dtf.C104_folded",
    "Dtf.C104_size"
   ],
   "note": "Renaming.defn gives the members other names and rewrites expressions; Rewritten says that the rewritten expression gives for renamed values what the expression gave, and is proved for all expressions of the arithmetic environment (follows_expr, follows_test). Creation: createAs_renaming (the map of the renamed definition is, up to names of types, the renamed map); mapping: parse_renamed; folding: fold_renamed, where bytes and bytes_le keep their names, as UUIDMap reads these attributes of any object. Values a caller puts into the context keep their own names."
  },
  {
   "property": "C105",
   "status": "proved",
   "theorems": [
    "Dtf.C105_mapped",
    "Dtf.C105_created",
    "Dtf.C105_folded",
    "Dtf.C105_hints",
    "Dtf.C105_exact",
    "Dtf.C105_none_refuted"
   ],
   "note": "Loosened relates two definitions that differ in supported values only; creation: createAs_loosened (the maps are related by Looser), mapping: parse_looser, folding: fold_looser. C105_exact is the converse of C19 for one structure; C105_none_refuted: a UUID without byte order maps to None, which hides that the member is present, so UUIDs with supported values are left out there."
  },
  {
   "property": "C106",
   "status": "proved",
   "theorems": [
    "Dtf.C106_mapped_together",
    "Dtf.C106_absent_together",
    "Dtf.C106_mapped_later",
    "Dtf.C106_folded",
    "Dtf.C106_noticed",
    "Dtf.C106_order"
   ],
   "note": "Over the layouts of C16: layout_exchange replaces the value of one member, which later expressions overlook; Detachable.apart: mapping the type within the structure and mapping its bytes on their own are the same (parse_shift, parse_append, C62, parse_free); block_parse: what a stream of given data size gives. C106_folded: both objects fold to the same bytes (C101, C58; the structures are folded member by member). C106_noticed and C106_order show that the conditions on expressions and byte order are needed."
  },
  {
   "property": "C107",
   "status": "proved",
   "theorems": [
    "Dtf.C107_part",
    "Dtf.C107_there"
   ],
   "note": "Place relates a definition, a path of attributes and elements, the offset of the part and its type. By induction over it: member_place (the layouts of C16, the sizes of C10, parse_free, createAs_unmoved) and elements_at (C17_elements). C107_there: paths of attributes always lead to a part."
  },
  {
   "property": "C108",
   "status": "partial",
   "theorems": [
    "Dtf.C108_value_partial",
    "Dtf.C108_element_partial",
    "Dtf.C108_member_partial",
    "Dtf.C108_refuted"
   ],
   "note": "Definite: all types but UUIDs that are read in no byte order, and groups with one for default. definite_parse: no such type gives None (case analysis over maps, induction over the defaults of groups); C108_member_partial over the layouts of C16. C108_refuted: a UUID without a byte order in a structure without one is mapped to None."
  },
  {
   "property": "C109",
   "status": "proved",
   "theorems": [
    "Dtf.C109_file",
    "Dtf.C109_definitions"
   ],
   "note": "Respelled R relates documents that differ in names under data_type, element_data_type, base, default and in the names of members of families and groups; SameMeaning says that the registry finds the same definition for both names, at the point where the document is read. describes_respelled works over the description of documents (C54), both ways; errors may differ in kind. Told, as in C81, is about names and descriptions that could break the generated class."
  },
  {
   "property": "C110",
   "status": "proved",
   "theorems": [
    "Dtf.C110_document",
    "Dtf.C110_file",
    "Dtf.C110_alone"
   ],
   "note": "Headed relates documents that differ in the headings among the members of structures and unions, at any depth. describes_headed: the description of documents (C54) passes over headings; both ways by headed_symm. The definitions of the reader model carry no sections (those are in C52), so that equality of definitions means equality of all but the sections. C110_alone: why a list must not become empty."
  },
  {
   "property": "C111",
   "status": "partial",
   "theorems": [
    "Dtf.C111_partial",
    "Dtf.C111_anyway",
    "Dtf.C111_files",
    "Dtf.C111_refuted"
   ],
   "note": "C111_partial: maps of definitions that are Portable (the byte orders in use are told, or the numbers take one byte). Missing: structures that leave their byte order open and have primitive members only; C111_refuted shows that such a structure with a little-endian member is read in the byte order of the platform. C111_anyway and C111_files have no restriction."
  },
  {
   "property": "C112",
   "status": "proved",
   "theorems": [
    "Dtf.C112_platform",
    "Dtf.C112_other",
    "Dtf.C112_uuid"
   ],
   "note": "Interchangeable is that of C75. LeftOpen: no byte order, no UUID (C112_uuid shows why), and the types of members have a byte order (a structure with a byte order rejects members of semantic types, one without does not look). C112_other: with the other byte order it is not the same."
  },
  {
   "property": "C113",
   "status": "proved",
   "theorems": [
    "Dtf.C113_document",
    "Dtf.C113_file",
    "Dtf.C113_null"
   ],
   "note": "Noted relates documents that differ in the notation only; mappings have each key once, as Python dictionaries do. describes_noted: the description of documents (C54) holds in both notations; the relation is symmetric. C113_null: why null is excepted."
  },
  {
   "property": "C114",
   "status": "proved",
   "theorems": [
    "Dtf.C114_changed",
    "Dtf.C114_overwritten",
    "Dtf.C114_element",
    "Dtf.C114_terminated",
    "Dtf.C114_data_size",
    "Dtf.C114_variable",
    "Dtf.C114_noticed"
   ],
   "note": "C114_changed: any type of member, mapped at its place in the namespace of the structure. C114_overwritten: for types that mean the same on their own the new bytes are mapped on their own. By the layout of structures (C16) and locality (C62), for members of variable size too. C114_element, C114_terminated, C114_data_size and C114_variable: the same for elements of sequences with a number of elements, a terminator, and a data size with elements of fixed and of variable size, by C85. C114_noticed: why later expressions must not look at the member."
  },
  {
   "property": "C115",
   "status": "proved",
   "theorems": [
    "Dtf.C115_cut",
    "Dtf.C115_needed",
    "Dtf.C115_prefix",
    "Dtf.C115_short_terminator"
   ],
   "note": "C115_cut: from C12 and C13, as the rest of the byte stream can be appended to what was cut off. C115_needed and C115_prefix: with C62, under its conditions. C115_short_terminator: why terminators must be as wide as an element."
  },
  {
   "property": "C116",
   "status": "proved",
   "theorems": [
    "Dtf.C116_shape",
    "Dtf.C116_class",
    "Dtf.C116_present"
   ],
   "note": "C116_shape: by induction on the definition, with the separate specification Shaped. C116_class: the class of the structure that is mapped has its name, even if its byte order is left open; structures within it that leave their byte order open can be of a class of another name. C116_present: a member without condition is never None."
  },
  {
   "property": "C117",
   "status": "proved",
   "theorems": [
    "Dtf.C117_occurs",
    "Dtf.C117_one_to_one",
    "Dtf.C117_all_values"
   ],
   "note": "C117_occurs: by induction on the type (Rigid), with C02, C03, C04, C05, C06, C20, C85 and C16_complete; the other direction is C116. C117_one_to_one: with C97, for values of which the floating-point numbers are kept (Kept); C117_all_values: for all values of types without floating-point numbers. Single precision is left out, as the conversion is a parameter of the model; booleans with one value are left out, as several bytes stand for the other one (C97_boolean)."
  },
  {
   "property": "C118",
   "status": "proved",
   "theorems": [
    "Dtf.C118_file",
    "Dtf.C118_message",
    "Dtf.C118_fabric",
    "Dtf.C118_members"
   ],
   "note": "C118_file: equality of the result and of the registry, function by function of the reader (Verif/Reorder.lean). C118_message: also of the name in the message (of the rest of a text nothing is said). C118_fabric: the fabric and the validator. C118_members: the order of members does matter. A mapping in place of a list (members, values, layout), whose keys the reader would iterate, is left as it is."
  },
  {
   "property": "C119",
   "status": "proved",
   "theorems": [
    "Dtf.C119_leave_out",
    "Dtf.C119_put_in",
    "Dtf.C119_names",
    "Dtf.C119_needed"
   ],
   "note": "C119_leave_out, C119_put_in: reading with and without the document, after any files. C119_names: every other name gives the same definition and map. C119_needed: a definition that is referred to cannot be left out."
  },
  {
   "property": "C120",
   "status": "proved",
   "theorems": [
    "Dtf.C120_rows",
    "Dtf.C120_data_size",
    "Dtf.C120_empty_rows"
   ],
   "note": "C120_rows for elements nested at most 9 deep (two levels less than the recursion limit), the rows in the byte order they have in the sequence of rows. C120_data_size: a data size given as a number has to be a multiple of the element size, one given as an expression need not. C120_empty_rows: rows without elements have to begin within the byte stream."
  },
  {
   "property": "C121",
   "status": "proved",
   "theorems": [
    "Dtf.C121_file",
    "Dtf.C121_types",
    "Dtf.C121_needed"
   ],
   "note": "C121_file (read exactly if the other is), C121_types (what names stand for; that the definitions are the same to a user is through C81 and so for definitions whose texts have no path and whose members have different names, as there), C121_needed (a mention left out, or two names that differ only in case, and the file is no longer read). The name of a structure is that of its values and of the namespace of its expressions (C81_structure), and the identifier of a group is the name of a member; both stay."
  },
  {
   "property": "C122",
   "status": "proved",
   "theorems": [
    "Dtf.C122_once",
    "Dtf.C122_again",
    "Dtf.C122_alias_case"
   ],
   "note": "C122_once, C122_again (the registry as a whole is the same), C122_alias_case."
  },
  {
   "property": "C123",
   "status": "proved",
   "theorems": [
    "Dtf.C123_values",
    "Dtf.C123_enumeration_document",
    "Dtf.C123_enumeration",
    "Dtf.C123_aliases",
    "Dtf.C123_group"
   ],
   "note": "C123_values (through C105 in both directions), C123_enumeration_document, C123_enumeration, C123_aliases, C123_group (creation by what createGroup needs, answers by C92_order). Members of one structure whose types have the same name have the same type (C37)."
  },
  {
   "property": "C124",
   "status": "proved",
   "theorems": [
    "Dtf.C124_signs",
    "Dtf.C124_halves",
    "Dtf.C124_sorted",
    "Dtf.C124_sorted_needs",
    "Dtf.C124_sequence"
   ],
   "note": "C124_signs, C124_halves, C124_sorted, C124_sorted_needs (little-endian counterexample); C124_sequence for sequences with a number of elements."
  },
  {
   "property": "C125",
   "status": "proved",
   "theorems": [
    "Dtf.C125_number",
    "Dtf.C125_data_size",
    "Dtf.C125_variable",
    "Dtf.C125_stream",
    "Dtf.C125_string",
    "Dtf.C125_variable_needs",
    "Dtf.C125_string_needs"
   ],
   "note": "C125_number, C125_data_size, C125_variable for sequences (from C85), C125_stream (C20, C21), C125_string. C125_variable_needs and C125_string_needs: why their conditions are needed."
  },
  {
   "property": "C126",
   "status": "proved",
   "theorems": [
    "Dtf.C126_types",
    "Dtf.C126_maps",
    "Dtf.C126_shape",
    "Dtf.C126_back",
    "Dtf.C126_needs"
   ],
   "note": "C126_types: the condition of C31, C37, C59, C96, C97, C103, C105, C116 and C123 holds for everything read from such files; C126_maps (with C37), C126_shape (with C116) and C126_back (with C59) for what follows; C126_needs: a file that violates the condition and is mapped wrongly."
  },
  {
   "property": "C127",
   "status": "proved",
   "theorems": [
    "Dtf.C127_characters",
    "Dtf.C127_booleans",
    "Dtf.C127_floats",
    "Dtf.C127_character",
    "Dtf.C127_character_fold",
    "Dtf.C127_boolean",
    "Dtf.C127_boolean_fold",
    "Dtf.C127_float",
    "Dtf.C127_uuid"
   ],
   "note": "C127_character, C127_character_fold, C127_boolean, C127_boolean_fold, C127_float (the conversion of single precision is the one of the environment, see C60), C127_uuid; C127_characters, C127_booleans, C127_floats for sequences with a number of elements."
  }
 ]
}