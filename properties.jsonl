{"id": "C01", "title": "Integer mapping is positional notation", "statement": "MapByteStream of an integer data type map of size 1, 2, 4 or 8 at byte_offset o, on a byte stream holding at least size bytes from o, returns the number denoted by those size bytes: sum of byte_i*256^i (little-endian), the same over the reversed bytes (big-endian), and for a signed format the two's complement reading, i.e. the unique number congruent to it modulo 256^size in [-256^size/2, 256^size/2). Bytes before o and after o+size do not matter.", "quantifier": "all byte streams, all offsets, both byte orders and native order, all supported sizes, both formats", "why_tests_cant": "2^64 values per 8-byte type, times all offsets and surrounding bytes; tests sample a handful of constants", "anchors": ["dtfabric/runtime/data_maps.py:IntegerMap", "dtfabric/runtime/data_maps.py:PrimitiveDataTypeMap.MapByteStream", "dtfabric/runtime/byte_operations.py:StructOperation"]}
{"id": "C02", "title": "Integer fold/map are inverse and fold rejects out-of-range", "statement": "FoldByteStream of an integer data type map succeeds exactly for the integers representable in its size and format, otherwise raises FoldingError; the result has exactly size bytes; mapping a folded value returns the value; folding a mapped value returns the original bytes.", "quantifier": "all integers (unbounded), all byte strings of the size, all orders/sizes/formats", "why_tests_cant": "the value space is unbounded (Python integers) and boundaries differ per size and format", "anchors": ["dtfabric/runtime/data_maps.py:IntegerMap", "dtfabric/runtime/data_maps.py:PrimitiveDataTypeMap.FoldByteStream", "dtfabric/runtime/byte_operations.py:StructOperation.WriteTo"]}
{"id": "C03", "title": "Boolean mapping totality and fold inverse", "statement": "A boolean map maps the stored number equal to false_value to False and equal to true_value to True; if one of the two is unset every other number maps to that unset one; if both are set every other number is a MappingError. FoldByteStream writes the configured number and, whenever it succeeds, mapping the result gives back the same boolean, provided the two numbers differ; folding a boolean whose number is unset is a FoldingError.", "quantifier": "all false/true values including unset, all stored numbers, sizes 1, 2, 4", "why_tests_cant": "the combination of two optional numbers and all stored numbers is infinite", "anchors": ["dtfabric/runtime/data_maps.py:BooleanMap.MapValue", "dtfabric/runtime/data_maps.py:BooleanMap.FoldValue"]}
{"id": "C04", "title": "Character mapping and fold", "statement": "A character map of size n maps the stored code point c to chr(c) exactly when the sign bit is clear and c <= 0x10FFFF, otherwise it raises MappingError; folding a one-character string succeeds exactly for code points below 2^(8n-1); the two are inverse where defined. Folding anything but a string or byte string of length one raises FoldingError.", "quantifier": "all stored patterns, all code points, sizes 1, 2, 4, all orders", "why_tests_cant": "all 2^32 patterns and the sign boundary per size", "anchors": ["dtfabric/runtime/data_maps.py:CharacterMap"]}
{"id": "C05", "title": "Floating-point mapping preserves bits", "statement": "Folding the value a 8-byte floating-point map produced gives back the original bytes, for every byte pattern; for a 4-byte map this holds for every pattern for which the platform single->double->single conversion is the identity.", "quantifier": "all byte patterns, all orders", "why_tests_cant": "2^64 patterns incl. NaN payloads and denormals", "anchors": ["dtfabric/runtime/data_maps.py:FloatingPointMap"]}
{"id": "C06", "title": "UUID byte order", "statement": "A UUID map with big-endian order reads the 16 bytes in order; with little-endian order it reads the first field (4 bytes), second (2) and third (2) byte-reversed and the other 8 bytes in order. Fold and map are inverse in both orders on all 16-byte strings.", "quantifier": "all 16-byte strings, offsets, both explicit byte orders", "why_tests_cant": "2^128 values", "anchors": ["dtfabric/runtime/data_maps.py:UUIDMap"]}
{"id": "C07", "title": "Byte-order duality", "statement": "For any primitive type, mapping bytes b with little-endian order equals mapping reversed b with big-endian order, folding a value with little-endian order gives the reversed bytes of folding it with big-endian order (or both fail), and native order equals the one of the two that the platform uses.", "quantifier": "all primitive types, byte strings and values", "why_tests_cant": "infinite inputs", "anchors": ["dtfabric/runtime/data_maps.py:StorageDataTypeMap._BYTE_ORDER_STRINGS", "dtfabric/runtime/byte_operations.py:StructOperation"]}
{"id": "C08", "title": "GetByteSize is the layout size", "statement": "GetByteSize of a structure is the sum of its member sizes with every alignment padding rounding the running total up to the next multiple of its alignment size, and None if any member size is unknown; of a union the maximum of the member sizes; of an element sequence the fixed data size, else count times element size; a conditional member has unknown size.", "quantifier": "all definition trees of any depth and width", "why_tests_cant": "recursion over arbitrary definitions", "anchors": ["dtfabric/data_types.py:StructureDefinition.GetByteSize", "dtfabric/data_types.py:UnionDefinition.GetByteSize", "dtfabric/data_types.py:ElementSequenceDataTypeDefinition.GetByteSize", "dtfabric/data_types.py:MemberDataTypeDefinition.GetByteSize"]}
{"id": "C09", "title": "Byte size cache is never stale for direct members", "statement": "After any interleaving of AddMemberDefinition, AddSectionDefinition and GetByteSize calls on a structure or union definition, GetByteSize returns what a freshly built definition with the same members would return; duplicate member names raise KeyError and change nothing.", "quantifier": "all operation histories", "why_tests_cant": "histories are unbounded", "anchors": ["dtfabric/data_types.py:DataTypeDefinitionWithMembers.AddMemberDefinition", "dtfabric/data_types.py:StructureDefinition.GetByteSize"]}
{"id": "C10", "title": "Mapped size equals GetByteSize", "statement": "When GetByteSize of a definition is n and MapByteStream succeeds from an empty context, context.byte_size is n, for definitions without padding, whose declared sizes are positive and given once, whose sequence data sizes are multiples of the element size, whose sequences with an element count have no terminator, and whose structures do not use one type name for two types. For sequences with terminator and count, or with a data size that is not a multiple, the two sizes differ.", "quantifier": "all such definitions, streams, offsets", "why_tests_cant": "arbitrary nesting", "anchors": ["dtfabric/runtime/data_maps.py:StructureMap._CompositeMapByteStream", "dtfabric/runtime/data_maps.py:SequenceMap._CompositeMapByteStream", "dtfabric/data_types.py:StructureDefinition.GetByteSize"]}
{"id": "C11", "title": "Fixed-size types need exactly their size", "statement": "For a definition of fixed size n (no padding), MapByteStream raises ByteStreamTooSmallError exactly when fewer than n bytes are available from byte_offset and no earlier error occurs: with at least n bytes available it never raises ByteStreamTooSmallError, with fewer it never succeeds.", "quantifier": "all such definitions, streams, offsets", "why_tests_cant": "boundary at every nesting level", "anchors": ["dtfabric/runtime/data_maps.py:StorageDataTypeMap._CheckByteStreamSize", "dtfabric/runtime/data_maps.py:StructureMap", "dtfabric/runtime/data_maps.py:SequenceMap"]}
{"id": "C12", "title": "A successful map stays inside the byte stream", "statement": "When MapByteStream succeeds from an empty context at an offset inside the stream, context.byte_size is set and byte_offset + context.byte_size <= len(byte_stream).", "quantifier": "all definitions with full-width terminators, all streams and offsets", "why_tests_cant": "arbitrary nesting and data dependent sizes", "anchors": ["dtfabric/runtime/data_maps.py:StreamMap.MapByteStream", "dtfabric/runtime/data_maps.py:StructureMap._CompositeMapByteStream", "dtfabric/runtime/data_maps.py:SequenceMap._CompositeMapByteStream"]}
{"id": "C13", "title": "Appending bytes never changes a verdict", "statement": "If MapByteStream on a byte stream gives a value or any error other than ByteStreamTooSmallError, then on the same stream followed by any further bytes it gives the same value or error, and after success the same context.byte_size.", "quantifier": "all definitions with full-width terminators, 16-byte UUIDs and structures that do not use one type name for two types; all streams, all suffixes", "why_tests_cant": "quantifies over all continuations", "anchors": ["dtfabric/runtime/data_maps.py:DataTypeMap.MapByteStream and all overrides"]}
{"id": "C14", "title": "byte_offset means slicing", "statement": "MapByteStream(s, byte_offset=k) returns the same value or error as MapByteStream(s[k:]), for 0 <= k <= len(s) and definitions without padding; with padding it holds when k is a multiple of every alignment size.", "quantifier": "all definitions, streams, offsets", "why_tests_cant": "arbitrary nesting", "anchors": ["dtfabric/runtime/data_maps.py:all MapByteStream byte_offset parameters", "dtfabric/runtime/data_maps.py:PaddingMap._CalculatePaddingSize"]}
{"id": "C15", "title": "Contexts are transparent and reusable", "statement": "Mapping with no context, with a fresh context, or with a context that was used for an earlier successful mapping of any type and carries the same values gives the same result; after success the context state is empty and byte_size is set.", "quantifier": "all definitions, streams, contexts", "why_tests_cant": "histories of context use", "anchors": ["dtfabric/runtime/data_maps.py:DataTypeMapContext", "dtfabric/runtime/data_maps.py:all MapByteStream"]}
{"id": "C16", "title": "Structure members are laid out consecutively", "statement": "When a structure map succeeds, its present members were mapped in declaration order, each starting where the previous present member ended, and each attribute holds the value its member type maps to at that position.", "quantifier": "all structures (in which members with the same type name have the same type, see C37, and declared byte orders are honoured, see C24) and streams", "why_tests_cant": "unbounded number of members and nesting", "anchors": ["dtfabric/runtime/data_maps.py:StructureMap._CompositeMapByteStream", "dtfabric/runtime/data_maps.py:StructureMap._LinearMapByteStream"]}
{"id": "C17", "title": "Sequences hold the right elements", "statement": "When a sequence with n elements succeeds it returns a tuple of exactly n values, element i being the element type, in its own byte order or else that of the sequence, mapped where element i-1 ended. A number of elements or data size whose expression is negative or cannot be evaluated raises MappingError, and a sequence whose number of elements is a fraction, infinite or NaN never succeeds.", "quantifier": "all sequences, counts, streams", "why_tests_cant": "unbounded counts", "anchors": ["dtfabric/runtime/data_maps.py:SequenceMap"]}
{"id": "C18", "title": "Conditions gate members", "statement": "A conditional structure member is mapped if its condition evaluates to True over the members read so far, is left None and consumes no bytes if it evaluates to False, and any evaluation failure or non-boolean result is a MappingError.", "quantifier": "all structures (in which members with the same type name have the same type, see C37, and declared byte orders are honoured, see C24) and streams", "why_tests_cant": "arbitrary expressions and member positions", "anchors": ["dtfabric/runtime/data_maps.py:StructureMap._CompositeMapByteStream"]}
{"id": "C19", "title": "Supported values are enforced", "statement": "If a structure maps successfully, every member that declares value/values has a value in that list unless it has a condition and is absent, on both the linear and the composite path.", "quantifier": "all structures and streams", "why_tests_cant": "all streams", "anchors": ["dtfabric/runtime/data_maps.py:StructureMap._CompositeMapByteStream", "dtfabric/runtime/data_maps.py:StructureMap._LinearMapByteStream"]}
{"id": "C20", "title": "Sized streams return exactly the bytes asked for", "statement": "A stream whose data size evaluates to n (data size, data size expression, or element count times element size) returns exactly the n bytes at byte_offset, raises ByteStreamTooSmallError if fewer are available, and MappingError if the size is negative or cannot be evaluated.", "quantifier": "all streams, sizes, offsets", "why_tests_cant": "data dependent sizes", "anchors": ["dtfabric/runtime/data_maps.py:StreamMap.MapByteStream", "dtfabric/runtime/data_maps.py:ElementSequenceDataTypeMap._CalculateElementsDataSize"]}
{"id": "C21", "title": "Terminated streams end at the first aligned terminator", "statement": "A stream with only an element-sized terminator returns the bytes up to and including the first terminator found at a multiple of the element size, and raises ByteStreamTooSmallError exactly when there is none.", "quantifier": "all byte streams, element sizes, terminators", "why_tests_cant": "search over all streams; off-by-one at every length", "anchors": ["dtfabric/runtime/data_maps.py:StreamMap.MapByteStream"]}
{"id": "C22", "title": "Strings are the decoded bytes before the terminator", "statement": "A string map returns the decoding of the bytes the corresponding stream map returns, cut at the first terminator at a multiple of the terminator size (uncut if it has none or no terminator is declared), takes as many bytes as the stream, and raises MappingError if decoding fails.", "quantifier": "all byte streams and terminators, any codec", "why_tests_cant": "all streams", "anchors": ["dtfabric/runtime/data_maps.py:StringMap.MapByteStream"]}
{"id": "C23", "title": "Padding aligns", "statement": "A padding member consumes the least number of bytes p >= 0 such that byte_offset + p is a multiple of the alignment size, and p is less than the alignment size.", "quantifier": "all offsets and alignment sizes", "why_tests_cant": "all offsets", "anchors": ["dtfabric/runtime/data_maps.py:PaddingMap._CalculatePaddingSize", "dtfabric/runtime/data_maps.py:PaddingMap.MapByteStream"]}
{"id": "C24", "title": "Declared byte order is honoured", "statement": "Each member of a structure is read in its own declared byte order if it declares one, else in the byte order of the structure; the scalar elements of a sequence are read in their own byte order, else in that of the sequence, else in that of the structure.", "quantifier": "all structures and byte-order combinations", "why_tests_cant": "all combinations of member orders", "anchors": ["dtfabric/runtime/data_maps.py:StructureMap._CheckLinearMap", "dtfabric/runtime/data_maps.py:StructureMap._GetMemberDataTypeMaps", "dtfabric/runtime/data_maps.py:StorageDataTypeMap.GetStructByteOrderString"]}
{"id": "C25", "title": "The linear fast path is unobservable", "statement": "For a structure or sequence eligible for the single-struct fast path, the fast path gives the same values and size as mapping member by member (element by element), when member byte orders agree with the structure and a sequence's data size is a multiple of its element size.", "quantifier": "all eligible definitions and streams", "why_tests_cant": "all member lists", "anchors": ["dtfabric/runtime/data_maps.py:StructureMap._LinearMapByteStream", "dtfabric/runtime/data_maps.py:SequenceMap._LinearMapByteStream"]}
{"id": "C26", "title": "MapByteStream raises only documented errors", "statement": "MapByteStream on a map built from definitions accepted by the reader either returns or raises MappingError or ByteStreamTooSmallError.", "quantifier": "all definitions and streams", "why_tests_cant": "all inputs", "anchors": ["dtfabric/runtime/data_maps.py:all MapByteStream"]}
{"id": "C27", "title": "Recursion depth is bounded", "statement": "Mapping nested composite structures or sequences deeper than 10 levels raises MappingError instead of recursing further, and nesting within the limit is not affected by the limit.", "quantifier": "all nesting depths", "why_tests_cant": "unbounded depth", "anchors": ["dtfabric/runtime/data_maps.py:DataTypeMap._MAXIMUM_RECURSION_DEPTH"]}
{"id": "C28", "title": "Mapping terminates", "statement": "MapByteStream terminates whenever every sequence has a known number of elements, which is no fraction, or elements that take at least one byte: the number of loop iterations is bounded by the number of elements or by the remaining bytes. A terminator-only sequence whose elements take no bytes does not terminate, nor does one whose number of elements is a fraction such as 2.5.", "quantifier": "all definitions and streams", "why_tests_cant": "divergence cannot be observed by a test", "anchors": ["dtfabric/runtime/data_maps.py:SequenceMap._CompositeMapByteStream"]}
{"id": "C29", "title": "The size-hint read loop reads exactly the data needed", "statement": "Repeatedly reading GetSizeHint(context) bytes from the start and retrying with a fresh context until MapByteStream stops raising ByteStreamTooSmallError terminates with the same value as mapping the whole data, each hint exceeds the bytes tried, and no hint exceeds the size of the mapped data.", "quantifier": "all supported definitions and data", "why_tests_cant": "all data and every retry history", "anchors": ["dtfabric/runtime/data_maps.py:StructureMap.GetSizeHint", "dtfabric/runtime/data_maps.py:ElementSequenceDataTypeMap.GetSizeHint", "dtfabric/runtime/data_maps.py:DataTypeMapContext"]}
{"id": "C30", "title": "Incremental mapping resumes where it stopped", "statement": "After ByteStreamTooSmallError with a context, calling MapByteStream again with the same context on the bytes that follow those already consumed gives the value a single call on the whole stream gives.", "quantifier": "all definitions, all split points", "why_tests_cant": "all split points of all streams", "anchors": ["dtfabric/runtime/data_maps.py:StructureMap._CompositeMapByteStream", "dtfabric/runtime/data_maps.py:SequenceMap._CompositeMapByteStream"]}
{"id": "C31", "title": "Structure fold/map round trip", "statement": "Folding the object a structure map produced from a byte stream gives back exactly the consumed bytes.", "quantifier": "all foldable structures and streams", "why_tests_cant": "all streams, arbitrary nesting", "anchors": ["dtfabric/runtime/data_maps.py:StructureMap._CompositeFoldByteStream", "dtfabric/runtime/data_maps.py:StructureMap._LinearFoldByteStream", "dtfabric/runtime/data_maps.py:StreamMap.FoldByteStream"]}
{"id": "C32", "title": "FoldByteStream raises only FoldingError", "statement": "FoldByteStream of a primitive, UUID, or linear structure or sequence map either returns bytes or raises FoldingError, for every value.", "quantifier": "all values", "why_tests_cant": "all values", "anchors": ["dtfabric/runtime/data_maps.py:all FoldByteStream"]}
{"id": "C33", "title": "Structure group dispatch", "statement": "A structure group maps with the member structure whose identifier values contain the identifier read through the base structure, else with the default structure, else raises MappingError; group construction rejects duplicate identifier values so the choice is unique.", "quantifier": "all groups and streams", "why_tests_cant": "all identifier values", "anchors": ["dtfabric/runtime/data_maps.py:StructureGroupMap"]}
{"id": "C34", "title": "Semantic and format types refuse byte streams", "statement": "Mapping or folding a constant, enumeration or format type always raises MappingError or FoldingError, and its size hint is None; folding a structure group always raises FoldingError.", "quantifier": "all values and streams", "why_tests_cant": "all inputs", "anchors": ["dtfabric/runtime/data_maps.py:SemanticDataTypeMap", "dtfabric/runtime/data_maps.py:FormatMap", "dtfabric/runtime/data_maps.py:LayoutDataTypeMap"]}
{"id": "C35", "title": "Enumeration lookups are exact", "statement": "After any sequence of AddValue calls, GetName(n) is the name given in the one accepted call with number n and None if there is none; names, numbers and aliases of accepted values are unique, and a rejected call changes nothing.", "quantifier": "all call histories", "why_tests_cant": "unbounded histories", "anchors": ["dtfabric/data_types.py:EnumerationDefinition.AddValue", "dtfabric/runtime/data_maps.py:EnumerationMap.GetName"]}
{"id": "C36", "title": "CreateDataTypeMap is None exactly for unknown or unmappable types", "statement": "CreateDataTypeMap(name) returns None if the name is not registered or its type is union or structure-family, and otherwise a map of the kind of the definition or an error.", "quantifier": "all registries and names", "why_tests_cant": "all registries", "anchors": ["dtfabric/runtime/data_maps.py:DataTypeMapFactory"]}
{"id": "C37", "title": "Each member is mapped with its own type", "statement": "In a structure map the i-th data type map is the map of the i-th member definition.", "quantifier": "all structures", "why_tests_cant": "all combinations of member and type names", "anchors": ["dtfabric/runtime/data_maps.py:StructureMap._GetMemberDataTypeMaps"]}
{"id": "C38", "title": "Registering is atomic and keeps names unique", "statement": "RegisterDefinition either raises KeyError and changes nothing or adds exactly that definition; at all times no two registered definitions have the same lower-case name.", "quantifier": "all histories of register/deregister", "why_tests_cant": "unbounded histories", "anchors": ["dtfabric/registry.py:DataTypeDefinitionsRegistry.RegisterDefinition"]}
{"id": "C39", "title": "Lookup finds what was registered", "statement": "After any history of register/deregister, GetDefinitionByName(n) returns the currently registered definition whose name equals n ignoring case; GetDefinitions lists exactly the registered definitions in registration order.", "quantifier": "all histories, all names", "why_tests_cant": "unbounded histories", "anchors": ["dtfabric/registry.py:DataTypeDefinitionsRegistry.GetDefinitionByName", "dtfabric/registry.py:DataTypeDefinitionsRegistry.GetDefinitions"]}
{"id": "C40", "title": "Alias lookup", "statement": "An alias of a registered definition that is not the lower-case name of another definition resolves to that definition; deregistering a definition makes its name and aliases resolve to nothing until a definition with the same name is registered, and deregistering then re-registering the same definition works.", "quantifier": "all histories", "why_tests_cant": "unbounded histories", "anchors": ["dtfabric/registry.py:DataTypeDefinitionsRegistry"]}
{"id": "C41", "title": "Definitions accepted by the reader are well-formed", "statement": "Every definition the reader registers has a supported size, byte order and format for its type, a padding alignment of 2, 4, 8 or 16, at least one size rule per element sequence and not both a data size and an element count, non-empty member lists with distinct names, and supported values/conditions only where allowed.", "quantifier": "all YAML documents", "why_tests_cant": "all documents", "anchors": ["dtfabric/reader.py:DataTypeDefinitionsReader"]}
{"id": "C42", "title": "References are resolved and acyclic", "statement": "Every data type, element, base, default and group member a definition refers to by name is the definition registered under that name before it, so definition graphs are finite trees and GetByteSize and map construction terminate.", "quantifier": "all YAML document sequences", "why_tests_cant": "all document sequences", "anchors": ["dtfabric/reader.py:YAMLDataTypeDefinitionsFileReader.ReadFileObject"]}
{"id": "C43", "title": "Unknown keys and attributes are rejected", "statement": "A document with a key or attribute not supported for its type, in the definition itself, a member definition at any depth or a layout element, never produces a definition; other keys of enumeration values are not checked and do not change the definition.", "quantifier": "all YAML documents", "why_tests_cant": "all documents", "anchors": ["dtfabric/reader.py:_ReadDataTypeDefinition", "dtfabric/reader.py:_ReadStorageDataTypeDefinition"]}
{"id": "C44", "title": "Reading stops at the first bad document", "statement": "ReadFileObject registers exactly the documents before the first one that fails, in order, and raises if any document fails.", "quantifier": "all document sequences", "why_tests_cant": "all sequences", "anchors": ["dtfabric/reader.py:YAMLDataTypeDefinitionsFileReader.ReadFileObject"]}
{"id": "C45", "title": "Reader errors are FormatError or KeyError", "statement": "On documents whose values have the types the format specification prescribes, ReadFileObject raises nothing but FormatError or KeyError.", "quantifier": "all well-typed documents", "why_tests_cant": "all documents", "anchors": ["dtfabric/reader.py:ReadFileObject"]}
{"id": "C46", "title": "Structure class validation", "statement": "Creating the class of a structure succeeds only if the structure name and all member names are identifiers and no keywords, member names do not start with an underscore and are pairwise distinct; instances have exactly the members as attributes.", "quantifier": "all definitions", "why_tests_cant": "all names", "anchors": ["dtfabric/runtime/runtime.py:StructureValuesClassFactory"]}
{"id": "C47", "title": "CreateStructureValues sets the attributes given", "statement": "An instance created with keyword values has those values and None for all other members, and folding then uses them in declaration order.", "quantifier": "all structures and keyword sets", "why_tests_cant": "all combinations", "anchors": ["dtfabric/runtime/data_maps.py:StructureMap.CreateStructureValues", "dtfabric/runtime/runtime.py:StructureValuesClassFactory.CreateClass"]}
{"id": "C48", "title": "Directory validation", "statement": "Checking a directory reports success exactly when every definition file in it is valid, and checks every file even after a failure.", "quantifier": "all directories", "why_tests_cant": "all file sets", "anchors": ["dtfabric/scripts/validate_definitions.py:DefinitionsValidator"]}
{"id": "C49", "title": "Caller values are not modified", "statement": "MapByteStream and GetSizeHint leave context.values as they were.", "quantifier": "all definitions, streams, contexts", "why_tests_cant": "all inputs", "anchors": ["dtfabric/runtime/data_maps.py:ElementSequenceDataTypeMap._EvaluateNumberOfElements"]}
{"id": "C50", "title": "Boolean attributes in YAML are honoured", "statement": "A boolean definition read from YAML with false_value/true_value attributes maps stored numbers according to these attributes.", "quantifier": "all boolean documents", "why_tests_cant": "all documents", "anchors": ["dtfabric/reader.py:_ReadBooleanDataTypeDefinition"]}
{"id": "C51", "title": "Expressions can name their own structure", "statement": "An expression or condition in a structure that refers to an earlier member through the name of the structure evaluates to that member, wherever the structure is used.", "quantifier": "all structures and uses", "why_tests_cant": "all nestings", "anchors": ["dtfabric/runtime/data_maps.py:StructureMap._CompositeMapByteStream", "dtfabric/runtime/data_maps.py:StructureMap._GetMemberDataTypeMaps"]}
{"id": "C52", "title": "Sections partition members", "statement": "Every member read after a section marker belongs to the last section before it, in order, and members before the first marker belong to none.", "quantifier": "all member lists", "why_tests_cant": "all lists", "anchors": ["dtfabric/data_types.py:DataTypeDefinitionWithMembers.AddSectionDefinition", "dtfabric/reader.py:_ReadDataTypeDefinitionWithMembers"]}
{"id": "C53", "title": "Struct format strings describe the layout", "statement": "When GetStructFormatString is used by a linear map, the struct size of the format string equals GetByteSize of the definition.", "quantifier": "all linear definitions", "why_tests_cant": "all member lists", "anchors": ["dtfabric/runtime/data_maps.py:GetStructFormatString"]}
{"id": "C54", "title": "A definition holds what its document says", "statement": "ReadFileObject builds a definition from a document exactly when the document follows the format, and then every attribute of the definition (names, aliases, byte order, size, units, element type, size rules, terminator, members in order, conditions, values, layout, base, default) is the one the document gives, or the default.", "quantifier": "all documents and registries", "why_tests_cant": "all documents", "anchors": ["dtfabric/reader.py:DataTypeDefinitionsReader._ReadDefinition", "dtfabric/reader.py:DataTypeDefinitionsReader._ReadMemberDataTypeDefinitionMember"]}
{"id": "C55", "title": "Reading files adds up", "statement": "A file is accepted exactly when each of its documents describes a definition in terms of the definitions read before, with fresh name and aliases; the definitions are added in order, GetDefinitionByName finds a definition by its name ignoring case, else by alias, and splitting the documents over two files makes no difference.", "quantifier": "all sequences of files", "why_tests_cant": "all sequences of files", "anchors": ["dtfabric/reader.py:YAMLDataTypeDefinitionsFileReader.ReadFileObject", "dtfabric/registry.py:DataTypeDefinitionsRegistry"]}
{"id": "C56", "title": "Names keep their meaning", "statement": "What GetDefinitionByName finds for a name, it still finds after further files were read.", "quantifier": "all names and sequences of files", "why_tests_cant": "all sequences of files", "anchors": ["dtfabric/registry.py:DataTypeDefinitionsRegistry.GetDefinitionByName", "dtfabric/registry.py:DataTypeDefinitionsRegistry.RegisterDefinition"]}
{"id": "C57", "title": "The order of unrelated documents does not matter", "statement": "If a file is accepted and two neighbouring documents do not refer to each other's names or aliases, the file with the two exchanged is accepted, gives the same definitions with the two exchanged, and every name refers to the same definition.", "quantifier": "all files and documents", "why_tests_cant": "all files", "anchors": ["dtfabric/reader.py:YAMLDataTypeDefinitionsFileReader.ReadFileObject"]}
{"id": "C58", "title": "Folding streams and strings", "statement": "Folding bytes to a stream of a declared size gives the bytes if they have that size and FoldingError otherwise (MappingError if the size cannot be evaluated); folding to a terminated stream adds the terminator unless it is there; a string folds like the stream of its encoding. What was folded maps back to the same value wherever it is put, for terminated streams and strings when the value consists of whole elements none of which is the terminator.", "quantifier": "all streams and strings, values, namespaces and surrounding bytes", "why_tests_cant": "all values and contexts", "anchors": ["dtfabric/runtime/data_maps.py:StreamMap.FoldByteStream", "dtfabric/runtime/data_maps.py:StringMap.FoldByteStream"]}
{"id": "C59", "title": "Mapping what was folded", "statement": "When a value agrees with its type (numbers for number types, single precision numbers for 4-byte floats, conditional members present exactly when their condition holds, supported values, streams and strings of the declared size or ending at the terminator only) and FoldByteStream turns it into bytes, mapping these bytes gives the value back and uses exactly these bytes, wherever they are put in a byte stream. Different such values never fold to the same bytes.", "quantifier": "all definitions, values, contexts and surrounding bytes", "why_tests_cant": "all values of all types", "anchors": ["dtfabric/runtime/data_maps.py:StructureMap.FoldByteStream", "dtfabric/runtime/data_maps.py:StructureMap.MapByteStream", "dtfabric/runtime/data_maps.py:SequenceMap._LinearFoldByteStream"]}
{"id": "C60", "title": "Single precision values are exact or nearest", "statement": "With the IEEE 754 conversions CPython uses, a 4-byte floating-point map gives exactly the number the four bytes denote (infinities and NaNs included). Folding a finite number gives the bytes of the nearest single precision number, the even one when two are as near, and raises FoldingError exactly when the number is too large for single precision; an infinity or NaN stays one. Bytes that do not denote a NaN come back when the number is folded, alone or anywhere in a foldable structure.", "quantifier": "all byte patterns, all doubles, all orders, all foldable structures", "why_tests_cant": "2^32 patterns and 2^64 doubles with subnormals, ties and overflow", "anchors": ["dtfabric/runtime/data_maps.py:FloatingPointMap", "dtfabric/runtime/data_maps.py:PrimitiveDataTypeMap.FoldByteStream", "dtfabric/runtime/data_maps.py:PrimitiveDataTypeMap.MapByteStream"]}
{"id": "C61", "title": "Terminated strings in the usual encodings", "statement": "For a string type in ASCII, UTF-8, UTF-16-LE or UTF-16-BE whose elements are code units and whose terminator is a zero code unit: every text without U+0000 that the encoding can represent folds, and mapping the folded bytes gives the text back and takes exactly these bytes, wherever they are put; every text the map gives has no U+0000 and folds back to exactly the bytes taken. Folding text with a code point the encoding cannot represent raises FoldingError. Text folded to a string of a declared size without a terminator maps back too.", "quantifier": "all texts, byte streams, offsets and contexts", "why_tests_cant": "all texts; multi-byte code points, zero bytes inside code units, surrogate pairs", "anchors": ["dtfabric/runtime/data_maps.py:StringMap.MapByteStream", "dtfabric/runtime/data_maps.py:StringMap.FoldByteStream", "dtfabric/runtime/data_maps.py:StreamMap.MapByteStream"]}
{"id": "C62", "title": "A value depends on its own bytes", "statement": "If MapByteStream gives a value and reports n bytes in context.byte_size, every byte stream that holds the same n bytes at the same offset gives the same value and size, whatever comes before and after these bytes. In particular the byte stream may be cut right after them.", "quantifier": "all definitions, byte streams, offsets and contexts", "why_tests_cant": "all pairs of byte streams that agree on the n bytes", "anchors": ["dtfabric/runtime/data_maps.py:DataTypeMap.MapByteStream", "dtfabric/runtime/data_maps.py:ElementSequenceDataTypeMap", "dtfabric/runtime/data_maps.py:StructureGroupMap.MapByteStream"]}
{"id": "C63", "title": "Bounds on the number of bytes", "statement": "The number of bytes MapByteStream reports in context.byte_size lies between the least and the greatest size that follow from the declared sizes: fixed sizes count in full, conditional members count in the upper bound only, padding takes less than its alignment size, a terminated stream or sequence has at least one element, a group lies between its smallest and its largest member. Hence a sequence whose elements have a positive least size is mapped in finitely many steps.", "quantifier": "all definitions, byte streams, offsets and contexts", "why_tests_cant": "all nestings of types and all contents of the byte stream", "anchors": ["dtfabric/runtime/data_maps.py:StructureMap._CompositeMapByteStream", "dtfabric/runtime/data_maps.py:SequenceMap._CompositeMapByteStream", "dtfabric/runtime/data_maps.py:PaddingMap.MapByteStream", "dtfabric/data_types.py:GetByteSize"]}
{"id": "C64", "title": "Contexts after an error", "statement": "If MapByteStream with a context that holds no unfinished state raises an error other than ByteStreamTooSmallError, the context holds no unfinished state afterwards. Mapping any type with it then gives the same value or error and the same size as with a fresh context that holds the same values.", "quantifier": "all definitions, byte streams, offsets, contexts without unfinished state and kinds of errors", "why_tests_cant": "every place where an error can be raised, in every nesting of types, followed by every other mapping", "anchors": ["dtfabric/runtime/data_maps.py:StructureGroupMap.MapByteStream", "dtfabric/runtime/data_maps.py:StructureMap._CompositeMapByteStream", "dtfabric/runtime/data_maps.py:SequenceMap._CompositeMapByteStream", "dtfabric/runtime/data_maps.py:DataTypeMapContext"]}
{"id": "C65", "title": "A definition file from end to end", "statement": "Take a definition file that declares, in order, integers, booleans and doubles of the sizes the format allows, UUIDs, streams and sequences of fixed size and structures of these, each under its own name (without quotes, backslashes and null characters); every integer, boolean, double, UUID and structure has a byte order, and members of a structure may have another one than the structure. DataTypeFabric accepts the file. For every declared type CreateDataTypeMap by its name gives a map whose MapByteStream, at any offset of any byte stream, returns exactly the value the declaration describes and reports the bytes read, or raises ByteStreamTooSmallError if there are too few bytes; the byte size of the definition is the number of bytes the type takes; and, for types that can be written (no booleans, sequences of numbers only), FoldByteStream of the value gives back the bytes. DataTypeFabric without a file has no types.", "quantifier": "all such files (any number of declarations, any nesting up to the supported depth), any mixture of byte orders, all byte streams, offsets and contexts without unfinished state", "why_tests_cant": "it composes the reader, the registry, the definitions, map creation, mapping and folding over every file of a language of types, not over the files of a test set", "anchors": ["dtfabric/runtime/fabric.py:DataTypeFabric", "dtfabric/reader.py:YAMLDataTypeDefinitionsFileReader.ReadFileObject", "dtfabric/runtime/data_maps.py:DataTypeMapFactory.CreateDataTypeMap", "dtfabric/runtime/data_maps.py:StructureMap.MapByteStream", "dtfabric/runtime/data_maps.py:StructureMap.FoldByteStream"]}
{"id": "C66", "title": "Sizes of definitions that refer to each other", "statement": "GetByteSize of a definition object returns after any history of calls that make definitions, add members and ask for sizes, also when definitions contain themselves. If no definition gets a member after it was used as a member or element of another, GetByteSize gives the size of the members the definition has now, at any depth, whatever sizes were asked for before. Without that condition it can give the size of an earlier state.", "quantifier": "all histories of calls on any number of structures, unions, sequences, streams, strings, members and other definitions", "why_tests_cant": "the sizes are kept in objects that are shared and changed; the claim is about every order of the calls and every way the objects refer to each other, including cycles", "anchors": ["dtfabric/data_types.py:StructureDefinition.GetByteSize", "dtfabric/data_types.py:UnionDefinition.GetByteSize", "dtfabric/data_types.py:DataTypeDefinitionWithMembers.AddMemberDefinition", "dtfabric/data_types.py:ElementSequenceDataTypeDefinition.GetByteSize", "dtfabric/data_types.py:MemberDataTypeDefinition.GetByteSize"]}
{"id": "C67", "title": "Map creation fails exactly for faulty definitions", "statement": "If CreateDataTypeMap raises an error, the definition or one whose map it needs has a fault that causes this error: FormatError for a Boolean without values, a stream or string of composite elements, a negative data size or number of elements, a group without members, without identifier, without identifier values or with an identifier value given twice; ValueError for names that are not valid; SyntaxError for an expression or name Python does not accept, or a description or other text of a structure with an escape sequence Python does not accept or a null character; any error for a text of a structure that ends the literal it is put into (C68); TypeError for a member without type name or an identifier value that cannot be a dictionary key; ZeroDivisionError for a data size of elements of no bytes; AttributeError for element or member types that have no byte order at all, padding as elements, or a group member that is no structure with such an identifier. If it returns, there is no such fault, provided members with the same type name have the same type (in a structure without byte order a member type that has none may go unnoticed).", "quantifier": "all definitions, whether made by the reader or by hand, at any nesting", "why_tests_cant": "the claim covers every definition and both directions; map creation mixes class creation, a cache of maps by name, format strings and dictionaries of group members", "anchors": ["dtfabric/runtime/data_maps.py:DataTypeMapFactory.CreateDataTypeMapByType", "dtfabric/runtime/data_maps.py:ElementSequenceDataTypeMap._GetElementDataTypeMap", "dtfabric/runtime/data_maps.py:StructureMap._GetMemberDataTypeMaps", "dtfabric/runtime/data_maps.py:StructureMap._CheckLinearMap", "dtfabric/runtime/data_maps.py:StructureGroupMap._GetMemberDataTypeMaps", "dtfabric/runtime/runtime.py:StructureValuesClassFactory.CreateClass"]}
{"id": "C68", "title": "Texts of a definition are not run as code", "statement": "Creating a map of a structure makes a class from a text that is run as Python code. Which code is run depends on the names of the structure and its members only: descriptions and type names appear in it as documentation, inside a literal. A description therefore neither makes map creation fail nor changes the class.", "quantifier": "all structures with any descriptions, names and member types; all texts", "why_tests_cant": "it is a claim about every text that can be put into the template, with the rules of Python for quotes, escape sequences and the ends of literals", "anchors": ["dtfabric/runtime/runtime.py:StructureValuesClassFactory._CreateClassTemplate", "dtfabric/runtime/runtime.py:StructureValuesClassFactory.CreateClass", "dtfabric/runtime/runtime.py:StructureValuesClassFactory._IsIdentifier"]}
{"id": "C69", "title": "Members are found by their names", "statement": "After any history of calls on a structure, union, family or group definition no two members have the same name; the members are those added first with their names, in the order they were added; GetMemberDefinitionByName gives the first member added with that name and None if there is none. Adding a member of a name that is taken raises KeyError and changes nothing. A group keeps the byte order of the base, the default and the identifier it was made with; the base of a family is the one set last.", "quantifier": "all histories of AddMemberDefinition, AddSectionDefinition, GetByteSize and SetBaseDefinition calls, all names", "why_tests_cant": "histories are unbounded and names can repeat at any place", "anchors": ["dtfabric/data_types.py:DataTypeDefinitionWithMembers.AddMemberDefinition", "dtfabric/data_types.py:DataTypeDefinitionWithMembers.GetMemberDefinitionByName", "dtfabric/data_types.py:StructureFamilyDefinition.AddMemberDefinition", "dtfabric/data_types.py:StructureFamilyDefinition.SetBaseDefinition", "dtfabric/data_types.py:StructureGroupDefinition.AddMemberDefinition"]}
{"id": "C70", "title": "What accepted definition files can still get wrong", "statement": "If a definition file was accepted, creating the map of one of its types fails only because of one of these mistakes: elements or members that are constants, enumerations, families or formats; an expression Python does not accept; a stream or string of composite elements; a sequence of a negative size or number; a name of a structure or member that is not valid; padding with a condition or values; a text that is not inert (C68); a group of families or groups; an identifier of a group without values, with a value twice or with values that are no dictionary keys. A type without such mistakes in the definitions it uses gets a map. ZeroDivisionError is never raised.", "quantifier": "all files, all definitions registered by reading them, at any nesting", "why_tests_cant": "it relates everything the reader accepts to everything map creation refuses", "anchors": ["dtfabric/reader.py:YAMLDataTypeDefinitionsFileReader.ReadFileObject", "dtfabric/runtime/data_maps.py:DataTypeMapFactory.CreateDataTypeMapByType", "dtfabric/reader.py:DataTypeDefinitionsFileReader._ReadMemberDataTypeDefinitionMember", "dtfabric/reader.py:DataTypeDefinitionsFileReader._ReadStructureGroupDataTypeDefinition"]}
{"id": "C71", "title": "Definition files with sizes, conditions and choices that depend on the data mean what they say", "statement": "A definition file of scalars, UUIDs, blocks of bytes, texts, arrays, lists, records and groups of records can be read, where lengths, counts and the sizes of lists are numbers, expressions over fields read before and numbers the caller supplies (sums, differences, products, floor division by a number, bitwise and, and a choice between two expressions), where blocks and texts may end at a terminator, with or without a length, the elements of a list have a fixed size (and its size is no plain number) or end at a terminator, and where fields may have conditions, may be restricted to some values, or be padding up to a multiple of 2, 4, 8 or 16 bytes in the stream. Every declared type has a map, and mapping a byte stream at an offset gives the value the declarations mean: fields one after the other, None for fields whose condition does not hold, texts and blocks as long as their expressions say or up to their terminator (a text of a given length that has a terminator stops at the first one, a block does not), as many elements of a list as start within its size, or all that fit if they have a fixed size, or those up to a block that is just the terminator, for a group the record whose values of the identifying field have the number read by the base, or else the default. Records have a byte order, scalars and UUIDs may have one of their own; if they leave it out, they are read in that of the record they are fields of, and so are arrays and lists of scalars that leave it out (excepted are types for which this does not give a byte order: such scalars, UUIDs and arrays themselves, and other arrays of them, and records of scalars only of which some leave it out and others have another one than the record). It reports the number of bytes taken. If the bytes do not suffice, ByteStreamTooSmallError is raised; if a length is negative, bytes are no text of the encoding, a field has a number it may not hold, or no record of a group fits, MappingError.", "quantifier": "all files of such declarations, all byte streams, offsets and values supplied, types nested at most 11 levels below the outermost one", "why_tests_cant": "it connects the reader, registry, map creation, evaluation of expressions and mapping for all files, data and values at once", "anchors": ["dtfabric/fabric.py:DataTypeFabric", "dtfabric/reader.py:DataTypeDefinitionsFileReader._ReadElementSequenceDataTypeDefinition", "dtfabric/runtime/data_maps.py:ElementSequenceDataTypeMap._EvaluateElementsDataSize", "dtfabric/runtime/data_maps.py:SequenceMap._CompositeMapByteStream", "dtfabric/runtime/data_maps.py:StructureMap._CompositeMapByteStream", "dtfabric/runtime/data_maps.py:StringMap.MapByteStream", "dtfabric/runtime/data_maps.py:StreamMap.MapByteStream", "dtfabric/runtime/data_maps.py:StructureGroupMap.MapByteStream", "dtfabric/runtime/data_maps.py:PaddingMap.MapByteStream"]}
{"id": "C72", "title": "Definition files say how values are written", "statement": "In a definition file of scalars, UUIDs, blocks of bytes, texts and records, where lengths are numbers, expressions over fields of the same record, or given by a terminator (for texts not both), and fields may have conditions, supported values, or be padding, and scalars and UUIDs may leave their byte order to the record: if bytes mean a value according to the declarations, FoldByteStream of the value gives exactly these bytes. Terminators left out of texts are written again, absent fields take no bytes, padding is written as it was read. Types with booleans (several bytes mean true), groups of records (they cannot be folded), lists and arrays of anything but a fixed number of numbers (FoldByteStream gives None) are excepted, and so are encodings in which several byte strings are the same text.", "quantifier": "all files of such declarations, all values and bytes, types nested at most 11 levels below the outermost one", "why_tests_cant": "it connects the reader, registry, map creation, evaluation of expressions and folding for all files and values at once", "anchors": ["dtfabric/fabric.py:DataTypeFabric", "dtfabric/runtime/data_maps.py:StructureMap._CompositeFoldByteStream", "dtfabric/runtime/data_maps.py:StringMap.FoldByteStream", "dtfabric/runtime/data_maps.py:StreamMap.FoldByteStream"]}
{"id": "C73", "title": "Validator exit status", "statement": "The console script that validates definitions exits with status 0 exactly when its argument is the path of a valid definition file or of a directory in which every .yaml file is valid, and with status 1 otherwise: without an argument, for a path that does not exist, for an invalid file and when the check ends with an exception.", "quantifier": "all file trees, arguments and file contents", "why_tests_cant": "all trees and all ways a check can end", "anchors": ["dtfabric/scripts/validate_definitions.py:Main", "dtfabric/scripts/validate_definitions.py:DefinitionsValidator"]}
{"id": "C74", "title": "The class of a structure documents its members", "statement": "For every structure for which a data type map can be created, the class of its values is this text: its documentation starts with the description of the structure, or its name if there is none, without the dots at its end, and lists every member once, on a line with its name, its Python type and its description or name, sorted; `__init__` takes the values of the members in the order of the definition, None by default, and stores each in the attribute of the member's name. The Python type is bool, str, float or int for booleans, characters, floating-points and integers, uuid.UUID, bytes and str for UUIDs, streams and strings, tuple[...] with the name of the elements for sequences, and the name of the data type for others.", "quantifier": "all structure definitions for which a map is created", "why_tests_cant": "all names, descriptions, member types and numbers of members; the existing test only checks that there is a text", "anchors": ["dtfabric/runtime/runtime.py:StructureValuesClassFactory._CreateClassTemplate", "dtfabric/runtime/runtime.py:StructureValuesClassFactory.CreateClass"]}
{"id": "C75", "title": "Byte orders left open are those of the structure or sequence", "statement": "Scalars, UUIDs and sequences that declare no byte order take that of the structure they are members of, scalar elements that of the sequence; elements of other types, structures and groups have their own byte order only, and the byte order of streams, strings, groups and sequences of elements that are no scalars does not matter. Two definitions that say the same once the byte orders that count are written out in this way are interchangeable: they have the same byte size, creating a map fails with the same error or succeeds for both, and the maps give the same results and errors in MapByteStream (including the context afterwards), FoldByteStream, GetSizeHint and CreateStructureValues. This holds of definitions in which every structure has members whose types are told apart by their names, and, if it declares a byte order, contains only structures that declare one and, if it consists of scalars only and some of them declare none, has no member that declares another.", "quantifier": "all definitions of the kind, all byte streams, offsets, contexts and values", "why_tests_cant": "relates the behaviour of two definitions on all inputs, for all combinations of open and written out byte orders at any depth", "anchors": ["dtfabric/runtime/data_maps.py:StructureMap._GetMemberDataTypeMaps", "dtfabric/runtime/data_maps.py:StructureMap._CheckLinearMap", "dtfabric/runtime/data_maps.py:ElementSequenceDataTypeMap._GetElementDataTypeMap", "dtfabric/runtime/data_maps.py:StorageDataTypeMap.GetStructByteOrderString"]}
{"id": "C76", "title": "Format errors name the definition", "statement": "When reading a definitions file raises FormatError, its text starts with `in: ` and the name of the first definition in the file that cannot be read (`<NAMELESS>` if it has no name), or, when the YAML text itself cannot be scanned, with `after: ` and the name of the definition read last (`at start` if there is none). The definitions before it are registered and it is not.", "quantifier": "all files, all registries, all errors at any depth of a definition", "why_tests_cant": "some sixty places raise the errors, some of them for members at any depth of nested unions; each must pass on the right name", "anchors": ["dtfabric/reader.py:YAMLDataTypeDefinitionsFileReader.ReadFileObject", "dtfabric/reader.py:YAMLDataTypeDefinitionsFileReader._GetFormatErrorLocation", "dtfabric/reader.py:DataTypeDefinitionsFileReader._ReadMemberDataTypeDefinitionMember", "dtfabric/errors.py:DefinitionReaderError"]}
{"id": "C77", "title": "Types of a definition file can be read by size hints", "statement": "For every definition file of the language of C71, and every type of it without conditional members, padding or groups, whose arrays have elements of a fixed size, whose lists have elements of one byte and whose terminators are single bytes (of any size if there is a data size or a plain number of elements, too), and whose lengths, where they are a choice between two expressions, have no value as long as the fields they name have none (also records of such members with padding between them, and groups without default of such records that are no smaller than the base of the group): a program that has the first n bytes of the data of a value, maps them and, as long as they are too few, reads as many bytes as GetSizeHint asks for with the context of the failed call, ends with the value the declarations mean. Every hint exceeds the number of bytes tried before, and no hint exceeds the number of bytes the value takes.", "quantifier": "all files of the language, all types of the kind, all data, all numbers of bytes to start with, all caller-supplied values", "why_tests_cant": "all files and data, and every history of retries", "anchors": ["dtfabric/fabric.py:DataTypeFabric.__init__", "dtfabric/runtime/data_maps.py:StructureMap.GetSizeHint", "dtfabric/runtime/data_maps.py:ElementSequenceDataTypeMap.GetSizeHint", "dtfabric/runtime/data_maps.py:StructureGroupMap.GetSizeHint"]}
{"id": "C78", "title": "Types of a definition file can be read piece by piece", "statement": "For every definition file of the language of C71, and every type of it without padding and lists in which arrays other than sequences of scalars come last and contain no others, and groups start with a record of scalars in its byte order: handing over the data in pieces, every call with the context the previous call left and with the bytes following those used so far, ends with the value the declarations mean, however the data are cut into pieces.", "quantifier": "all files of the language, all types of the kind, all data, all ways to cut them into pieces, all caller-supplied values", "why_tests_cant": "all files and data, and all ways to cut the data", "anchors": ["dtfabric/fabric.py:DataTypeFabric.__init__", "dtfabric/runtime/data_maps.py:StructureMap._CompositeMapByteStream", "dtfabric/runtime/data_maps.py:SequenceMap._CompositeMapByteStream", "dtfabric/runtime/data_maps.py:StructureGroupMap.MapByteStream"]}
{"id": "C79", "title": "A length as a number or as an expression means the same", "statement": "Two types that differ only in how the data size or number of elements of their sequences, streams and strings is given, as a number or as an expression with that value, map the same byte streams, to the same values, and take the same number of bytes; and streams and strings that differ so fail with the same errors, too.", "quantifier": "all types, however the lengths in them are given, all byte streams and offsets, all values of the context", "why_tests_cant": "a relation between the results of two programs (one operation for all elements, one operation per element) for all types and data", "anchors": ["dtfabric/runtime/data_maps.py:SequenceMap.__init__", "dtfabric/runtime/data_maps.py:SequenceMap._LinearMapByteStream", "dtfabric/runtime/data_maps.py:SequenceMap._CompositeMapByteStream", "dtfabric/runtime/data_maps.py:ElementSequenceDataTypeMap._EvaluateElementsDataSize", "dtfabric/runtime/data_maps.py:ElementSequenceDataTypeMap._EvaluateNumberOfElements"]}
{"id": "C80", "title": "The requested size", "statement": "If MapByteStream with a context raises ByteStreamTooSmallError, context.requested_size is the number of bytes the type needs from the offset on: it is more than there are, and with that many bytes the error is not raised. If MapByteStream gives a value, context.requested_size is the number of bytes taken, as is context.byte_size.", "quantifier": "all types, byte streams, offsets and contexts without unfinished state", "why_tests_cant": "all types, all byte streams; that a number of bytes is enough is a statement about all byte streams of that length", "anchors": ["dtfabric/runtime/data_maps.py:PrimitiveDataTypeMap.MapByteStream", "dtfabric/runtime/data_maps.py:SequenceMap._LinearMapByteStream", "dtfabric/runtime/data_maps.py:StreamMap.MapByteStream", "dtfabric/runtime/data_maps.py:PaddingMap.MapByteStream", "dtfabric/runtime/data_maps.py:StructureMap._LinearMapByteStream", "dtfabric/runtime/data_maps.py:StructureMap._CompositeMapByteStream"]}
{"id": "C81", "title": "Documentation, the names of types and where types are given do not matter", "statement": "Two data type definitions that differ only in descriptions, aliases, the names of data types other than structures, and in which members are given by the name of their type (rather than with the type itself; for numbers, uuids, sequences, streams, strings and structures) are interchangeable: they have the same byte size, creating a map fails with the same error or succeeds for both, and the maps give the same results and errors in MapByteStream (including the context afterwards), FoldByteStream, GetSizeHint and CreateStructureValues. The names of the members of structures and unions, and the way the identifier members of structure groups are given, stay the same. This holds of definitions in which the types of the members of every structure are told apart by their names, and the texts shown in the documentation of a structure class contain no quotes, backslashes and null characters.", "quantifier": "all pairs of definitions of the kind, at any depth, all byte streams, offsets, contexts and values", "why_tests_cant": "relates the behaviour of two definitions on all inputs, for all names and texts; names are keys of a cache of maps and texts become Python code, so that it is not obvious that they have no effect", "anchors": ["dtfabric/runtime/data_maps.py:StructureMap._GetMemberDataTypeMaps", "dtfabric/runtime/data_maps.py:ElementSequenceDataTypeMap._GetElementDataTypeMap", "dtfabric/runtime/runtime.py:StructureValuesClassFactory._CreateClassTemplate", "dtfabric/runtime/data_maps.py:StructureGroupMap._GetMemberDataTypeMaps"]}
{"id": "C82", "title": "The documentation in definition files does not matter", "statement": "Reading definition files whose documents differ only in the order of the keys of mappings (of definitions, members of structures and unions, values of enumerations and attributes), in descriptions and in the urls of definitions has the same outcome: each file is read without error or refused with the same error, afterwards the same names are known, and under each name there are definitions that differ only in descriptions, which are interchangeable in the sense of C81. The same holds for data type fabrics made from such files.", "quantifier": "all sequences of files and files of the kind, whether they are valid or not, and all names", "why_tests_cant": "relates the outcome of reading two files for all files, valid or not, and all wordings and orders of keys", "anchors": ["dtfabric/reader.py:DataTypeDefinitionsReader._ReadDataTypeDefinition", "dtfabric/reader.py:DataTypeDefinitionsReader._ReadMemberDataTypeDefinitionMember", "dtfabric/reader.py:YAMLDataTypeDefinitionsFileReader.ReadFileObject", "dtfabric/runtime/fabric.py:DataTypeFabric.__init__", "dtfabric/registry.py:DataTypeDefinitionsRegistry.RegisterDefinition"]}
{"id": "C83", "title": "A structure can grow at its end", "statement": "Members added at the end of a structure do not change what the members before them are mapped to: every byte stream the longer structure can be mapped on can be mapped with the shorter one, which gives the same values and takes no more bytes; and where the shorter one can be mapped and the added members can be read from where it ends, the longer one gives the values of both.", "quantifier": "all structures and all members added, all byte streams, offsets and context values, all expressions that do not notice the added members", "why_tests_cant": "a relation between two definitions for all types and data; whether the members are read in one go or one by one changes with the added members", "anchors": ["dtfabric/runtime/data_maps.py:StructureMap._CheckLinearMap", "dtfabric/runtime/data_maps.py:StructureMap._CompositeMapByteStream", "dtfabric/runtime/data_maps.py:StructureMap._LinearMapByteStream", "dtfabric/runtime/data_maps.py:StructureMap._GetMemberDataTypeMaps"]}
{"id": "C84", "title": "Members can be moved into a structure of their own", "statement": "Replacing consecutive members of a structure by one member whose type is a structure of these members, of the same byte order, changes neither what can be mapped nor the bytes taken nor any value: every byte stream one of the two can be mapped on can be mapped with the other, the values of the moved members being attributes of the object of the new member.", "quantifier": "all structures, all consecutive members, all byte streams, offsets and context values; provided no expression notices the move, the moved members show no class name that is made of that of the structure, the definitions stay within the limit of nesting, members with the same type name have the same type (C37) and declared byte orders are honoured (C24)", "why_tests_cant": "a relation between two definitions for all types, positions and data; whether members are read in one go or one by one, the names of copied types and the names expressions can use all change with the move", "anchors": ["dtfabric/runtime/data_maps.py:StructureMap._CheckLinearMap", "dtfabric/runtime/data_maps.py:StructureMap._CompositeMapByteStream", "dtfabric/runtime/data_maps.py:StructureMap._LinearMapByteStream", "dtfabric/runtime/data_maps.py:StructureMap._GetMemberDataTypeMaps"]}
{"id": "C85", "title": "Sequences map to exactly what their elements can be mapped to", "statement": "A sequence can be mapped if and only if its element type can be mapped repeatedly, each time where the previous element ended, every element beginning within the byte stream: as many times as there are elements; until an element equals the terminator; as many times as elements of fixed size fit into the data size; or, for elements with a terminator of their own, until an element equals the terminator or the data size is reached. The values are those of the elements, in order, and the bytes taken are theirs together.", "quantifier": "all element types, fixed and variable in size, all byte streams, offsets and context values, read in one go or element by element; data sizes and numbers given or computed; a data size given as a number being a multiple of the size of the elements; within the limit of nesting", "why_tests_cant": "an equivalence for all definitions and all data: a sequence that is rejected though all of its elements can be read, or accepted with fewer, shows only for particular element types and lengths", "anchors": ["dtfabric/runtime/data_maps.py:SequenceMap._CompositeMapByteStream", "dtfabric/runtime/data_maps.py:SequenceMap._LinearMapByteStream", "dtfabric/runtime/data_maps.py:ElementSequenceDataTypeMap._EvaluateElementsDataSize", "dtfabric/runtime/data_maps.py:ElementSequenceDataTypeMap._EvaluateNumberOfElements"]}
{"id": "C86", "title": "Asking for more data is honest", "statement": "For the types of definition files of C71: when mapping a byte stream raises ByteStreamTooSmallError, there are bytes that can be appended to it with which mapping gives a value or MappingError, and nothing that follows these bytes changes that outcome. A caller that reads on upon ByteStreamTooSmallError is never sent to wait for data that cannot exist. This does not hold for all types: a sequence of 8-bit numbers that ends at the number 300 has a map that raises ByteStreamTooSmallError on every byte stream.", "quantifier": "all definition files of C71, all of their types within the limit of nesting, all byte streams, offsets and context values", "why_tests_cant": "says that a continuation exists for each of infinitely many streams, and that it decides the outcome for all continuations of its own; sizes, conditions and choices depend on the data read so far", "anchors": ["dtfabric/runtime/data_maps.py:SequenceMap._CompositeMapByteStream", "dtfabric/runtime/data_maps.py:StreamMap.MapByteStream", "dtfabric/runtime/data_maps.py:StructureMap._CompositeMapByteStream", "dtfabric/runtime/data_maps.py:StructureGroupMap.MapByteStream", "dtfabric/runtime/data_maps.py:StorageDataTypeMap._CheckByteStreamSize"]}
{"id": "C87", "title": "A stream is the sequence of its bytes", "statement": "A stream and a sequence of unsigned 8-bit integers declared with the same data size, the same number of elements, or a terminator of the same byte give the same data on every byte stream: the sequence gives the numbers of the bytes the stream gives, both report the same mapped size, and both raise ByteStreamTooSmallError on the same byte streams.", "quantifier": "all byte streams, offsets within them and context values, all data sizes and numbers of elements (constants and expressions of non-negative value, one of the two), all terminator bytes, all names and byte orders; within the limit of nesting", "why_tests_cant": "an equality of two readers with separate code (slicing, searching for a terminator, unpacking in one go, element by element) for all sizes and all data", "anchors": ["dtfabric/runtime/data_maps.py:StreamMap.MapByteStream", "dtfabric/runtime/data_maps.py:SequenceMap._LinearMapByteStream", "dtfabric/runtime/data_maps.py:SequenceMap._CompositeMapByteStream"]}
{"id": "C88", "title": "Folded size equals GetByteSize", "statement": "When GetByteSize of a definition is n and FoldByteStream makes a byte string of a value, it has exactly n bytes. (This is false: FoldByteStream leaves out members that are None, padding that was not set and members that are unions, all without an error, and writes padding of any length as it is. It holds of values in which every member is set and padding has the length the definition gives it.)", "quantifier": "all definitions of fixed size without unions, whose declared sizes are positive and given once, whose sequence data sizes are multiples of the element size and whose structures do not use one type name for two types; all values and context values", "why_tests_cant": "a writer that lays out records by GetByteSize relies on it for every definition and every value it may be given", "anchors": ["dtfabric/runtime/data_maps.py:StructureMap._CompositeFoldByteStream", "dtfabric/runtime/data_maps.py:StructureMap._LinearFoldByteStream", "dtfabric/runtime/data_maps.py:SequenceMap._LinearFoldByteStream", "dtfabric/runtime/data_maps.py:StreamMap.FoldByteStream", "dtfabric/runtime/data_maps.py:PaddingMap.FoldByteStream", "dtfabric/data_types.py:StructureDefinition.GetByteSize"]}
{"id": "C89", "title": "A sequence is the structure of its elements", "statement": "A sequence of k elements and a structure of k members of the element type, of the same byte order, give the same values on every byte stream: if the sequence can be mapped, the structure can, its attributes in order are the elements, and both report the same mapped size; and if the element type can not be mapped from no bytes (any type of fixed size above zero), the converse holds as well. The members have no condition and no supported values, the expressions of the element type do not use the names of the structure, and an element type that is a sequence, stream or structure without a byte order of its own is in a structure without one.", "quantifier": "all element types (also nested structures and sequences of variable size), all numbers of elements (constant or expression), all byte streams, offsets, nesting depths within the limit and context values", "why_tests_cant": "an equality of two readers with separate code, each with a path that unpacks in one go and a path element by element, for all types and all data", "anchors": ["dtfabric/runtime/data_maps.py:SequenceMap._CompositeMapByteStream", "dtfabric/runtime/data_maps.py:SequenceMap._LinearMapByteStream", "dtfabric/runtime/data_maps.py:StructureMap._CompositeMapByteStream", "dtfabric/runtime/data_maps.py:StructureMap._LinearMapByteStream", "dtfabric/runtime/data_maps.py:StructureMap._GetMemberDataTypeMaps", "dtfabric/runtime/data_maps.py:ElementSequenceDataTypeMap._GetElementDataTypeDefinition"]}
{"id": "C90", "title": "Sequences can be read in parts", "statement": "A sequence of k elements of a fixed size s can be mapped at an offset exactly if the map of the element type gives a value at each of the k places offset + i*s, and these values are the elements: element i can be read alone. And the sequence of j + k elements, of any size, gives at an offset exactly the elements the sequence of j elements gives there followed by those the sequence of k elements gives behind it, taking as many bytes as both. The same holds for a sequence with a data size of j + k bytes, if elements have a fixed size that divides both, and for streams of j + k bytes. A sequence that ends with a terminator gives exactly what the sequence of j elements gives, none of which is the terminator, followed by what the sequence that ends with the terminator gives behind them.", "quantifier": "all element types (first part and data sizes: of fixed size above zero; first part: that the sequence reads in the byte order of the type), all numbers of elements and data sizes (constant or expression), terminators, byte streams, offsets and context values", "why_tests_cant": "relates the one-go and the element-by-element path of different maps at all offsets and for all numbers of elements", "anchors": ["dtfabric/runtime/data_maps.py:SequenceMap._CompositeMapByteStream", "dtfabric/runtime/data_maps.py:SequenceMap._LinearMapByteStream", "dtfabric/data_types.py:ElementSequenceDataTypeDefinition.GetByteSize"]}
{"id": "C91", "title": "Optional members", "statement": "A structure with conditional members is, for every outcome of its conditions, the structure of the members that are present without conditions: whenever it can be mapped, there is an outcome (each condition evaluated with the members before it) with None for the members that are not present; and for that outcome it has the values vs exactly if the structure of the members present has those of vs, both taking the same number of bytes, as long as the sizes of the members present do not use the members that are not.", "quantifier": "all structures whose members with the same type name have the same type and whose members read in one go have the byte order of the structure; all outcomes, byte streams, offsets, nesting depths within the limit and context values", "why_tests_cant": "two to the number of conditions many layouts, each equal to that of another definition for all data", "anchors": ["dtfabric/runtime/data_maps.py:StructureMap._CompositeMapByteStream", "dtfabric/runtime/data_maps.py:StructureMap._LinearMapByteStream"]}
{"id": "C92", "title": "Structure groups can grow", "statement": "Two structure groups with the same base structure, identifier and default structure return the same value, record the same size and raise ByteStreamTooSmallError at the same time, at every place where no member that only one of them has lists the identifier read: the order of the members and members for other identifiers do not matter. A group without a default structure that is given more members maps everything it mapped before to the same value with the same size; with a default structure this fails for the identifiers of the new members.", "quantifier": "all pairs of structure groups that have maps, all byte streams, offsets, nesting depths and contexts", "why_tests_cant": "compares every pair of groups on every stream; tests look at one group", "anchors": ["dtfabric/runtime/data_maps.py:StructureGroupMap.MapByteStream", "dtfabric/runtime/data_maps.py:StructureGroupMap._GetMemberDataTypeMaps"]}
{"id": "C93", "title": "What FoldByteStream raises", "statement": "FoldByteStream of a map of any kind returns a byte string or raises FoldingError, as its documentation says. (This is false: a value of the wrong type for a stream or for padding raises TypeError, a size that cannot be evaluated raises MappingError, and UUIDs without byte order and sequences folded element by element give None. Nothing else is raised, and the claim holds for values in which streams and padding are byte strings and sizes can be evaluated.)", "quantifier": "all definitions that have a map and whose size expressions for streams and strings give no floating-point numbers, all values and context values", "why_tests_cant": "every kind of map, nested in any way, with every value of any type", "anchors": ["dtfabric/runtime/data_maps.py:StructureMap._CompositeFoldByteStream", "dtfabric/runtime/data_maps.py:StreamMap.FoldByteStream", "dtfabric/runtime/data_maps.py:StringMap.FoldByteStream", "dtfabric/runtime/data_maps.py:PaddingMap.FoldByteStream"]}
{"id": "C94", "title": "Only expressions see the values of the context", "statement": "MapByteStream and, with a context not used before, GetSizeHint depend on context.values only through the conditions and the expressions for sizes of the type itself and of the members of its structures, at any depth: contexts whose values give these expressions the same values give the same value or error and the same size; if expressions are evaluated by their names, contexts that agree on the names that occur in them do. A type without such expressions ignores the values. The expressions in the elements of a sequence and in the structures of a group do not see the values of the context at all, and the size hint of a structure or group does not depend on them before the first try.", "quantifier": "all definitions that have a map, all byte streams and offsets, all pairs of context values", "why_tests_cant": "compares all pairs of contexts; an expression of a nested type could pick up any name of the caller", "anchors": ["dtfabric/runtime/data_maps.py:StructureMap._CompositeMapByteStream", "dtfabric/runtime/data_maps.py:SequenceMap._CompositeMapByteStream", "dtfabric/runtime/data_maps.py:ElementSequenceDataTypeMap._EvaluateElementsDataSize", "dtfabric/runtime/data_maps.py:ElementSequenceDataTypeMap._EvaluateNumberOfElements", "dtfabric/runtime/data_maps.py:StructureMap.GetSizeHint"]}
{"id": "C95", "title": "Structures with padding have the size GetByteSize says where they are aligned", "statement": "When GetByteSize of a type with padding is n and every structure with padding in it, also as a member or an element, starts at an offset that is a multiple of the alignment sizes of its padding, MapByteStream takes exactly n bytes, gives no value from fewer and never raises ByteStreamTooSmallError with n or more. A structure with padding of its own only is aligned in this sense at every multiple of its alignment sizes, and a sequence of structures that end with padding wherever its first is. Elsewhere the sizes can differ, since GetByteSize counts padding from the beginning of the structure and MapByteStream from the beginning of the byte stream: at an odd offset, inside of another structure behind a byte, and for sequences of structures that do not end with padding.", "quantifier": "all types of fixed size with padding (declared sizes positive and not given twice), all byte streams, all offsets at which they are aligned, all contexts without unfinished state", "why_tests_cant": "quantifies over all nestings of structures with padding and all offsets; tests map single structures at offset 0, where the two ways of counting agree", "anchors": ["dtfabric/data_types.py:StructureDefinition.GetByteSize", "dtfabric/runtime/data_maps.py:PaddingMap._CalculatePaddingSize", "dtfabric/runtime/data_maps.py:PaddingMap.MapByteStream", "dtfabric/runtime/data_maps.py:StructureMap._CompositeMapByteStream"]}
{"id": "C96", "title": "Folding what was mapped", "statement": "If streams and strings do not give their sizes by expressions, FoldByteStream of an object that MapByteStream gave returns bytes or None or raises FoldingError, and nothing else; None only for types with UUIDs without byte order or with sequences folded element by element. For a type of fixed size mapped where it is aligned (see C95), the bytes are as many as were mapped, which is GetByteSize. With sizes that the values of the context give it can raise MappingError, and strings that end at a terminator before their fixed size raise FoldingError.", "quantifier": "all definitions (members with the same type name have the same type; terminators are byte strings), all byte streams, offsets and contexts without unfinished state, all objects that are mapped, all values given for folding", "why_tests_cant": "quantifies over every object that can be mapped by any nesting of types; tests fold single hand-made values", "anchors": ["dtfabric/runtime/data_maps.py:StructureMap.FoldByteStream", "dtfabric/runtime/data_maps.py:StructureMap.MapByteStream", "dtfabric/runtime/data_maps.py:StreamMap.FoldByteStream", "dtfabric/runtime/data_maps.py:StringMap.FoldByteStream", "dtfabric/runtime/data_maps.py:UUIDMap.FoldByteStream"]}
{"id": "C97", "title": "An object tells its bytes", "statement": "Two byte streams, or two places of one, that a map maps to the same object hold the same bytes there: the mapped sizes are equal and so are the mapped bytes, whatever the contexts. So no change of a mapped byte goes unnoticed. This holds for numbers, characters, booleans with a value for False and one for True, UUIDs with a byte order, padding, streams, strings of an encoding that decodes without loss and that are not cut before the end of their size, sequences and structures of these, members with conditions included, and structure groups of structures with different names; it does not hold for booleans that are True for every other number, UUIDs without byte order, strings cut at a terminator before their fixed size and sequences whose data size is no multiple of their element size.", "quantifier": "all data type definitions (members with the same type name have the same type) of these types, all pairs of byte streams, offsets and contexts without unfinished state, all objects (single precision NaNs excepted)", "why_tests_cant": "quantifies over pairs of byte streams and all nestings of types; tests map single byte streams and compare with one expected object", "anchors": ["dtfabric/runtime/data_maps.py:StructureMap.MapByteStream", "dtfabric/runtime/data_maps.py:SequenceMap.MapByteStream", "dtfabric/runtime/data_maps.py:StreamMap.MapByteStream", "dtfabric/runtime/data_maps.py:StringMap.MapByteStream", "dtfabric/runtime/data_maps.py:StructureGroupMap.MapByteStream", "dtfabric/runtime/data_maps.py:BooleanMap.MapValue"]}
{"id": "C98", "title": "Leaving out an attribute means its default", "statement": "An attribute for which the format specification names a default means the same when it is left out and when it is given with the default: byte_order native, size native, units bytes, format signed, false_value 0. The document is read to the same definition, or fails with the same error, and the definition of a document without the attribute holds the default. Known exceptions: a UUID without size has 16 bytes, with size native it has no size and is never mapped, and a format without attributes has no byte order.", "quantifier": "all documents of storage types, with any other attributes or none, all attributes with a documented default, all registries", "why_tests_cant": "quantifies over all documents and what they may contain besides; tests read a few documents and do not compare a document with the same one that spells out the defaults", "anchors": ["dtfabric/reader.py:DataTypeDefinitionsFileReader._ReadStorageDataTypeDefinition", "dtfabric/reader.py:DataTypeDefinitionsFileReader._ReadFixedSizeDataTypeDefinition", "dtfabric/reader.py:DataTypeDefinitionsFileReader._ReadIntegerDataTypeDefinition", "dtfabric/reader.py:DataTypeDefinitionsFileReader._ReadUUIDDataTypeDefinition", "dtfabric/reader.py:DataTypeDefinitionsFileReader._ReadFormatDataTypeDefinition", "docs/sources/Format-specification.md"]}
{"id": "C99", "title": "What the format specification requires is required", "statement": "A document that is accepted has every attribute the format specification requires of its type: name and type; the element data type and at least one of elements_data_size, elements_terminator and number_of_elements, and not both of the first and last; the encoding of strings; members; the value of constants; values of enumerations that each have name and number; base and members of families, and the identifier of groups. The same holds for every member of a structure or union, however nested: it has a name unless it is a union, exactly one of data_type and type, not both value and values, is no constant, enumeration, format or structure defined in place, and padding has an alignment size of 2, 4, 8 or 16. Known exceptions: a format without layout, padding in a union, and a structure group whose base is no structure are accepted.", "quantifier": "all documents and registries, all depths of nested unions", "why_tests_cant": "quantifies over all documents, nested to any depth; tests leave out single attributes of a few sample documents", "anchors": ["dtfabric/reader.py:DataTypeDefinitionsFileReader._ReadDefinition", "dtfabric/reader.py:DataTypeDefinitionsFileReader._ReadMemberDataTypeDefinitionMember", "dtfabric/reader.py:DataTypeDefinitionsFileReader._ReadElementSequenceDataTypeDefinition", "dtfabric/reader.py:DataTypeDefinitionsFileReader._ReadEnumerationDataTypeDefinition", "dtfabric/reader.py:DataTypeDefinitionsFileReader._ReadPaddingDataTypeDefinition", "dtfabric/reader.py:DataTypeDefinitionsFileReader._ReadFormatDataTypeDefinition", "dtfabric/reader.py:DataTypeDefinitionsFileReader._ReadStructureGroupDataTypeDefinition", "docs/sources/Format-specification.md"]}
{"id": "C100", "title": "The layout of a format is the one of its document", "statement": "After a definition file is read, CreateDataTypeMap gives for the name of each format in it a map whose layout lists the elements of the document's layout in their order, each with the data type and the offset written there (None when there is no offset), and that refuses to map byte streams. Only maps of formats have a layout. The data types named in a layout are not looked up: they may be unknown.", "quantifier": "all files read before, all definition files and all formats anywhere in them, all layouts", "why_tests_cant": "quantifies over all files and layouts; tests read one format with one element", "anchors": ["dtfabric/runtime/data_maps.py:FormatMap.layout", "dtfabric/runtime/data_maps.py:FormatMap.MapByteStream", "dtfabric/runtime/data_maps.py:DataTypeMapFactory.CreateDataTypeMap", "dtfabric/reader.py:DataTypeDefinitionsFileReader._ReadFormatLayout", "dtfabric/reader.py:DataTypeDefinitionsFileReader._ReadFormatDataTypeDefinition"]}
{"id": "C101", "title": "A structure folds to the bytes of its members", "statement": "FoldByteStream of a structure value gives the bytes that the map of each member gives for that member's value, one after another in the order of the definition; members that are None give no bytes. FoldByteStream of a sequence of numbers gives the bytes the map of its elements gives for each value, one after another, if the number of values is right. That a structure of primitive members is packed in one go is not observable.", "quantifier": "all structures and sequences, all values, all contexts", "why_tests_cant": "an equivalence of two code paths for all definitions and values; tests fold a few fixed objects", "anchors": ["dtfabric/runtime/data_maps.py:StructureMap._CompositeFoldByteStream", "dtfabric/runtime/data_maps.py:StructureMap._LinearFoldByteStream", "dtfabric/runtime/data_maps.py:SequenceMap._LinearFoldByteStream", "dtfabric/runtime/data_maps.py:PrimitiveDataTypeMap.FoldByteStream"]}
{"id": "C102", "title": "Changing one member changes its bytes only", "statement": "If two objects of a structure differ in one member only, and expressions that give the sizes of other members have the same values for both, then FoldByteStream gives for both the same bytes before and after those of that member, and in between the bytes that member's map gives for its value (none if it is None); it gives bytes for the second object exactly if that member folds. For an object that was mapped and that folds back (C31), all bytes but those of the member are the ones of the byte stream. A scalar takes the same number of bytes whatever its value, so the other members stay in place.", "quantifier": "all structures (packed in one go: of numbers in the structure's byte order and with no member None), all members of them, all pairs of objects", "why_tests_cant": "a relation between the results for all pairs of objects", "anchors": ["dtfabric/runtime/data_maps.py:StructureMap._CompositeFoldByteStream", "dtfabric/runtime/data_maps.py:StructureMap._LinearFoldByteStream", "dtfabric/runtime/data_maps.py:StreamMap.FoldByteStream", "dtfabric/runtime/data_maps.py:PrimitiveDataTypeMap.FoldByteStream"]}
{"id": "C103", "title": "Records written one after another are read back", "statement": "If values that agree with a type are folded one by one, each to some bytes, and these are put one after another anywhere in a byte stream, then mapping the type at the first and then each time where the value before ended (as the context's byte size tells) gives the values again, in order, and ends where the bytes end; no other values can be read so. A sequence of that number of elements of that type maps the same bytes to the same values, with the size of all bytes, and so does a terminated sequence if only the last value equals the terminator and a sequence given by the size of these bytes; this holds even where FoldByteStream of the sequence itself gives None.", "quantifier": "all types (the members of a structure have different types only under different names), all numbers of values, all bytes before and after", "why_tests_cant": "any number of records of any type", "anchors": ["dtfabric/runtime/data_maps.py:DataTypeMap.FoldByteStream", "dtfabric/runtime/data_maps.py:DataTypeMap.MapByteStream", "dtfabric/runtime/data_maps.py:SequenceMap._CompositeMapByteStream", "dtfabric/runtime/data_maps.py:SequenceMap._LinearMapByteStream"]}
{"id": "C104", "title": "The names of members are only names", "statement": "If the members of the structures in a definition get other names, different ones for different members, and the identifiers of structure groups and all expressions that mention them are rewritten to go with it, then mapping any byte stream gives the same value as before but for the names of the attributes, with the same size in the context, or the same error; folding a value with the other names gives the same bytes or the same error; and the size of the definition is the same.", "quantifier": "all definitions whose structures have no member called super or like the structure, no structure given in place, and different types only under different names; all injective renamings for which both maps exist; all byte streams, offsets, values and contexts", "why_tests_cant": "all definitions, renamings and byte streams; the cases in which a name matters (the identifier of a group, an expression, a class that hides its own name) are singular", "anchors": ["dtfabric/runtime/data_maps.py:StructureMap._CompositeMapByteStream", "dtfabric/runtime/data_maps.py:StructureMap._LinearMapByteStream", "dtfabric/runtime/data_maps.py:StructureMap._CompositeFoldByteStream", "dtfabric/runtime/data_maps.py:StructureGroupMap.MapByteStream", "dtfabric/runtime/runtime.py:StructureValuesClassFactory.CreateClass"]}
{"id": "C105", "title": "Supported values only reject", "statement": "Allowing the members of structures more values (a longer list of supported values, or none), except for the identifiers of the members of structure groups, changes neither whether a map can be created nor what folding and GetSizeHint give. What the stricter definition maps, the other maps to the same value with the same size; what the other maps or rejects, the stricter one maps or rejects in the same way, or with a MappingError. A structure maps a byte stream exactly if it does without the supported values of its members and every member has one of its supported values, or has a condition and is absent.", "quantifier": "all definitions in which the members of a structure have different types only under different names, at any nesting; for the last sentence members with supported values are neither UUIDs nor structure groups; all byte streams, offsets, depths, values and contexts", "why_tests_cant": "all definitions, lists of values and byte streams; the check is made in two places, in the middle of reading, and must not affect the members after it", "anchors": ["dtfabric/runtime/data_maps.py:StructureMap._CompositeMapByteStream", "dtfabric/runtime/data_maps.py:StructureMap._LinearMapByteStream", "dtfabric/runtime/data_maps.py:StructureMap._GetMemberDataTypeMaps"]}
{"id": "C106", "title": "A member can be left as bytes and mapped later", "statement": "A structure can be declared with a stream of bytes of given data size in place of the type of one of its members. If it can be mapped, and the bytes of that member can be mapped on their own with the map of the type (taking all of them), the structure with the type maps the same byte stream to the same object with that value in place of the bytes, and with the same size. Conversely, if the structure with the type can be mapped and the type has a fixed size, which is the data size of the stream, the other structure maps to the same object with bytes in place of the value, and mapping those bytes on their own gives the value. A member that is absent in one is absent in the other. Folding is alike: an object with a value for the member, and the object with the bytes this value folds to on its own in its place, fold to the same bytes.", "quantifier": "all structures, positions of the member, conditions and supported values; all types that have a byte order of their own (or the structure has none), no alignment, no expressions that use the structure around them, and values that depend on their own bytes only (C62), nested at most ten levels; the expressions of later members do not use the member; members have different types only under different names and one byte order (C16); all byte streams, offsets and context values; for folding, all objects that agree in the other attributes and sizes of streams, and structures with at least one member that is no number", "why_tests_cant": "all types, structures and byte streams; reading within a structure and reading a slice on its own differ in offset, depth, context values and byte order", "anchors": ["dtfabric/runtime/data_maps.py:StructureMap._CompositeMapByteStream", "dtfabric/runtime/data_maps.py:StructureMap._GetMemberDataTypeMaps", "dtfabric/runtime/data_maps.py:StreamMap.MapByteStream"]}
{"id": "C107", "title": "A part can be read on its own at its place", "statement": "When the members before a member of a structure have fixed sizes and no conditions, the member is at a fixed place: the sum of those sizes after the start of the structure. Element i of a sequence of elements of a fixed size is i times that size after the start of the sequence. Following a path of such members and elements, through structures within structures and sequences, the places add up. If the whole can be mapped, the map of the type of the part, used at that place of the same byte stream, gives the same value as the part of the whole, and does not go beyond the bytes of the whole. A path of attributes leads to a part of every value that is mapped.", "quantifier": "all definitions and paths of any length; the types of members have a byte order of their own (or the structure has none) and no expressions that use the structure around them, elements are read in their own byte order; members have different types only under different names and one byte order (C16); nesting of at most eleven levels; all byte streams, offsets and context values; sequences sized in any way", "why_tests_cant": "all definitions, paths and byte streams; reading a part on its own differs in depth, context values and map object from reading it within the whole", "anchors": ["dtfabric/runtime/data_maps.py:StructureMap._CompositeMapByteStream", "dtfabric/runtime/data_maps.py:StructureMap._LinearMapByteStream", "dtfabric/runtime/data_maps.py:SequenceMap.MapByteStream", "dtfabric/data_types.py:StructureDefinition.GetByteSize"]}
{"id": "C108", "title": "None means absent", "statement": "In an object that was mapped, an attribute is None exactly if the member has a condition and the condition is false for the members before it. No byte stream is mapped to None, and no element of a sequence is None.", "quantifier": "all definitions, byte streams, offsets, nesting depths and context values; members have different types only under different names and one byte order (C16)", "why_tests_cant": "all types, conditions and byte streams", "anchors": ["dtfabric/runtime/data_maps.py:StructureMap._CompositeMapByteStream", "dtfabric/runtime/data_maps.py:UUIDMap.MapByteStream", "dtfabric/runtime/data_maps.py:StructureGroupMap.MapByteStream"]}
{"id": "C109", "title": "It does not matter by which of its names a type is referred to", "statement": "A definition file may refer to a type by its name, by its name in other case or by an alias: as data_type of a member, element_data_type of a sequence, stream or string, base or default of a group or family, or as one of their members. If such names are replaced by others that stand for the same definition where the document is read, the file is read without error exactly if it was before, the same names are known afterwards, and what they stand for maps the same byte streams to the same values, folds the same values to the same bytes and has the same sizes.", "quantifier": "all definition files, sequences of files and names that stand for the same definition at that point; the names of types and descriptions do not break the generated class (as in C81)", "why_tests_cant": "all files, types and names", "anchors": ["dtfabric/registry.py:DataTypeDefinitionsRegistry.GetDefinitionByName", "dtfabric/reader.py:DataTypeDefinitionsReader._ReadMemberDataTypeDefinitionMember", "dtfabric/reader.py:DataTypeDefinitionsReader._ReadElementSequenceDataTypeDefinition", "dtfabric/reader.py:DataTypeDefinitionsReader._ReadStructureGroupDataTypeDefinition"]}
{"id": "C110", "title": "Sections are only headings", "statement": "Adding, removing or renaming sections among the members of structures and unions, and of unions within them, changes neither whether a definition file is read without error nor anything that is known afterwards but the sections themselves: names, sizes, maps, values and bytes are the same. A list of members must not become empty or cease to be.", "quantifier": "all definition files, and registries they are read into", "why_tests_cant": "all files", "anchors": ["dtfabric/reader.py:DataTypeDefinitionsReader._ReadDataTypeDefinitionWithMembers", "dtfabric/data_types.py:DataTypeDefinitionWithMembers.AddSectionDefinition", "dtfabric/data_types.py:DataTypeDefinitionWithMembers.AddMemberDefinition"]}
{"id": "C111", "title": "Definitions that tell their byte orders mean the same on every platform", "statement": "If a definition tells the byte order of every number of several bytes, by the number itself or by the structure or sequence it is in, then its map gives the same values, errors and contexts, and folds to the same bytes, on a little-endian and on a big-endian platform. Reading definition files, creating maps and size hints do not depend on the platform at all.", "quantifier": "all such definitions, byte streams, offsets, contexts, values and both byte orders of the platform", "why_tests_cant": "tests run on one platform", "anchors": ["dtfabric/runtime/data_maps.py:StorageDataTypeMap", "dtfabric/runtime/data_maps.py:StructureMap._CheckLinearMap", "dtfabric/runtime/data_maps.py:StructureMap._GetMemberDataTypeMaps", "dtfabric/runtime/byte_operations.py:StructOperation"]}
{"id": "C112", "title": "A byte order left open everywhere is that of the platform", "statement": "A definition that leaves all byte orders open means what it means with the byte order of the platform written everywhere: it has the same size, creating a map fails in both cases or in none, and the maps map, fold, hint sizes and create structure values alike. UUIDs are excepted: with an open byte order their value is None.", "quantifier": "all definitions without UUIDs, all byte streams, offsets, contexts and values, both byte orders of the platform", "why_tests_cant": "all definitions, and platforms the tests do not run on", "anchors": ["dtfabric/runtime/data_maps.py:StorageDataTypeMap.GetStructByteOrderString", "dtfabric/runtime/data_maps.py:StructureMap._CheckLinearMap", "dtfabric/runtime/data_maps.py:StructureMap._GetMemberDataTypeMaps", "dtfabric/runtime/data_maps.py:ElementSequenceDataTypeMap._GetElementDataTypeDefinition", "dtfabric/runtime/byte_operations.py:StructOperation"]}
{"id": "C113", "title": "The notation of values and numbers does not matter", "statement": "Reading files gives the same definitions, or fails in both cases, when a member has `value: v` instead of `values: [v]` (for any v other than null), and when an elements_data_size or number_of_elements is written as another value that stands for the same number, such as a number in quotes.", "quantifier": "all documents and files, at any depth of members, any number of such changes, all registries", "why_tests_cant": "the test data has a few documents in one of the notations each; that no other combination of keys makes a difference needs all documents", "anchors": ["dtfabric/reader.py:DataTypeDefinitionsReader._ReadMemberDataTypeDefinitionMember", "dtfabric/reader.py:DataTypeDefinitionsReader._ReadElementSequenceDataTypeDefinition"]}
{"id": "C114", "title": "Changing the bytes of one member or element changes that one only", "statement": "When a structure is mapped and one of its members is present, that member has a place in the byte stream, within the bytes of the structure. Putting other bytes of the same number there, which the type of the member maps to a (supported) value w, makes MapByteStream give the same object with w for that member and the same size; provided that the expressions of later members do not look at the member, and that the types of the members depend on their own bytes only. The same holds for an element of a sequence with a given number of elements, for one of a sequence with a terminator as long as the new value is the terminator if and only if it is the last, and for one of a sequence with a data size; if the elements of the latter have no fixed size but a terminator, the new value must not be the terminator unless it is the last, and the last must be it unless the elements fill the data size.", "quantifier": "all structures, members, sequences, elements, byte streams, offsets, new bytes, values and outer namespaces; members and elements may be of variable size, members may have conditions", "why_tests_cant": "every pair of a structure and a change of its bytes is a different case; tests map a few byte streams and never compare two that differ in one member", "anchors": ["dtfabric/runtime/data_maps.py:StructureMap._CompositeMapByteStream", "dtfabric/runtime/data_maps.py:StructureMap._LinearMapByteStream", "dtfabric/runtime/data_maps.py:StructureMap.MapByteStream", "dtfabric/runtime/data_maps.py:SequenceMap._CompositeMapByteStream"]}
{"id": "C115", "title": "The mapped bytes are exactly those that are needed", "statement": "When MapByteStream gives a value and reports n bytes in context.byte_size, n is the number of bytes needed: the same byte stream cut off after k bytes from the offset gives the same value and size if k >= n and raises ByteStreamTooSmallError if k < n, never another error or another value. So truncated data is always noticed, and no mapped bytes are the beginning of the bytes of another value.", "quantifier": "all definitions with full-width terminators (C12, C13; for k >= n also those of C62), byte streams, offsets, contexts without unfinished state, and all places to cut", "why_tests_cant": "all places where a byte stream can be cut, for all types and contents; tests cut a few byte streams by one byte", "anchors": ["dtfabric/runtime/data_maps.py:DataTypeMap.MapByteStream and all overrides", "dtfabric/errors.py:ByteStreamTooSmallError"]}
{"id": "C116", "title": "A mapped value has the shape of its type", "statement": "Whatever the bytes are, a value that MapByteStream gives has the shape that the definition says. An integer of n bytes is in the range of signed or unsigned integers of n bytes, a boolean is True or False, a character of n bytes is a text of one character with a code below 2^(8n-1), a UUID consists of 16 bytes (or, if the definition leaves its byte order open, may be None), padding is shorter than the alignment size, a stream is bytes, as many as a constant data size says, a string is a text, and a sequence is a tuple of values of the shape of its element type, as many as a constant number of elements says unless a data size or terminator ends it. A structure is an object, of the class of its name unless it is part of another type and leaves its byte order open, with exactly one attribute for each member, by its name and in order; a member without a condition is never absent; the attribute of a member that is not absent has the shape of the member type and, if the member lists supported values, is one of these; the attribute of an absent member is None. A value of a structure group has the shape of one of its members or of its default.", "quantifier": "all definitions whose members of different types have types of different names, byte streams, offsets, and contexts without unfinished state", "why_tests_cant": "an invariant of the values over all types of any nesting and all contents, that code using the values relies on without checking; tests compare single values", "anchors": ["dtfabric/runtime/data_maps.py:DataTypeMap.MapByteStream and all overrides", "dtfabric/runtime/runtime.py:StructureValuesClassFactory"]}
{"id": "C117", "title": "Values and bytes of types of a fixed size correspond one to one", "statement": "For types of a fixed size, made of integers, double precision numbers, characters, booleans with both values, UUIDs, streams with a constant data size, sequences with a constant number of elements and structures of members without conditions, exactly the values of the shape of the type (C116) occur: for each of them there are bytes that MapByteStream maps to it wherever they are in a byte stream, reporting their number as size, and there is only one such sequence of bytes (for types with floating-point numbers: unless one of these is a NaN that conversion to single precision and back does not keep).", "quantifier": "all such types in which UUIDs and structures tell their byte order, not nested deeper than the recursion limit, and all values of their shape", "why_tests_cant": "all values of all such types: that none is unreachable and none is reached by two byte sequences", "anchors": ["dtfabric/runtime/data_maps.py:DataTypeMap.MapByteStream and all overrides"]}
{"id": "C118", "title": "The order of keys in definition files does not matter", "statement": "Two definition files that differ only in the order in which the keys of definitions, their attributes, members, enumeration values and layout elements are written are read alike: reading both succeeds, or raises the same error that names the same definition; the registry is the same afterwards, also after an error. So both make the same types, and the validator says the same of both. (The order of members does matter.)", "quantifier": "all definition files, valid or not, all orders of the keys of each mapping, all registries read into", "why_tests_cant": "all files and all permutations of keys at every level", "anchors": ["dtfabric/reader.py:YAMLDataTypeDefinitionsFileReader.ReadFileObject", "dtfabric/reader.py:DataTypeDefinitionsFileReader._Read*Definition", "dtfabric/scripts/validate_definitions.py:DefinitionsValidator.CheckFile"]}
{"id": "C119", "title": "Definitions nothing refers to can be left out and put in", "statement": "If a definition file was read, and no definition after a definition refers to it by its name or one of its aliases, then the file without that definition is read, too, and gives exactly the other definitions, unchanged. Conversely a valid definition with a new name and new aliases can be put anywhere in a file that is read, if the definitions after it do not use them; nothing else changes. Either way every name that is not a name or alias of the definition gives the same definition and the same data type map.", "quantifier": "all files and all files read before, all positions in the file, all definitions of all types, all names", "why_tests_cant": "all files, all definitions and all names", "anchors": ["dtfabric/reader.py:YAMLDataTypeDefinitionsFileReader.ReadFileObject", "dtfabric/registry.py:DataTypeDefinitionsRegistry.RegisterDefinition", "dtfabric/registry.py:DataTypeDefinitionsRegistry.GetDefinitionByName", "dtfabric/runtime/data_maps.py:DataTypeMapFactory.CreateDataTypeMap"]}
{"id": "C120", "title": "Rows are the elements cut into rows, and a data size is a number of elements", "statement": "A sequence of j rows, each a sequence of k elements (k not 0), can be mapped exactly if the sequence of all j * k elements can; its value is the values of that sequence cut into rows of k, and it takes the same number of bytes. A sequence of elements of a fixed size that is given by its data size maps the same byte streams, to the same values, as the one that is given by the number of elements that fit into the data size. (Rows without elements are not nothing: they have to begin within the byte stream.)", "quantifier": "all element types, byte orders, numbers of rows and elements given as numbers or expressions, byte streams, offsets and contexts without state", "why_tests_cant": "all element types, sizes and byte streams", "anchors": ["dtfabric/runtime/data_maps.py:SequenceMap._CompositeMapByteStream", "dtfabric/runtime/data_maps.py:SequenceMap._LinearMapByteStream", "dtfabric/runtime/data_maps.py:SequenceMap.MapByteStream"]}
{"id": "C121", "title": "Data types other than structures can be renamed throughout a definition file", "statement": "If in a definition file data types and their aliases get other names, everywhere the file mentions them, such that names that were different stay different (also without regard to case) and structures keep their names, then the file is read without error exactly if the original is, also after other files whose types keep their names. What the old name stood for the new name then stands for: either both are unknown or they are definitions that are the same to a user (same sizes, maps, values, errors), with the new name and the new aliases.", "quantifier": "all environments, all definition files read before, all definition files of any documents and all renamings that keep names apart; the names of types and descriptions do not break the generated class (as in C81)", "why_tests_cant": "all definition files and all renamings; a lookup that confuses two names shows only with particular names", "anchors": ["dtfabric/reader.py:YAMLDataTypeDefinitionsFileReader.ReadFileObject", "dtfabric/reader.py:DataTypeDefinitionsReader._ReadDefinition", "dtfabric/registry.py:DataTypeDefinitionsRegistry.RegisterDefinition", "dtfabric/registry.py:DataTypeDefinitionsRegistry.GetDefinitionByName", "dtfabric/runtime/data_maps.py:DataTypeMapFactory.CreateDataTypeMapByType"]}
{"id": "C122", "title": "A type is defined once", "statement": "If a document of a definition file has, in whatever case, the name of a definition of the files read before or of a document before it in the file, or is named like an alias of a definition of the files before, then reading the file raises, and neither that document nor any after it is registered, whatever else the documents say. So a file of which at least one definition was registered, even if reading it raised, cannot be read again, at once or after other files: reading it again raises and leaves the registry as it is. (Aliases are compared as they are written: a type may be named like an alias in another case.)", "quantifier": "all files and sequences of files, all positions in the file, all names", "why_tests_cant": "all files and all histories of files", "anchors": ["dtfabric/reader.py:YAMLDataTypeDefinitionsFileReader.ReadFileObject", "dtfabric/registry.py:DataTypeDefinitionsRegistry.RegisterDefinition"]}
{"id": "C123", "title": "The order of supported values, enumeration values, aliases and group members does not matter", "statement": "Definitions of any types that differ only in the order (or repetition) of the supported values of members give data type maps or errors alike, and the maps map the same byte streams to the same values with the same sizes, raise the same errors, fold the same values to the same bytes and give the same size hints. The document of an enumeration with its values in another order is read exactly if the first is, and enumerations with the same values name every number the same, in whatever order the values were added. Definitions with the same aliases in another order are registered or rejected alike, and afterwards the same names stand for them. A structure group with its members in another order has a map exactly if the first has, and the maps return the same values, record the same sizes and ask for more data alike.", "quantifier": "all definitions in which the members of a structure have different types only under different names (for supported values, with the lists of the identifiers of groups unchanged), contexts without state, byte streams, offsets, mapped values; all documents of enumerations and orders of their values, all histories of AddValue; all files and definitions; all structure groups and orders of their members", "why_tests_cant": "all definitions, orders and byte streams", "anchors": ["dtfabric/runtime/data_maps.py:StructureMap._CompositeMapByteStream", "dtfabric/runtime/data_maps.py:StructureMap._LinearMapByteStream", "dtfabric/runtime/data_maps.py:EnumerationMap.GetName", "dtfabric/data_types.py:EnumerationDefinition.AddValue", "dtfabric/reader.py:DataTypeDefinitionsReader._ReadEnumerationDataTypeDefinition", "dtfabric/registry.py:DataTypeDefinitionsRegistry.RegisterDefinition"]}
{"id": "C124", "title": "Integers of different sizes and signs agree", "statement": "The same bytes mapped as a signed and as an unsigned integer of n bytes give the same number if it is less than half of 256^n, and otherwise numbers that differ by 256^n; both fold to those bytes. An integer of 2n bytes is its low half, mapped as unsigned, plus 256^n times its high half, mapped with the sign of the whole; the low half is the first in little-endian and the second in big-endian byte order. Unsigned integers in big-endian byte order are in the order of their bytes: of two, the smaller number is the one whose bytes come first in dictionary order (not so in little-endian byte order). A sequence of a number of signed integers is mapped exactly if the sequence of that number of unsigned integers is, and its numbers are related in the same way.", "quantifier": "all sizes (1, 2, 4, 8), byte orders, platforms, byte streams, offsets and contexts", "why_tests_cant": "2^64 values and all positions; relates different data type maps to each other", "anchors": ["dtfabric/runtime/data_maps.py:IntegerMap", "dtfabric/runtime/data_maps.py:PrimitiveDataTypeMap.MapByteStream", "dtfabric/runtime/data_maps.py:PrimitiveDataTypeMap.FoldByteStream", "dtfabric/data_types.py:IntegerDefinition"]}
{"id": "C125", "title": "A terminator, a number of elements and a data size agree", "statement": "A sequence that ends with a terminator maps to some elements exactly if the sequence declared with that number of elements does, and the last of them, and no other, equals the terminator; both take the same bytes. The same holds for the sequence declared with the size of these bytes, if elements have a fixed size above zero. For elements without fixed size that end with a terminator of their own and always take bytes, the sequence with a number of elements and the one with the size of their bytes as data size give the same as long as no element before the last equals the terminator of the elements (streams that consist of their terminator only do, and end the latter early). A stream that ends with a terminator gives exactly what the stream of that data size gives, if the terminator is at the end of these bytes and not before, and likewise a string, if it keeps its terminator (without it the text ends with the terminator).", "quantifier": "all element types, names, byte orders, byte streams, offsets, contexts without unfinished state, terminators, lists of elements, sizes given as numbers or as expressions; nesting within the limit", "why_tests_cant": "relates different definitions to each other on all byte streams", "anchors": ["dtfabric/runtime/data_maps.py:SequenceMap._CompositeMapByteStream", "dtfabric/runtime/data_maps.py:SequenceMap._LinearMapByteStream", "dtfabric/runtime/data_maps.py:StreamMap.MapByteStream", "dtfabric/runtime/data_maps.py:StringMap.MapByteStream", "dtfabric/runtime/data_maps.py:ElementSequenceDataTypeMap"]}
{"id": "C126", "title": "Members of definition files get their own types unless one declared in place is called like a data type", "statement": "Read definition files in which no member of a top level list of members that is declared in place (with a type of its own) has the name of a data type of the files, and no such name starts with an underscore. Then in every structure that is registered, or part of a registered definition, members whose types have the same name have the same type; so the i-th data type map of the map of every such structure is the map of the type of its i-th member in the byte order of the member, and every value mapped with a registered data type has the shape its definition declares, and a value that fits a registered data type and is folded is mapped back. The condition is needed: a stream of three bytes declared in place under the name of an integer type used by another member is accepted, and mapped as one integer.", "quantifier": "all lists of definition files with any documents, also those that fail to be read; all registered definitions; byte streams, offsets, contexts without unfinished state", "why_tests_cant": "all definition files; a condition on files, checked by reading them, that makes every structure in them safe", "anchors": ["dtfabric/reader.py:DataTypeDefinitionsReader._ReadMemberDataTypeDefinitionMember", "dtfabric/reader.py:DataTypeDefinitionsReader._ReadDataTypeDefinitionWithMembers", "dtfabric/runtime/data_maps.py:StructureMap._GetMemberDataTypeMaps"]}
{"id": "C127", "title": "Characters, booleans, floating-point numbers and UUIDs are what the integers at their place say", "statement": "A character is the one with the number that a signed integer of the same size and byte order reads at the same place; if the number is negative or above 0x10FFFF mapping fails, and a character is folded to the bytes its number is folded to as that integer. A boolean compares the number that the unsigned integer reads with its values for false and true, first false; if it is neither, the result is the one that has no value (false if both have none), and an error if both have one. It is folded to the bytes its value for false or true is folded to as that integer, and fails to fold if there is none. The bits of a floating-point number are the number that the unsigned integer reads, for single precision before conversion to double precision. The first four, next two and next two bytes of a UUID are the digits, most significant first, of the integers of these sizes in the byte order of the UUID, and its last eight bytes are those of the byte stream. A sequence of a number of characters, booleans or floating-point numbers is mapped exactly if the sequence of that number of integers is mapped to numbers each of which stands for such a value, and gives these values; both take the same bytes.", "quantifier": "all sizes the types can have, byte orders (for UUIDs little-endian and big-endian), values for false and true, byte streams with enough bytes, offsets, contexts, characters and booleans folded; for sequences also all numbers of elements given as numbers or expressions, contexts without unfinished state, nesting within the limit", "why_tests_cant": "relates different types on all byte streams; the values are too many to enumerate", "anchors": ["dtfabric/runtime/data_maps.py:CharacterMap", "dtfabric/runtime/data_maps.py:BooleanMap", "dtfabric/runtime/data_maps.py:FloatingPointMap", "dtfabric/runtime/data_maps.py:UUIDMap.MapByteStream", "dtfabric/runtime/data_maps.py:PrimitiveDataTypeMap.MapByteStream", "dtfabric/runtime/data_maps.py:SequenceMap._LinearMapByteStream"]}
