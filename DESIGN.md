# Formal model of dtfabric in Lean 4

Source: /repo (libyal/dtfabric), read as text. Lean 4.33.0. No own axioms, no
`sorry`, no `native_decide`/`bv_decide`. Every theorem depends at most on
`propext`, `Classical.choice` and `Quot.sound`.

## Trusted base

* Lean's kernel and the three standard axioms above.
* The transcription from Python to Lean. Every definition of the model cites
  the file and lines it transcribes; simplifications are named there and
  collected in "Not modelled" below.
* The abstract Python environment `Env` (module `Verif/Py.lean`): expression
  evaluation (`eval`), expression syntax checking, codecs, float conversions,
  Unicode predicates, `str.lower`. It is a parameter of all definitions, so a
  theorem holds for every behaviour of these primitives; where a law is needed
  (for instance "decoding then encoding gives the same bytes") it is an explicit
  hypothesis of the theorem. For the float conversions and four
  codecs `Float` and `Text` give the concrete functions (`Ieee E`, `Uses E enc K`), so
  that the laws are proved there instead of assumed.

## What is modelled

| Lean module | Python source |
|---|---|
| `Py` | values, literals, exceptions, `==`, truthiness, dictionaries, `Env` |
| `Struct` | the subset of Python `struct` used: format strings, pack, unpack |
| `Defs` | `data_types.py`: definition classes, GetByteSize, IsComposite |
| `Builder` | AddMemberDefinition, AddSectionDefinition, GetMemberDefinitionByName, byte size cache, families and groups under construction, AddValue |
| `Heap` | definition objects that refer to each other, their kept sizes (`_byte_size`), AddMemberDefinition, GetByteSize; the limit on recursion of the interpreter is not modelled |
| `Registry` | `registry.py`, lookups of the map factory |
| `Fabric` | `runtime/fabric.py` |
| `Runtime` | `runtime/runtime.py`: validation, the text of the class, how Python reads its documentation, instance creation |
| `Maps` | `runtime/data_maps.py`: data types, map construction |
| `Accessors` | the layout of a format map |
| `MapStream` | MapByteStream of every map class, with contexts |
| `Fold` | FoldByteStream of every map class, CreateStructureValues |
| `Hint` | GetSizeHint of every map class |
| `Reader` | `reader.py` on parsed YAML values |
| `Validator` | `scripts/validate_definitions.py`, with glob and fnmatch |

Lemma modules (no model code, no property):

| Lean module | Content |
|---|---|
| `Spec`, `SpecLemmas` | numbers denoted by bytes, windows of a byte string |
| `PyLemmas`, `StructLemmas`, `PrimLemmas`, `ReaderLemmas` | facts about the model modules |
| `Parse`, `Refine` | the context-free parser and its equality with MapByteStream |
| `ParseFacts`, `ParseShift`, `ParseSize` | bounds, extension, offsets, sizes of `parse` |
| `Every` | predicates on every part of a definition or map, transfer through creation |
| `Layout`, `Elements`, `Linear`, `Loop`, `Depth` | structures, sequences, the linear path, loops, nesting |
| `RoundTrip`, `FoldMap` | folding what was mapped, mapping what was folded |
| `Float` | the IEEE conversions between single and double precision CPython uses |
| `Text` | the codecs ASCII, UTF-8, UTF-16-LE and UTF-16-BE of CPython |
| `HintFacts`, `Resume` | size hints before and after a failure, resumed calls |
| `ParseLocal`, `Bounds` | which bytes `parse` looks at, least and greatest sizes |
| `ClassText` | the documentation of a class as a Python literal: quotes, escape sequences |
| `Orders` | maps that differ only in byte orders that are not used, and definitions with the byte orders that count written out |
| `Rename`, `RenameCreate`, `RenameFold`, `RenameArith` | definitions, maps, values and expressions whose members got other names |
| `Loosen` | Definitions and maps whose members may have more values: creation, reading, folding (C105) |
| `Respell` | Documents that refer to types by other names (C109) |
| `Platform` | Maps that do not depend on the byte order of the platform (C111) |
| `Native` | Definitions and maps with one byte order everywhere (C112) |
| `Schema`, `SchemaMap`, `SchemaFold` | a language of types of fixed size, its meaning, and its definitions and maps |
| `Variable`, `VariableMap`, `VariableFold`, `Arithmetic` | a language of types whose size depends on the data, its meaning, its definitions and maps; expressions as Python text |
| `Location` | the reader once more, with the names in its errors and the first words of a FormatError; proved to be `Reader` without them |
| `VariableOpen` | the same with scalars and UUIDs that leave out the byte order; in a record they take that of the record (`within`), by C75 |
| `VariableParts`, `ResumeDefs` | which of these types can be read by size hints (C29) and piece by piece (C30) |

The property theorems are in `Verif/Props`, one file per group of properties;
each file holds the specifications its theorems are stated with (namespace
`Dtf.Spec`), helper lemmas and examples. Theorem names begin with the id of the
property; `_partial` marks a part of a claim, `_refuted` a proved
counterexample.

`Verif/Conformance` holds no proofs: there the definition files of /repo/test_data
(`Files`) and the assertions of the tests in /repo/tests (`Maps`, `Reader`), some 330
of them, are evaluated on the model with `#guard`, so that the build fails when the
model and the recorded behaviour of the Python code differ. They test the model; no
claim rests on them.

Exceptions are values of type `Err`; `Err.diverge` stands for "does not
terminate" and is never caught. A context object is the record `Ctx`; calls
return the result together with the updated context, also on exceptions,
because callers can observe a context after an exception.

## Not modelled

* YAML parsing (the reader model starts at the parsed values), opening files
  (`ReadFile`), logging texts and exception messages (only the exception class; of a
  FormatError of the reader also the definition it names, C76).
* Documents with values a definition record cannot carry: names that are no text,
  sizes that are floats, ... (reported as `Err.other`; no theorem says anything
  about them except that they are not accepted with a wrong definition).
* Expressions with side effects: an assignment expression (`:=`) in a number of elements stores
  into the values of the context. `Env.evalExpr` only gives the value.
* Negative `byte_offset`; byte streams that are not `bytes`.
* Data sizes of sequences that are fractions, infinite or NaN, and size hints of sequences whose
  number of elements is; folding and size hints with
  sizes of streams and strings that are floating-point numbers (reported as `Err.other`).
* Attributes of built-in objects passed as mapped values to FoldByteStream.
* What a text does that is run as code because a description ends the literal it is
  put into (`Err.other`; C68). Names are taken to be NFKC-normalised; a null character
  in the text of a class is a SyntaxError (before Python 3.12 a ValueError); warnings
  about unknown escape sequences are ignored.
* Reuse of a context holding the unfinished state of a different map.
* Sizes above the platform `Py_ssize_t` maximum.
* Changing a definition after it was registered or after a map was made from it;
  in particular the stale byte size cache of a structure whose member grew later.
* Deprecation warnings (`decorators.py`); that a deprecated method also changes the filter for
  such warnings of the whole process.
* The validator's logging, command line and `.`/`..`/symbolic links in paths.

## Approach per property

The central proof device is a context-free parser `parse` (module `Spec`),
proved equal to the context-threading model of MapByteStream for every context
without unfinished state (`Refine`). Properties of mapping are proved by
induction over data type maps on `parse` and transferred.

Python's `==` between a value and a literal is the model function `pyEq` (and
`litEq` between two literals). Property statements do not use them: module
`Equality` states equality as the relations `Equals` and `Alike` (same text, same
bytes, or numbers denoting the same quantity, where a Boolean denotes 0 or 1 and a
double its exact binary fraction) and proves the model functions decide them. A
wrong edit of the comparison of a double with an integer, which no theorem noticed
before, now breaks `pyEq_iff`.

| Id | Model | How proved |
|---|---|---|
| C01 | primitive map on integers | positional notation by induction on bytes |
| C02 | primitive fold | inverse lemmas pack/unpack; range characterisation |
| C03 | BooleanMap.MapValue/FoldValue | case analysis over the optional numbers |
| C04 | CharacterMap | sign-bit arithmetic |
| C05 | FloatingPointMap | bit round trip; 4-byte with conversion law as hypothesis, discharged in C60 |
| C06 | UUIDMap | list algebra on 16 bytes |
| C07 | unpack, pack | reversal lemmas (mapping in `Props/Primitive.lean`, folding in `Props/Duality.lean`) |
| C08 | GetByteSize | equality with a declarative layout specification |
| C09 | builder state machine | invariant over operation histories |
| C10 | create + MapByteStream | induction over definitions |
| C11 | same | induction, both directions |
| C12 | parse bounds | induction |
| C13 | parse extension | induction |
| C14 | parse shift | induction |
| C15 | refinement theorem | corollary |
| C16 | structure loop | equivalence with an inductive layout relation |
| C17 | sequence loop | equivalence with an inductive chain relation |
| C18 | structure loop | part of the layout relation |
| C19 | structure loop | invariant |
| C20 | StreamMap | case analysis |
| C21 | StreamMap terminator search | loop invariant, first-occurrence specification |
| C22 | StringMap | loop invariant |
| C23 | PaddingMap, StructureMap | arithmetic; in a structure with C16 (`C23_member`) |
| C24 | creation, linear check | refuted with witness; partial under agreement |
| C25 | linear vs composite | simulation |
| C26 | error classes | induction; partial for `Reliable` definitions; 8 witnesses |
| C27 | recursion depth | induction |
| C28 | loop adequacy | measure argument; two witnesses that never end: a terminator only, a number of elements that is a fraction |
| C29 | GetSizeHint | induction on hint progress; partial for `HintedTypes`, including groups without default as the outermost type; 9 witnesses |
| C30 | resume | simulation of resumed calls; partial for `Resumable`; 3 witnesses |
| C31 | fold of map | induction over `Foldable`; 3 witnesses |
| C32 | fold errors | case analysis; witness: UUID in native order |
| C33 | StructureGroupMap | case analysis + creation invariant |
| C34 | semantic, format, group | case analysis |
| C35 | AddValue histories | invariant |
| C36 | factory | case analysis |
| C37 | member map cache | refuted with witness; partial under no name clash |
| C38–C40 | registry | invariants over histories; alias part refuted + partial |
| C41–C45 | reader | post-conditions over all YAML values; C41, C45 partial with witnesses |
| C46, C47 | class factory | case analysis, list lemmas |
| C48 | validator | induction over the file list; 2 witnesses |
| C49 | contexts | refuted with witness; partial |
| C50 | reader boolean | refuted with witness; partial at the defaults |
| C51 | own-name expressions | refuted with witness; partial |
| C52 | sections | invariant |
| C53 | format strings | parser/printer round trip; witness: remainder of a data size |
| C54 | `_ReadDefinition` | equivalence with a relational specification of the format |
| C55 | ReadFileObject histories | equivalence with a specification without a registry |
| C56 | later files | names proved, aliases refuted + partial |
| C57 | document order | exchange of neighbours, by locality of `_ReadDefinition` |
| C58 | StreamMap/StringMap fold | case analysis; mapping back by C20–C22 |
| C59 | all fold and map methods | `Fits` (FoldMap.lean) says when a value agrees with a type; induction over the map, then over the members |
| C60 | FloatingPointMap, 4 bytes | IEEE conversions on bit patterns (Float.lean); nearest single by rounding on the grid of a binade |
| C61 | StringMap with ASCII, UTF-8, UTF-16 | the codecs (Text.lean) are inverse to each other; induction over the text; C21, C22, C58 |
| C62 | all MapByteStream methods | the context-free parser reads the reported bytes only (ParseLocal.lean), by induction over the map; the conditions follow from the declared sizes by C63 |
| C63 | all MapByteStream methods | `fewest` and `greatest` (Bounds.lean) are computed from the definition; induction over the definition |
| C64 | all MapByteStream methods with a context | case analysis of the map: every assignment to the state is followed by ByteStreamTooSmallError or success, except the member identifier of a group |
| C65 | DataTypeFabric, reader, registry, map creation, mapping, folding | `Ty.read` says what a declaration means with nothing of the model; the file is a `Library` (C55), its definitions are `tyDefn`, whose maps are computed by induction over the type; folding through C31's `fold_back` |
| C66 | definition objects in a heap, GetByteSize, AddMemberDefinition | measure on open sizes and positions for termination; invariant over histories: a rank decreases along references and every size kept is that of the unfolded definition; witness without the condition |
| C67 | map creation | induction over definitions in both directions; format strings, class texts and the cache of maps are eliminated by lemmas; the faults are an inductive predicate |
| C68 | the text of a class | the text is cut into pieces that start and end with plain characters; `Stays` and `Legal` are inductive descriptions of Python literals, proved equal to the scanner |
| C69 | builder state machines of structures, unions, families and groups | induction over histories from the end |
| C70 | reader, map creation | the faults of C67 that survive what C41 proves of the reader; a file for every mistake that remains |
| C71 | DataTypeFabric, reader, registry, map creation, expressions, mapping | `VTy.read` says what a declaration means, with the records around it as a scope; the namespace of an expression agrees with the scope (`Agrees`), by induction over the type; `Arithmetic` is what is asked of Python's `eval` for expressions whose text Python accepts (`Accepted`: it has limits on length and nesting), met by `arithEnv`, whose parser is proved to give back every expression; padding depends on the position in the stream, so `VTy.read` has the size of the stream as an argument; lists (`elements_data_size` of a sequence) are read by number if the elements have a fixed size, else until the size is covered (`covering`); every type has its byte order, those left out are filled in by the record (`within`, `Filled`) and do not change the map by C75 |
| C72 | DataTypeFabric, reader, registry, map creation, expressions, folding | bytes that mean a value by `VTy.read` are what it is folded to; the namespace of folding holds the finished record only, expressions over fields read before have the same value in it (`value_own`, `agrees_record`), by induction over the type |
| C73 | validator entry point | the exit status is decided by the lookup of the path and the check; a file list passes exactly when every file does, whatever is raised, by induction; 1 witness |
| C74 | StructureValuesClassFactory._CreateClassTemplate | the text is the join of lines given by `ClassLines`; `sortLines` gives a sorted permutation, by induction |
| C75 | map creation, mapping, folding, size hints | a relation between maps (`SameMap`) that mapping, folding and hints respect, by induction over maps; creation of a definition and of the settled one gives related maps, by induction over definitions |
| C76 | reader errors with names | every raise carries a name; which one is shown by induction over the nesting of unions |
| C77 | DataTypeFabric, reader, registry, map creation, expressions, mapping, size hints | the definitions of the types are those of C29 (`byHints_hinted`, by induction over the type); with C71. `Strict`: Python has no number for an expression that needs names (`Expr.NeedsNames`) as long as they have no numbers, met by `arithEnv` |
| C78 | DataTypeFabric, reader, registry, map creation, expressions, mapping with a context | the maps of the types are those of C30 (`piecewise_resumable`, by induction over the type); with C71 |
| C79 | map creation, sequence, stream, string, structure and group maps, evaluation of lengths | by induction over the two definitions (`resized_same`): a sequence read at once gives what reading it element by element gives (`linear_seq_iff`, C25), and that is a function of the values of the lengths. False for a data size that is no multiple of the element size (`C79_refuted`), for the errors of sequences (`C79_errors_refuted`), and for the elements of a sequence with a data size, whose size must be known (`C79_elements_refuted`); the recursion limit is only checked element by element, hence at most eleven levels (`C79_depth_refuted`); streams cannot be cut with a floating-point number that sequences accept (`C79_float_refuted`) |
| C80 | MapByteStream of every map class | case analysis (`atOnce_requested`): types read at once set the size before they check it. False for scalars (set after the check, `C80_scalar_refuted`), for types read part by part (never set, `C80_structure_refuted`) and for terminated streams (`C80_terminator_refuted`); `C80_left` proves what these leave |
| C81 | `createAs`, `createClass` and all maps | induction over the definition (`createAs_relabelled`) in terms of `SameMap`, the relation of C75; `Relabelled` is an inductive relation stated without the model's functions. Witnesses that the conditions are needed: `C81_types`, `C81_structure`, `C81_quiet`, `C81_identifier`; `C81_named` is the case of one member given by the name of its type |
| C82 | reader, registry, DataTypeFabric | `Reworded` relates YAML documents (order of keys, descriptions, urls); by induction over documents and nested members, reading related documents gives the same error or definitions that are equal once all descriptions are removed (`readDefinition_reworded`), hence `Relabelled` (C81). Descriptions that are no text are outside the model |
| C83 | `createAs`, `parse`, structure maps | splitting the layout of C16 (`layout_append`); a map depends on the names of the structures around it only through the values of its own expressions (`createAs_unmoved`, induction over definitions), so added attributes that no expression notices (`Unnoticed`) do not matter. False where C24 is (`C83_refuted`) |
| C84 | `createAs`, `parse`, structure maps | the layout of C16 split at the moved members and each part moved to the other structure (`layout_move`): by `createAs_unmoved` (C83), `parse_free` (C27) and `createAs_renamed` (the name of a map matters only for structures). `C84_noticed` and `C84_shown` show that the conditions are needed |
| C85 | sequence maps, both readings | the loop over the elements is equivalent to `Reads`, a list of steps (`seqParse_of_reads`, `reads_of_seqParse`); the reading in one go is equivalent to the loop (`linear_seq_iff`). `C85_behind` shows that empty elements behind the last byte are rejected |
| C86 | `VTy.read`, and maps by C71 | an outcome other than too few bytes is kept under more bytes (`vty_steady`); bytes to append exist, constructed by induction over the type (`vty_fillable`). `C86_never` shows a type outside these files with no such bytes |
| C87 | stream and sequence maps, both readings | the outcome of the sequence map equals that of the stream map with bytes read as numbers (`asNumbers`); from C20, C21 and C85, and induction over the loop for the failures |
| C88 | FoldByteStream of every map, GetByteSize | refuted (members that are None, padding and unions are left out without an error); for complete values (`Complete`) by induction over definitions, members by `foldMembers_folds` |
| C89 | MapByteStream of sequences and structures | C85 gives the elements of the sequence as `Readable`, `struct_parse_iff` the members as `Layout`; the maps of a member and of an element give the same (`member_element`); C89_empty_refuted and C89_order_refuted show why elements need bytes and byte orders have to be handed on alike |
| C90 | MapByteStream of sequences | C85 gives the elements as `Readable`, which splits at any element; elements of fixed size take it exactly (`parse_exact`); `C90_terminated`, `C90_data_size` and `C90_stream` in `Props/Piecewise.lean` |
| C91 | MapByteStream of structures | `Turnout` is the outcome of the conditions; by induction over the members the layouts of all members and of those present agree (`layout_chosen`) |
| C92 | MapByteStream of structure groups, creation of their maps | from the dispatch of C33: both groups pass on the same call; identifier values of a group that has a map are pairwise different, so that the position of a member does not matter |
| C93 | FoldByteStream of every map | `Suited` is a value of the right kind, `Measured` a size that can be told; induction over definitions with the maps of the members (`createMembers_mapOf`); the classes of errors by induction over maps |
| C94 | `parse` of every map, `sizeHint` | `createAs_unmoved` (C83) and the refinement of `mapStream` by `parse`; `ByNames` is the assumption on the evaluator that a value depends on the names of the expression only |
| C95 | GetByteSize, MapByteStream | `parse_aligned`, the induction behind C10 and C11: `Aligned` says by divisibility where structures with padding start; padding counted from the structure and from the byte stream are then equal (`paddingSize_aligned`). Witnesses for the other offsets |
| C96 | MapByteStream and FoldByteStream of every map | what is mapped meets the conditions of C93 (`parsed_suited`) and of C88 (`parsed_complete`), by induction over definitions |
| C97 | MapByteStream of every map | a function from objects to bytes that undoes mapping, by induction over maps (`telling_undoes`); it needs neither context nor offset, since members that are not there are `None` and the class name of an object tells the member of a group; `C97_boolean`, `C97_cut`, `C97_uuid` and `C97_rest` show what is left out |
| C98 | readers of the storage types | the document with the attribute added (`withAttribute`) is read the same, errors included; `C98_holds_partial` from C54; `C98_uuid_refuted`, `C98_format_refuted` show where the documented default is not the one of the reader | `Props/Defaults.lean` |
| C99 | readers of all types and of members | `TypeRequired` and `MemberRequired` say what the specification asks for; from C54, nested unions by induction on depth; `C99_layout_refuted`, `C99_padding_refuted`, `C99_group_refuted` | `Props/Required.lean` |
| C100 | FormatMap.layout, CreateDataTypeMap, _ReadFormatLayout | from C54 and C55 (`found`: the name of a document finds what it describes); `C100_unknown`: data types of a layout are not looked up | `Props/FormatLayout.lean` |
| C101 | FoldByteStream of structures and sequences | `Joined`: the bytes of the members one after another; induction over the members, both directions; the linear path is packing the same values; `C101_boolean_refuted`, `C101_none_refuted`, `C101_order_refuted` | `Props/FoldParts.lean` |
| C102 | FoldByteStream of structures | from C101, splitting the members before and after the changed one; `fold_alone`: a member depends on the object only through the expressions giving its size; `C102_mapped` with C31 | `Props/Patch.lean` |
| C103 | FoldByteStream and MapByteStream of the same map, sequences | induction over the values with `fold_forth` (C31); sequences with C85; uniqueness by induction on the reading | `Props/Records.lean` |
| C104 | creation, MapByteStream and FoldByteStream of all maps | `Renaming.defn`, `renamed`, `Rewritten` state the renaming without the model's functions; by induction over definitions the map created from the renamed definition is the renamed map up to names of types (`createAs_renaming`), by induction over maps mapping and folding commute with renaming (`parse_renamed`, `fold_renamed`); `follows_expr`, `follows_test`: all expressions of `arithEnv` can be rewritten | `Props/Names.lean` |
| C105 | creation, MapByteStream and FoldByteStream of all maps | `Loosened` relates two definitions that differ in supported values only; by induction over definitions the maps are related by `Looser` (`createAs_loosened`), and by induction over that relation reading gives the same or a mapping error (`parse_looser`) and folding and size hints the same (`fold_looser`, `sizeHint_looser`); `C105_exact`: with C19, a structure maps exactly if it does without the lists and the values are in them; `C105_none_refuted` shows why UUIDs with supported values are left out there | `Props/Loosen.lean` |
| C106 | StructureMap, StreamMap and the map of the type of the member | over the layouts of C16: the value of one member is replaced in a layout (`layout_exchange`), and the type maps the same bytes within the structure and on their own (`Detachable.apart`, from C13, C14, C62 and the depth lemma `parse_free`); `C106_folded` does the same for folding over the parts of C101; `C106_noticed` and `C106_order` show that the conditions on expressions and byte order are needed | `Props/Postpone.lean` |
| C107 | creation and MapByteStream of structures, sequences and the types within them | `Place` relates a definition, a path of attributes and elements, the offset of the part and its type; by induction over it, with the layouts of C16 and the fixed sizes of C10 for a member (`member_place`) and C17 for an element (`elements_at`); `parse_free` for the depth and `createAs_unmoved` for the context | `Props/Places.lean` |
| C108 | MapByteStream of all maps | no map but that of a UUID gives `None` (`parse_present`), groups give what their members or default give (`definite_parse`); over the layouts of C16 an attribute is `None` exactly if its condition is false; `C108_refuted`: a UUID without byte order | `Props/Absent.lean` |
| C109 | reader, registry | `Respelled` relates documents that differ in the names of types referred to; with C54 (a document is read exactly if it describes a definition) reading related documents fails in both cases or gives definitions that differ in these names only (`describes_respelled`); the registries stay alike (`RespeltRegistry.register`), and C81 makes the definitions interchangeable | `Props/Respell.lean` |
| C110 | reader | `Headed` relates documents that differ in headings of sections; with C54 both are read as the same definition, or neither is (`describes_headed`, by induction over nested members). Definitions in the model do not carry their sections (C52 is about these), as nothing outside `data_types.py` reads them | `Props/Headings.lean` |
| C111 | creation, mapping, folding, hints | `E.on little` is `E` on another platform; `Portable` follows the byte orders through structures, sequences and groups as they are used; the maps of such definitions only have operations that are not in native order or only read single bytes (`Free`, `createAs_free`), and these give the same on all platforms (induction over maps); `C111_files`: the reader function by function; `C111_refuted`: a structure without byte order with a little-endian member | `Props/Platform.lean` |
| C112 | creation, mapping, folding, hints | `d.inOrder o` writes the byte order `o` everywhere; its map is the map of `d` with `o` everywhere (`createAs_inOrder`, by induction over definitions, through the cache of member maps), and two maps that differ in byte orders that are the same on the platform read and write alike (`mapStream_little`, `fold_little`); `C112_uuid`, `C112_other` show that the exception and the platform matter | `Props/Native.lean` |
| C113 | reader, registry | `Noted` relates documents with `value: v` and `values: [v]` in members, and sizes given by values that stand for the same number; what a document describes (C54) is the same for both, by induction over the depth of members; `C113_null`: null is no value, but a list with null is a list of values | `Props/Notation.lean` |
| C114 | maps of structures | the layout of a structure (C16) is split at the member; the members before and after read the same bytes (C62), in a namespace that differs in a value no expression of theirs looks at; `C114_overwritten` for types that mean the same on their own; `C114_element`, `C114_terminated`, `C114_data_size` and `C114_variable` for elements of sequences (C85); `C114_noticed`: a member a condition looks at changes others | `Props/Overwrite.lean` |
| C115 | MapByteStream | a byte stream cut off within the mapped bytes that gave a value or another error would give the same with the rest appended (C13), with the same size, which does not fit (C12); more bytes than needed by C62; `C115_short_terminator`: not for terminators shorter than an element | `Props/Cut.lean` |
| C116 | MapByteStream, all maps | separate inductive specification `Shaped` of the values of a type; induction on the definition, sequences by `seq_parse`, structures by C16 (`layout_of_members`) and, read at once, by `linearValues` | `Props/Shapes.lean` |
| C117 | MapByteStream of types of a fixed size | `Rigid` types; the bytes of a value of the shape (C116) are put together from those of its members and elements, which `C16_complete` and C85 map to it; only one by C97 | `Props/Occur.lean` |
| C118 | ReadFileObject, CheckFile | `Reordered` documents: mappings without equal keys, permuted at every level where the reader looks keys up; every function of the reader gives the same result, errors included | `Reorder.lean`, `Props/KeyOrder.lean` |
| C119 | ReadFileObject, GetDefinitionByName, CreateDataTypeMap | `library_insert`: with and without a document no later document `Refers` to, by induction over the documents after it with the registries that hold both lists | `Props/Unused.lean` |
| C120 | SequenceMap.MapByteStream | from C85: the elements read one after another by rows and by elements (`readable_rows`), up to a position and up to the data size | `Props/Rows.lean` |
| C121 | ReadFileObject, RegisterDefinition, GetDefinitionByName, map creation | from C54 and C55: what a document describes (`Describes`) when the names and the lookup are renamed alike (`describes_retyped`), then C81 for the definitions | `Retype.lean`, `Props/Retype.lean` |
| C122 | ReadFileObject, RegisterDefinition | from C44 and C55: the accepted documents and the definitions correspond by name, and each definition was fresh (`loaded_titled`) | `Props/Again.lean` |
| C123 | map creation, MapByteStream and FoldByteStream of all maps; AddValue, GetName; RegisterDefinition | `Shuffled` definitions are `Loosened` in both directions, so C105 applies twice; permutations of the values of a document by C54; aliases by C55; groups by what creating their maps needs (`createGroup_iff`) and C92 | `Props/ListOrder.lean` |
| C124 | IntegerMap, MapByteStream and FoldByteStream of primitive maps | from C01 and C02: positional notation of the halves (`stored_halves`), the only number of a range with a remainder (`signed_unique`), dictionary order by induction over the bytes; sequences element by element with C85 | `Props/IntegerKin.lean`, `Props/KindRows.lean` |
| C125 | maps of sequences, streams and strings | both sides by what C85 says sequences map to: elements that take bytes begin before the end of the data size (`readable_narrow`, C63), elements of a fixed size take their number times it; streams by C20 and C21; strings by the same scan for the terminator | `Props/HowLong.lean` |
| C126 | reader, registry, maps of structures | invariant of reading documents one after the other (`OwnReg`): registered definitions have names of documents, at most one per name; the type of a member is registered or was declared in place under the name of the member (`readMember_type`), and names of members are unique. Then C37 and C116 | `Props/OwnTypes.lean` |
| C127 | maps of primitives and UUIDs | both sides by what C01, C03, C04 and C06 say about the bytes; folding by the code both types are packed with; sequences element by element with C85 | `Props/Kinds.lean`, `Props/KindRows.lean` |

## Where the code disagrees with what a user would expect

Each entry is a proved counterexample (`_refuted`) unless noted.

| Claim | What happens |
|---|---|
| C24 | a structure read with one struct operation ignores the byte order its members declare |
| C26 | maps from accepted files raise TypeError, ValueError or AttributeError |
| C28 | a terminated sequence, or one whose number of elements is a fraction, of elements that take no bytes never ends |
| C29 | GetSizeHint counts conditional members that are absent; it never grows for groups as members; it uses the base instead of the default of a group; for a group with a context that has mapped another value it gives the size of that value; wide terminators; padding in inner structures is aligned from their start; where an element ends it asks for the size of that element once more; a data size that is no multiple of the size of the elements counts in full |
| C30 | a resumed sequence reports its total size, so the next member is misread; padding and groups go wrong too |
| C31 | linear structures fold booleans without FoldValue; composite sequences fold to None; cut strings do not fold |
| C32 | a UUID in native byte order maps and folds to None |
| C37 | two member types of one name share the first one's map |
| C40 | deregistering a definition keeps its aliases |
| C41 | a structure with only sections is registered without members |
| C45 | some documents of the prescribed types raise AttributeError, TypeError, UnicodeEncodeError or a YAML error |
| C76 | a member with a misspelt type is named in place of the definition (dtfabric/reader.py:746 passes `name`, and is outside of the `try` that adds the definition) |
| C48 | a directory name with glob characters: no file is checked and success is reported |
| C73 | a directory name with glob characters: exit status 0 although a file in it is invalid |
| C49 | an element count expression leaves `__builtins__` in the caller's values |
| C50 | `false_value` and `true_value` are accepted and ignored |
| C51 | a structure nested in one with a byte order is renamed, its expressions fail |
| C53 | the format string of a sequence drops the remainder of a data size |
| C56 | an alias is taken over by a later definition with that name in another case |
| C62 | elements that take no bytes are mapped only if a byte follows them; a group needs all bytes of its base even if the member chosen is smaller |
| C64 | StructureGroupMap.MapByteStream stores member_identifier in the state before it looks up the member. If the lookup or the mapping of the member then fails, later records mapped with that context are refused or mapped as the wrong structure. |
| C66 | the size a structure keeps is not dropped when a structure in it gets another member |
| C67 | map creation is documented to raise FormatError only; a sequence of enumeration values, which the reader accepts, raises AttributeError (`C67_format_refuted`) |
| C68 | descriptions go into the class text as they are: one with three quotes is run as code (`C68_code_refuted`), one with a path such as `C:\Users` makes map creation raise SyntaxError (`C68_path_refuted`) |
| C70 | padding with a condition is accepted by the reader, but creating a map of the structure raises TypeError; a group of families is accepted and raises AttributeError (`C70_each`) |
| C79 | see the table above: a data size that is no multiple of the element size, and the errors of a sequence, make the two ways of giving a length differ |
| C80 | scalars, types read part by part and terminated streams do not leave the requested size in the context when bytes are missing |
| C88 | members that are None, unions and padding of the wrong length are folded without an error to fewer bytes than GetByteSize |
| C93 | FoldByteStream raises TypeError and MappingError besides the documented FoldingError, and returns None |
| C95 | GetByteSize counts padding from the beginning of the structure, MapByteStream from the beginning of the byte stream (`C95_unaligned`, `C95_inside`, `C95_rows`) |
| C98 | the format specification says that the size is native by default; a UUID has 16 bytes by default, and with size `native` can never be mapped; a format without attributes has no byte order |
| C99 | a format without `layout`, padding in a union and a group whose base is an integer are accepted against the format specification |
| C101 | a structure of primitive members is packed without the maps of its members: booleans are packed as 0 and 1, characters and members that are `None` make it fail, and a member's byte order is not respected when the structure has none |
| C108 | a UUID without a byte order, in a structure without one, is there but is mapped to None |
| C111 | a structure without byte order that has primitive members only is read in the byte order of the platform, even where its members are declared little- or big-endian |

The statements of C10, C13–C16, C18, C19, C22, C25, C28 and C43 were made precise
after the first draft: the provisos in them are the cases where the first
wording was false.
