import Verif.Maps
/-!
MapByteStream of every data type map, dtfabric/runtime/data_maps.py.

A call takes a context and returns the result together with the context as the
caller sees it afterwards. `context=None` in Python behaves like a fresh context
that is thrown away.
-/
namespace Dtf

/-- DataTypeMapContext, dtfabric/runtime/data_maps.py:17-37. The entries of the
dictionary `state` are fields; `none` is "no such key". The key `mapped_values`
holds a list in sequence maps and an object in structure maps and is split in
two fields. The sub context of a structure is stored without the entry for the
structure object itself, which Python keeps as a reference and the model
recomputes from `mappedStruct`; an entry `__builtins__` left in it by a member is
dropped, every evaluation sets it again (`withBuiltins`). -/
structure Ctx where
  byteSize : Option Nat := none
  requestedSize : Option Int := none
  attributeIndex : Option Nat := none
  sub : Option Ctx := none
  elementIndex : Option Nat := none
  elementsDataOffset : Option Nat := none
  elementsDataSize : Option Int := none
  mappedTuple : Option (List Val) := none
  mappedStruct : Option (List (String × Val)) := none
  numberOfElements : Option Int := none
  membersDataSize : Option Int := none
  memberIdentifier : Option Val := none
  values : Namespace := []

/-- `context.state = {}`. -/
def Ctx.clear (c : Ctx) : Ctx :=
  { byteSize := c.byteSize, requestedSize := c.requestedSize, values := c.values }

/-- Result of a call that can raise. -/
abbrev Res := Except Err Val × Ctx

/-! ### Primitive maps -/

/-- MapValue: dtfabric/runtime/data_maps.py:323-335, 396-420 (boolean), 458-470
(character). `none` is `ValueError`. -/
def mapValue (k : PrimKind) (v : Val) : Option Val :=
  match k with
  | .boolean f t =>
    if (match f with | some f => pyEq v (.int f) | none => false) then some (.bool false)
    else if (match t with | some t => pyEq v (.int t) | none => false) then some (.bool true)
    else if f.isNone then some (.bool false)
    else if t.isNone then some (.bool true)
    else none
  | .character =>
    match v with
    | .int i => if 0 ≤ i ∧ i ≤ 0x10FFFF then some (.str [i.toNat]) else none
    | _ => none
  | .floatingPoint | .integer _ => some v

/-- The `try` block of PrimitiveDataTypeMap.MapByteStream,
dtfabric/runtime/data_maps.py:309-311; `none` is any exception. -/
def primRead (E : Env) (o : Order) (k : PrimKind) (s : Size) (bs : Bytes) : Option Val :=
  match primCode k s with
  | none => none
  | some c => if bs.length < c.size then none else mapValue k (unpackOne E o c (bs.take c.size))

/-- StorageDataTypeMap._CheckByteStreamSize, dtfabric/runtime/data_maps.py:148-169:
whether the byte stream is too small. -/
def tooSmall (bs : Bytes) (off : Nat) (size : Int) : Bool := (bs.length : Int) - off < size

/-- PrimitiveDataTypeMap.MapByteStream, dtfabric/runtime/data_maps.py:286-321.
An unknown size is a `TypeError` of the comparison in line 166. -/
def primMap (E : Env) (h : Hdr) (k : PrimKind) (s : Size) (u : String)
    (bs : Bytes) (off : Nat) (ctx : Ctx) : Res :=
  match fixedByteSize s u with
  | none => (.error .type, ctx)
  | some n =>
    if tooSmall bs off n then (.error .tooSmall, ctx)
    else
      let ctx := { ctx with byteSize := none, requestedSize := some n }
      match primRead E h.order k s (bs.drop off) with
      | none => (.error .mapping, ctx)
      | some v => (.ok v, { ctx with byteSize := some n.toNat })

/-- `uuid.UUID(bytes_le=...)`: the first three fields byte-reversed. -/
def uuidSwap (b : Bytes) : Bytes :=
  (b.take 4).reverse ++ ((b.drop 4).take 2).reverse ++ ((b.drop 6).take 2).reverse ++ b.drop 8

/-- UUIDMap.MapByteStream, dtfabric/runtime/data_maps.py:568-609. `uuid.UUID`
needs exactly 16 bytes. With native byte order the value is `None`. -/
def uuidMap (h : Hdr) (s : Size) (u : String) (bs : Bytes) (off : Nat) (ctx : Ctx) : Res :=
  match fixedByteSize s u with
  | none => (.error .type, ctx)
  | some n =>
    if tooSmall bs off n then (.error .tooSmall, ctx)
    else
      let ctx := { ctx with byteSize := none, requestedSize := some n }
      let b := slice bs off (off + 16)
      match h.order with
      | .native => (.ok .pyNone, { ctx with byteSize := some n.toNat })
      | .big =>
        if b.length = 16 then (.ok (.uuid b), { ctx with byteSize := some n.toNat })
        else (.error .mapping, ctx)
      | .little =>
        if b.length = 16 then (.ok (.uuid (uuidSwap b)), { ctx with byteSize := some n.toNat })
        else (.error .mapping, ctx)

/-- PaddingMap._CalculatePaddingSize, dtfabric/runtime/data_maps.py:1395-1410. -/
def calcPadding (alignment : Option Nat) (off : Int) : Except Err Int :=
  match alignment with
  | none => .error .type
  | some 0 => .error .zeroDiv
  | some (a + 1) => .ok (paddingSize off (a + 1))

/-- PaddingMap.MapByteStream, dtfabric/runtime/data_maps.py:1467-1499. -/
def paddingMap (alignment : Option Nat) (bs : Bytes) (off : Nat) (ctx : Ctx) : Res :=
  match calcPadding alignment off with
  | .error e => (.error e, ctx)
  | .ok n =>
    let ctx := { ctx with byteSize := none, requestedSize := some n }
    if tooSmall bs off n then (.error .tooSmall, ctx)
    else (.ok (.bytes (slice bs off (off + n.toNat))), { ctx with byteSize := some n.toNat })

/-! ### Element sequences -/

/-- The check of an evaluated size, dtfabric/runtime/data_maps.py:702-711,
741-750. A `bool` is an `int`; comparing other objects with a number is a
`TypeError`, hence an invalid value. A floating-point number is accepted: a
sequence only compares it with, or divides it by, whole numbers, so a whole one acts as the
integer (quotients of sizes above `2 ^ 53` are rounded by Python, which no byte
stream is long enough to notice); for others see `countable`, and `sliceErr` for streams and
strings. Folding with such a size or its size hint are not modelled: `Err.other`. -/
def checkSize (kind : SeqKind) (v : Option Val) : Except Err Int :=
  match v with
  | some (.int i) => if i < 0 then .error .mapping else .ok i
  | some (.bool b) => .ok (boolInt b)
  | some (.float b) =>
    match fVal b with
    | .fin u =>
      if u < 0 then .error .mapping
      else if kind = .sequence ∧ u % 2 ^ 1074 = 0 then .ok (u / 2 ^ 1074)
      else .error .other
    | .inf true => .error .mapping
    | .inf false | .nan => .error .other
  | _ => .error .mapping

/-- The expression to evaluate: an empty text is not compiled and leaves the
value `None`, dtfabric/runtime/data_maps.py:629-639. -/
def evalSize (E : Env) (kind : SeqKind) (x : Option String) (ns : Namespace) : Except Err Int :=
  match x with
  | some s => if s == "" then .error .mapping
    else
      match E.evalExpr s (withBuiltins ns) with
      | none => .error .mapping
      | some v => checkSize kind (some v)
  | none => .error .mapping

/-- ElementSequenceDataTypeMap._EvaluateElementsDataSize,
dtfabric/runtime/data_maps.py:672-711. -/
def evalDataSize (E : Env) (info : SeqInfo) (ns : Namespace) : Except Err Int :=
  if truthyInt info.dataSize then checkSize info.kind (info.dataSize.map .int)
  else evalSize E info.kind info.dataSizeExpr ns

/-- ElementSequenceDataTypeMap._EvaluateNumberOfElements,
dtfabric/runtime/data_maps.py:713-750. -/
def evalNumElements (E : Env) (info : SeqInfo) (ns : Namespace) : Except Err Int :=
  if truthyInt info.numElements then checkSize info.kind (info.numElements.map .int)
  else evalSize E info.kind info.numElementsExpr ns

/-- The values of the caller's context after _EvaluateNumberOfElements: an
evaluated expression leaves `__builtins__` in them,
dtfabric/runtime/data_maps.py:729-733. -/
def valuesAfterNum (info : SeqInfo) (ns : Namespace) : Namespace :=
  if truthyInt info.numElements then ns
  else if truthyStr info.numElementsExpr then withBuiltins ns
  else ns

/-- _HasElementsDataSize, dtfabric/runtime/data_maps.py:805-813. -/
def SeqInfo.hasDataSize (i : SeqInfo) : Bool := i.dataSize.isSome || i.dataSizeExpr.isSome

/-- _HasNumberOfElements, dtfabric/runtime/data_maps.py:823-831. -/
def SeqInfo.hasNumElements (i : SeqInfo) : Bool :=
  i.numElements.isSome || i.numElementsExpr.isSome

/-- ElementSequenceDataTypeMap._CalculateElementsDataSize,
dtfabric/runtime/data_maps.py:641-670, with the context values afterwards. -/
def calcDataSize (E : Env) (info : SeqInfo) (ei : ElemInfo) (ctx : Ctx) :
    Except Err (Option Int) × Ctx :=
  if truthyInt ctx.elementsDataSize then (.ok ctx.elementsDataSize, ctx)
  else if info.hasDataSize then
    match evalDataSize E info ctx.values with
    | .error e => (.error e, ctx)
    | .ok n => (.ok (some n), ctx)
  else if info.hasNumElements then
    match ei.byteSize with
    | none => (.ok ctx.elementsDataSize, ctx)
    | some es =>
      match ctx.numberOfElements with
      | some n => (.ok (some (n * es)), ctx)
      | none =>
        let ctx' := { ctx with values := valuesAfterNum info ctx.values }
        match evalNumElements E info ctx.values with
        | .error e => (.error e, ctx')
        | .ok n => (.ok (some (n * es)), ctx')
  else (.ok ctx.elementsDataSize, ctx)

/-- Python `bytes == terminator`. -/
def isTerm (b : Bytes) (t : Lit) : Bool := pyEq (.bytes b) t

/-- Outcome of the terminator search of StreamMap.MapByteStream. -/
inductive Scan
  | found (size : Nat)
  | notFound (scanned : Nat)
  | emptyMatch
  | diverge
deriving DecidableEq, Repr

/-- The `while` loop in dtfabric/runtime/data_maps.py:1362-1376. `cur` is
`elements_data_offset`, `next` is `next_elements_data_offset`, both relative to
`byte_offset`, `bs` the stream from `byte_offset` on. Running out of fuel means
the loop does not advance (element size 0). `emptyMatch` is the case that the
stream ended without match but the empty rest equals the terminator. -/
def scanTerm (bs : Bytes) (es : Nat) (t : Lit) : Nat → Nat → Nat → Scan
  | 0, _, _ => .diverge
  | fuel + 1, cur, next =>
    let ev := slice bs cur next
    if cur < bs.length then
      if isTerm ev t then .found next
      else scanTerm bs es t fuel next (next + es)
    else if isTerm ev t then .emptyMatch
    else .notFound cur

/-- What mapping makes of a size that is a floating-point number: slicing with it is a
`TypeError`, dtfabric/runtime/data_maps.py:1389; if the stream is shorter, writing it
into the message with `:d` is a `ValueError` (lines 1345-1350), which is not told
apart. -/
def sliceErr : Err → Err
  | .other => .type
  | e => e

/-- StreamMap.MapByteStream, dtfabric/runtime/data_maps.py:1313-1389. After an
exception for a floating-point size the context is left as it was, where Python may
have stored that size in it. -/
def streamMap (E : Env) (info : SeqInfo) (ei : ElemInfo) (bs : Bytes) (off : Nat) (ctx : Ctx) :
    Except Err Bytes × Ctx :=
  match calcDataSize E info ei ctx with
  | (.error e, ctx) => (.error (sliceErr e), ctx)
  | (.ok size, ctx) =>
    let ctx := { ctx with byteSize := none, requestedSize := size }
    match size with
    | some n =>
      if tooSmall bs off n then (.error .tooSmall, { ctx with elementsDataSize := some n })
      else
        (.ok (slice bs off (off + n.toNat)), { ctx with byteSize := some n.toNat }.clear)
    | none =>
      match info.terminator with
      | none => (.error .mapping, ctx)
      | some t =>
        match ei.byteSize with
        | none => (.error .type, ctx)
        | some es =>
          match scanTerm (bs.drop off) es.toNat t (bs.length - off + 2) 0 es.toNat with
          | .found n => (.ok (slice bs off (off + n)), { ctx with byteSize := some n }.clear)
          | .notFound n => (.error .tooSmall, { ctx with elementsDataOffset := some n })
          | .emptyMatch => (.error .type, ctx.clear)
          | .diverge => (.error .diverge, ctx)

/-- The loop that cuts a string at its terminator,
dtfabric/runtime/data_maps.py:1566-1576; the result is the cut offset. The fuel
is the number of bytes left; the terminator is not empty here. -/
def cutOffset (bs : Bytes) (t : Bytes) : Nat → Nat → Nat
  | 0, off => off
  | fuel + 1, off =>
    if off < bs.length then
      if slice bs off (off + t.length) == t then off
      else cutOffset bs t fuel (off + t.length)
    else off

/-- The removal of the terminator and what follows, dtfabric/runtime/data_maps.py:1558-1576.
`len` of a terminator that is no byte string is a `TypeError`. An empty
terminator matches at offset 0. -/
def cutString (info : SeqInfo) (b : Bytes) : Except Err Bytes :=
  match info.terminator with
  | none => Except.ok b
  | some (.bytes t) => .ok (b.take (cutOffset b t b.length 0))
  | some _ => .error Err.type

/-- StringMap.MapByteStream, dtfabric/runtime/data_maps.py:1542-1584. -/
def stringMap (E : Env) (enc : String) (info : SeqInfo) (ei : ElemInfo) (bs : Bytes) (off : Nat)
    (ctx : Ctx) : Res :=
  match streamMap E info ei bs off ctx with
  | (.error e, ctx) => (.error e, ctx)
  | (.ok b, ctx) =>
    match cutString info b with
    | .error e => (.error e, ctx)
    | .ok b =>
      match E.decode enc b with
      | none => (.error .mapping, ctx)
      | some cs => (.ok (.str cs), ctx)

/-- `except errors.ByteStreamTooSmallError` / `except Exception` around a nested
call: every exception but ByteStreamTooSmallError becomes MappingError. -/
def wrapErr : Err → Err
  | .tooSmall => .tooSmall
  | .diverge => .diverge
  | .other => .other
  | _ => .mapping

/-- `map(MapValue, struct_tuple)` evaluated, dtfabric/runtime/data_maps.py:1177, 1188;
the exception of a lazily evaluated `map` is not converted. -/
def mapValues (k : PrimKind) : List Val → Except Err (List Val)
  | [] => .ok []
  | v :: vs =>
    match mapValue k v with
    | none => .error .value
    | some x =>
      match mapValues k vs with
      | .error e => .error e
      | .ok xs => .ok (x :: xs)

/-- SequenceMap._LinearMapByteStream, dtfabric/runtime/data_maps.py:1137-1188.
The element map of a linear sequence is primitive. -/
def linearSeqMap (E : Env) (byteSize : Option Int) (op : Option Op) (elem : DMap)
    (bs : Bytes) (off : Nat) (ctx : Ctx) : Res :=
  let ctx := { ctx with byteSize := none, requestedSize := byteSize }
  match byteSize with
  | none => (.error .type, ctx)
  | some n =>
    if tooSmall bs off n then (.error .tooSmall, { ctx with elementsDataSize := some n })
    else
      match op.bind fun op => op.readFrom E (bs.drop off) with
      | none => (.error .mapping, ctx)
      | some vs =>
        match elem with
        | .prim _ k _ _ =>
          let ctx := { ctx with byteSize := some n.toNat }.clear
          match mapValues k vs with
          | .error e => (.error e, ctx)
          | .ok xs => (.ok (.tuple xs), ctx)
        | _ => (.error .mapping, ctx)

/-- The state of the loop of SequenceMap._CompositeMapByteStream. -/
structure SeqSt where
  off : Nat
  dataOffset : Nat
  index : Nat
  last : Val
  values : List Val
  sub : Ctx

/-- Outcome of the loop: left normally, or by an exception of the element. -/
inductive SeqOut
  | done (s : SeqSt)
  | raised (e : Err) (s : SeqSt)

/-- `number_of_elements is not None and element_index == number_of_elements`. -/
def atNumber (num : Option Int) (index : Nat) : Bool :=
  match num with
  | some n => (index : Int) == n
  | none => false

/-- `elements_data_size is not None and elements_data_offset >= elements_data_size`. -/
def atDataSize (dataSize : Option Int) (dataOffset : Nat) : Bool :=
  match dataSize with
  | some n => n ≤ (dataOffset : Int)
  | none => false

/-- `elements_terminator is not None and element_value == elements_terminator`. -/
def atTerm (term : Option Lit) (v : Val) : Bool :=
  match term with
  | some t => pyEq v t
  | none => false

/-- The `while` loop of SequenceMap._CompositeMapByteStream,
dtfabric/runtime/data_maps.py:1040-1060. `step` is MapByteStream of the element
map. The fuel given by the caller is enough unless elements of size zero repeat
without end (`Verif/Loop.lean`). -/
def seqLoop (step : Nat → Ctx → Res) (len : Nat) (num dataSize : Option Int) (term : Option Lit) :
    Nat → SeqSt → SeqOut
  | 0, s => .raised .diverge s
  | fuel + 1, s =>
    if len ≤ s.off then .done s
    else if atNumber num s.index then .done s
    else if atDataSize dataSize s.dataOffset then .done s
    else
      match step s.off s.sub with
      | (.error e, sub) => .raised e { s with sub := sub }
      | (.ok v, sub) =>
        match sub.byteSize with
        | none => .raised .type { s with sub := sub }
        | some n =>
          let s := { off := s.off + n, dataOffset := s.dataOffset + n, index := s.index + 1,
                     last := v, values := s.values ++ [v], sub := sub : SeqSt }
          if atTerm term v then .done s
          else seqLoop step len num dataSize term fuel s

/-- The state written to the context when a sequence is incomplete,
dtfabric/runtime/data_maps.py:1063-1068. -/
def seqSave (ctx : Ctx) (s : SeqSt) (num dataSize : Option Int) : Ctx :=
  { ctx with
    sub := some s.sub, elementIndex := some s.index, elementsDataOffset := some s.dataOffset,
    elementsDataSize := dataSize, mappedTuple := some s.values, numberOfElements := num }

/-- A number of elements that is a fraction, infinite or NaN is only compared with the
index of an element (dtfabric/runtime/data_maps.py:1041-1043, 1079), which never equals
it: it is represented by -1. -/
def countable : Except Err Int → Except Err Int
  | .ok n => .ok n
  | .error .other => .ok (-1)
  | .error e => .error e

/-- The size rules of SequenceMap._CompositeMapByteStream,
dtfabric/runtime/data_maps.py:1001-1023: elements data size, terminator and
number of elements, with the context values afterwards. Data sizes that are a fraction,
infinite or NaN are not modelled (`Err.other`). -/
def seqRules (E : Env) (info : SeqInfo) (ei : ElemInfo) (ns : Namespace) :
    Except Err (Option Int × Option Lit × Option Int) × Namespace :=
  let r : Except Err (Option Int × Option Lit × Option Int) × Namespace :=
    if info.hasDataSize then
      match evalDataSize E info ns with
      | .error e => (.error e, ns)
      | .ok n =>
        match ei.byteSize with
        | some es => if es = 0 then (.error .zeroDiv, ns) else (.ok (some n, none, some (Int.fdiv n es)), ns)
        | none =>
          match ei.terminator with
          | none => (.error .attribute, ns)
          | some t => (.ok (some n, t, none), ns)
    else if info.terminator.isSome then (.ok (none, info.terminator, none), ns)
    else if info.hasNumElements then
      match countable (evalNumElements E info ns) with
      | .error e => (.error e, valuesAfterNum info ns)
      | .ok n => (.ok (none, none, some n), valuesAfterNum info ns)
    else (.ok (none, none, none), ns)
  match r with
  | (.ok (_, none, none), ns) => (.error .mapping, ns)
  | r => r

/-- Python `element_value != elements_terminator` after the loop. -/
def termMissing (term : Option Lit) (dataSize : Option Int) (s : SeqSt) : Bool :=
  match term with
  | none => false
  | some t => !pyEq s.last t && !atDataSize dataSize s.dataOffset

/-- The fuel of the loop: the loop runs at most once per remaining element, or,
when every element takes a byte, at most once per remaining byte, and once more
for an element begun in an earlier call. Only a loop that does not end runs out
of it (`Verif/Loop.lean`, `Verif/Resume.lean`). -/
def seqFuel (len off : Nat) (num : Option Int) (index : Nat) : Nat :=
  len - off + (num.getD 0 - index).toNat + 2

/-- SequenceMap._CompositeMapByteStream, dtfabric/runtime/data_maps.py:979-1114. -/
def compositeSeqMap (E : Env) (info : SeqInfo) (ei : ElemInfo) (step : Nat → Ctx → Res)
    (bs : Bytes) (off depth : Nat) (ctx : Ctx) : Res :=
  if depth > 10 then (.error .mapping, ctx)
  else
    match seqRules E info ei ctx.values with
    | (.error e, ns) => (.error e, { ctx with values := ns })
    | (.ok (dataSize, term, num), ns) =>
      let s : SeqSt :=
        { off := off, dataOffset := ctx.elementsDataOffset.getD 0, index := ctx.elementIndex.getD 0,
          last := .pyNone, values := ctx.mappedTuple.getD [], sub := ctx.sub.getD {} }
      let ctx := { ctx with byteSize := none, values := ns }
      let fuel := seqFuel bs.length off num s.index
      match seqLoop step bs.length num dataSize term fuel s with
      | .raised .tooSmall s => (.error .tooSmall, seqSave ctx s num dataSize)
      -- the state of a resumed context shares the list and the sub context
      | .raised e s =>
        (.error (wrapErr e), { ctx with
          sub := ctx.sub.map fun _ => s.sub, mappedTuple := ctx.mappedTuple.map fun _ => s.values })
      | .done s =>
        if num.isSome && !atNumber num s.index then
          (.error .tooSmall, seqSave ctx s num dataSize)
        else if termMissing term dataSize s then (.error .tooSmall, seqSave ctx s num dataSize)
        else (.ok (.tuple s.values), { ctx with byteSize := some s.dataOffset }.clear)

/-! ### Structures -/

/-- The check of supported values, dtfabric/runtime/data_maps.py:1792-1798, 1949-1955:
whether the value is accepted. -/
def valueOk (info : MemInfo) (v : Val) : Bool :=
  match info.values with
  | none | some [] => true
  | some vs => pyIn v vs

/-- The condition of a member, dtfabric/runtime/data_maps.py:1751-1768; the
result is whether the member is present. -/
def evalCondition (E : Env) (info : MemInfo) (ns : Namespace) : Except Err Bool :=
  if truthyStr info.condition then
    match info.condition.bind fun c => E.evalExpr c (withBuiltins ns) with
    | some (.bool b) => .ok b
    | _ => .error .mapping
  else .ok true

/-- MapValue and the check of supported values for the values of one linear
structure, dtfabric/runtime/data_maps.py:1942-1957; `none` is any exception. -/
def linearValues : List MemInfo → List DMap → List Val → Option (List Val)
  | _, _, [] => some []
  | i :: is, m :: ms, v :: vs =>
    match m with
    | .prim _ k _ _ =>
      match mapValue k v with
      | none => none
      | some x => if valueOk i x then (linearValues is ms vs).map (x :: ·) else none
    | _ => none
  | _, _, _ => none

/-- StructureMap._LinearMapByteStream, dtfabric/runtime/data_maps.py:1901-1970. -/
def linearStructMap (E : Env) (h : Hdr) (byteSize : Option Int) (op : Option Op) (instOk : Bool)
    (infos : List MemInfo) (maps : List DMap) (bs : Bytes) (off : Nat) (ctx : Ctx) : Res :=
  let ctx := { ctx with byteSize := none, requestedSize := byteSize }
  match byteSize with
  | none => (.error .type, ctx)
  | some n =>
    if tooSmall bs off n then
      (.error .tooSmall,
        { ctx with attributeIndex := some infos.length, membersDataSize := some n })
    else
      match op.bind fun op => op.readFrom E (bs.drop off) with
      | none => (.error .mapping, ctx)
      | some vs =>
        match linearValues infos maps vs with
        | none => (.error .mapping, ctx)
        | some xs =>
          match newInstanceArgs (infos.map (·.name)) xs with
          | none => (.error .mapping, ctx)
          | some attrs =>
            if instOk then
              (.ok (.struct h.name attrs), { ctx with byteSize := some n.toNat }.clear)
            else (.error .mapping, ctx)

/-- The state of the loop of StructureMap._CompositeMapByteStream. `sub.values`
are the externally defined values. -/
structure StructSt where
  off : Nat
  size : Nat
  index : Nat
  attrs : List (String × Val)
  sub : Ctx

/-- Outcome of the loop over the members. -/
inductive StructOut
  | done (s : StructSt)
  | tooSmall (s : StructSt)
  | raised (e : Err) (s : StructSt)

/-- The namespace of expressions in a structure: the structure object under its
class name, overridden by externally defined values,
dtfabric/runtime/data_maps.py:1735-1738. -/
def structNs (cls : String) (attrs : List (String × Val)) (outer : Namespace) : Namespace :=
  nsUpdate [(cls, .struct cls attrs)] outer

/-- The state written to the context when a structure is incomplete,
dtfabric/runtime/data_maps.py:1777-1780. -/
def structSave (ctx : Ctx) (s : StructSt) : Ctx :=
  { ctx with
    attributeIndex := some s.index, sub := some s.sub, mappedStruct := some s.attrs,
    membersDataSize := some s.size }

/-- Dictionary lookup in a group map, dtfabric/runtime/data_maps.py:2359-2360;
`none` when there is no such key. -/
def groupIndex (keys : List Lit) (id : Val) : Option Nat := keys.findIdx? (pyEq id ·)

/-- `member_data_type_map is None`, dtfabric/runtime/data_maps.py:2361. -/
def groupMapMissing : Option DMap → Bool
  | none | some .missing => true
  | some _ => false

mutual
/-- MapByteStream of every map class. Calling a method of a missing map (`None`)
is an `AttributeError`. -/
def mapStream (E : Env) (m : DMap) (bs : Bytes) (off depth : Nat) (ctx : Ctx) : Res :=
  match m with
  | .missing => (.error .attribute, ctx)
  | .prim h k s u => primMap E h k s u bs off ctx
  | .uuid h s u => uuidMap h s u bs off ctx
  | .padding _ a => paddingMap a bs off ctx
  | .seq h info ei bsz e =>
    match info.kind with
    | .stream =>
      match streamMap E info ei bs off ctx with
      | (.error x, ctx) => (.error x, ctx)
      | (.ok b, ctx) => (.ok (.bytes b), ctx)
    | .string enc => stringMap E enc info ei bs off ctx
    | .sequence =>
      if seqLinear info ei then
        linearSeqMap E bsz (DMap.seq h info ei bsz e).op e bs off ctx
      else
        compositeSeqMap E info ei (fun off c => mapStream E e bs off (depth + 1) c) bs off depth ctx
  | .struct h bsz linear instOk infos maps =>
    if linear then
      linearStructMap E h bsz (DMap.struct h bsz linear instOk infos maps).op instOk infos maps
        bs off ctx
    -- StructureMap._CompositeMapByteStream, dtfabric/runtime/data_maps.py:1703-1818
    else if depth > 10 then (.error .mapping, ctx)
    else if ctx.mappedStruct.isNone && !instOk then (.error .type, ctx)
    else
      let attrs := ctx.mappedStruct.getD (newInstance (infos.map (·.name)))
      let sub : Ctx := ctx.sub.getD { values := ctx.values }
      let start := ctx.attributeIndex.getD 0
      let ctx := { ctx with byteSize := none }
      match structLoop E h.name bs depth infos maps start
          { off := off, size := 0, index := 0, attrs := attrs, sub := sub } with
      -- the state of a resumed context shares the object and the sub context
      | .raised e s =>
        (.error e, { ctx with
          sub := ctx.sub.map fun _ => s.sub,
          mappedStruct := ctx.mappedStruct.map fun _ => s.attrs })
      | .tooSmall s => (.error .tooSmall, structSave ctx s)
      | .done s =>
        -- an attribute index beyond the last member leaves the loop body
        -- unexecuted, dtfabric/runtime/data_maps.py:1803-1812
        if start ≥ infos.length then
          (.error .tooSmall, structSave ctx { s with index := start })
        else
          (.ok (.struct h.name s.attrs), { ctx with byteSize := some s.size }.clear)
  | .constant _ | .enumeration _ _ => (.error .mapping, ctx)
  | .format _ _ => (.error .mapping, ctx)
  | .group _ ident base dflt keys maps =>
    -- StructureGroupMap.MapByteStream, dtfabric/runtime/data_maps.py:2316-2389
    let r : Except Err Val × Ctx :=
      match ctx.memberIdentifier with
      | some id => (.ok id, ctx)
      | none =>
        match mapStream E base bs off depth (ctx.sub.getD {}) with
        | (.error .tooSmall, sub) => (.error .tooSmall, { ctx with sub := some sub })
        -- a stored sub context is an object shared with the state
        | (.error e, sub) => (.error (wrapErr e), { ctx with sub := ctx.sub.map fun _ => sub })
        | (.ok v, sub) =>
          let ctx := { ctx with sub := ctx.sub.map fun _ => sub }
          match getAttr v ident with
          | .pyNone => (.error .mapping, ctx)
          | id => (.ok id, { ctx with memberIdentifier := some id })
    match r with
    | (.error e, ctx) => (.error e, ctx)
    | (.ok id, ctx) =>
      let finish (r : Res) : Res :=
        match r with
        | (.error .tooSmall, sub) => (.error .tooSmall, { ctx with byteSize := none, sub := some sub })
        | (.error e, sub) =>
          (.error (wrapErr e), { ctx with byteSize := none, sub := ctx.sub.map fun _ => sub })
        | (.ok v, sub) => (.ok v, { ctx with byteSize := sub.byteSize }.clear)
      match groupIndex keys id with
      | some i =>
        if groupMapMissing maps[i]? then (.error .mapping, ctx)
        else finish (mapNth E maps i bs off depth (ctx.sub.getD {}))
      | none =>
        if groupMapMissing dflt then (.error .mapping, ctx)
        else finish (mapOpt E dflt bs off depth (ctx.sub.getD {}))
termination_by structural m
/-- The map of a group member by position in the dictionary. -/
def mapNth (E : Env) (ms : List DMap) (i : Nat) (bs : Bytes) (off depth : Nat) (ctx : Ctx) : Res :=
  match ms with
  | [] => (.error .attribute, ctx)
  | m :: ms =>
    match i with
    | 0 => mapStream E m bs off depth ctx
    | i + 1 => mapNth E ms i bs off depth ctx
termination_by structural ms
/-- The default map of a group. -/
def mapOpt (E : Env) (m : Option DMap) (bs : Bytes) (off depth : Nat) (ctx : Ctx) : Res :=
  match m with
  | none => (.error .attribute, ctx)
  | some m => mapStream E m bs off depth ctx
termination_by structural m
/-- The loop over the members of a structure, dtfabric/runtime/data_maps.py:1745-1801.
`skip` members are passed over first (`range(attribute_index, ...)`). -/
def structLoop (E : Env) (cls : String) (bs : Bytes) (depth : Nat) (infos : List MemInfo)
    (maps : List DMap) (skip : Nat) (s : StructSt) : StructOut :=
  match maps with
  | [] => .done s
  | m :: maps =>
    match infos with
    | [] => .done s
    | info :: infos =>
      match skip with
      | skip + 1 => structLoop E cls bs depth infos maps skip { s with index := s.index + 1 }
      | 0 =>
        let ns := structNs cls s.attrs s.sub.values
        match evalCondition E info ns with
        | .error e => .raised e s
        | .ok false => structLoop E cls bs depth infos maps 0 { s with index := s.index + 1 }
        | .ok true =>
          match mapStream E m bs s.off (depth + 1) { s.sub with values := ns } with
          | (.error .tooSmall, sub) => .tooSmall { s with sub := { sub with values := s.sub.values } }
          | (.error e, sub) => .raised (wrapErr e) { s with sub := { sub with values := s.sub.values } }
          | (.ok v, sub) =>
            let s := { s with attrs := setAttr s.attrs info.name v,
                              sub := { sub with values := s.sub.values } }
            if !valueOk info v then .raised .mapping s
            else
              match sub.byteSize with
              | none => .raised .type s
              | some n =>
                structLoop E cls bs depth infos maps 0
                  { s with off := s.off + n, size := s.size + n, index := s.index + 1 }
termination_by structural maps
end

end Dtf
