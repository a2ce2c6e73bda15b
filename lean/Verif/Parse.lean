import Verif.MapStream
/-!
A context-free parser. It says what MapByteStream computes when no unfinished
state is passed in; `Verif/Refine.lean` proves the model of MapByteStream equal
to it. The result is the value and the number of bytes used.
-/
namespace Dtf

abbrev PRes := Except Err (Val × Nat)

def primParse (E : Env) (h : Hdr) (k : PrimKind) (s : Size) (u : String) (bs : Bytes)
    (off : Nat) : PRes :=
  match fixedByteSize s u with
  | none => .error .type
  | some n =>
    if tooSmall bs off n then .error .tooSmall
    else
      match primRead E h.order k s (bs.drop off) with
      | none => .error .mapping
      | some v => .ok (v, n.toNat)

def uuidParse (h : Hdr) (s : Size) (u : String) (bs : Bytes) (off : Nat) : PRes :=
  match fixedByteSize s u with
  | none => .error .type
  | some n =>
    if tooSmall bs off n then .error .tooSmall
    else
      let b := slice bs off (off + 16)
      match h.order with
      | .native => .ok (.pyNone, n.toNat)
      | .big => if b.length = 16 then .ok (.uuid b, n.toNat) else .error .mapping
      | .little => if b.length = 16 then .ok (.uuid (uuidSwap b), n.toNat) else .error .mapping

def paddingParse (a : Option Nat) (bs : Bytes) (off : Nat) : PRes :=
  match calcPadding a off with
  | .error e => .error e
  | .ok n =>
    if tooSmall bs off n then .error .tooSmall
    else .ok (.bytes (slice bs off (off + n.toNat)), n.toNat)

/-- The number of bytes of a stream, `none` when only a terminator tells. -/
def streamSize (E : Env) (info : SeqInfo) (ei : ElemInfo) (ns : Namespace) :
    Except Err (Option Int) :=
  if info.hasDataSize then
    match evalDataSize E info ns with
    | .error e => .error e
    | .ok n => .ok (some n)
  else if info.hasNumElements then
    match ei.byteSize with
    | none => .ok none
    | some es =>
      match evalNumElements E info ns with
      | .error e => .error e
      | .ok n => .ok (some (n * es))
  else .ok none

def streamParse (E : Env) (info : SeqInfo) (ei : ElemInfo) (bs : Bytes) (off : Nat)
    (ns : Namespace) : Except Err (Bytes × Nat) :=
  match streamSize E info ei ns with
  | .error e => .error (sliceErr e)
  | .ok (some n) =>
    if tooSmall bs off n then .error .tooSmall
    else .ok (slice bs off (off + n.toNat), n.toNat)
  | .ok none =>
    match info.terminator with
    | none => .error .mapping
    | some t =>
      match ei.byteSize with
      | none => .error .type
      | some es =>
        match scanTerm (bs.drop off) es.toNat t (bs.length - off + 2) 0 es.toNat with
        | .found n => .ok (slice bs off (off + n), n)
        | .notFound _ => .error .tooSmall
        | .emptyMatch => .error .type
        | .diverge => .error .diverge

def stringParse (E : Env) (enc : String) (info : SeqInfo) (ei : ElemInfo) (bs : Bytes)
    (off : Nat) (ns : Namespace) : PRes :=
  match streamParse E info ei bs off ns with
  | .error e => .error e
  | .ok (b, n) =>
    match cutString info b with
    | .error e => .error e
    | .ok b =>
      match E.decode enc b with
      | none => .error .mapping
      | some cs => .ok (.str cs, n)

def linearSeqParse (E : Env) (byteSize : Option Int) (op : Option Op) (elem : DMap)
    (bs : Bytes) (off : Nat) : PRes :=
  match byteSize with
  | none => .error .type
  | some n =>
    if tooSmall bs off n then .error .tooSmall
    else
      match op.bind fun op => op.readFrom E (bs.drop off) with
      | none => .error .mapping
      | some vs =>
        match elem with
        | .prim _ k _ _ =>
          match mapValues k vs with
          | .error e => .error e
          | .ok xs => .ok (.tuple xs, n.toNat)
        | _ => .error .mapping

/-- The checks after the last element; `index` and `used` count the elements and
bytes so far, `last` is the last element. -/
def seqEnd (num dataSize : Option Int) (term : Option Lit) (index used : Nat) (last : Val) :
    Except Err (List Val × Nat) :=
  if num.isSome && !atNumber num index then .error .tooSmall
  else if (match term with
    | none => false
    | some t => !pyEq last t && !atDataSize dataSize used) then .error .tooSmall
  else .ok ([], used)

/-- The elements of a sequence from offset `off` on. -/
def seqParse (step : Nat → PRes) (len : Nat) (num dataSize : Option Int) (term : Option Lit) :
    Nat → Nat → Nat → Nat → Val → Except Err (List Val × Nat)
  | 0, _, _, _, _ => .error .diverge
  | fuel + 1, off, used, index, last =>
    if len ≤ off || atNumber num index || atDataSize dataSize used then
      seqEnd num dataSize term index used last
    else
      match step off with
      | .error e => .error (wrapErr e)
      | .ok (v, n) =>
        match (if atTerm term v then seqEnd num dataSize term (index + 1) (used + n) v
          else seqParse step len num dataSize term fuel (off + n) (used + n) (index + 1) v) with
        | .error e => .error e
        | .ok (vs, used) => .ok (v :: vs, used)

def compositeSeqParse (E : Env) (info : SeqInfo) (ei : ElemInfo) (step : Nat → PRes)
    (len off depth : Nat) (ns : Namespace) : PRes :=
  if depth > 10 then .error .mapping
  else
    match (seqRules E info ei ns).1 with
    | .error e => .error e
    | .ok (dataSize, term, num) =>
      match seqParse step len num dataSize term (seqFuel len off num 0)
          off 0 0 .pyNone with
      | .error e => .error e
      | .ok (vs, n) => .ok (.tuple vs, n)

def linearStructParse (E : Env) (h : Hdr) (byteSize : Option Int) (op : Option Op)
    (instOk : Bool) (infos : List MemInfo) (maps : List DMap) (bs : Bytes) (off : Nat) : PRes :=
  match byteSize with
  | none => .error .type
  | some n =>
    if tooSmall bs off n then .error .tooSmall
    else
      match op.bind fun op => op.readFrom E (bs.drop off) with
      | none => .error .mapping
      | some vs =>
        match linearValues infos maps vs with
        | none => .error .mapping
        | some xs =>
          match newInstanceArgs (infos.map (·.name)) xs with
          | none => .error .mapping
          | some attrs =>
            if instOk then .ok (.struct h.name attrs, n.toNat) else .error .mapping

mutual
/-- Context-free meaning of MapByteStream. -/
def parse (E : Env) (m : DMap) (bs : Bytes) (off depth : Nat) (ns : Namespace) : PRes :=
  match m with
  | .missing => .error .attribute
  | .prim h k s u => primParse E h k s u bs off
  | .uuid h s u => uuidParse h s u bs off
  | .padding _ a => paddingParse a bs off
  | .seq h info ei bsz e =>
    match info.kind with
    | .stream =>
      match streamParse E info ei bs off ns with
      | .error x => .error x
      | .ok (b, n) => .ok (.bytes b, n)
    | .string enc => stringParse E enc info ei bs off ns
    | .sequence =>
      if seqLinear info ei then linearSeqParse E bsz (DMap.seq h info ei bsz e).op e bs off
      else
        compositeSeqParse E info ei (fun off => parse E e bs off (depth + 1) []) bs.length off
          depth ns
  | .struct h bsz linear instOk infos maps =>
    if linear then
      linearStructParse E h bsz (DMap.struct h bsz linear instOk infos maps).op instOk infos maps
        bs off
    else if depth > 10 then .error .mapping
    else if !instOk then .error .type
    else if infos.length = 0 then .error .tooSmall
    else
      match parseMembers E h.name bs depth ns infos maps off 0
          (newInstance (infos.map (·.name))) with
      | .error e => .error e
      | .ok (attrs, n) => .ok (.struct h.name attrs, n)
  | .constant _ | .enumeration _ _ | .format _ _ => .error .mapping
  | .group _ ident base dflt keys maps =>
    match parse E base bs off depth [] with
    | .error e => .error (wrapErr e)
    | .ok (v, _) =>
      match getAttr v ident with
      | .pyNone => .error .mapping
      | id =>
        match groupIndex keys id with
        | some i =>
          if groupMapMissing maps[i]? then .error .mapping
          else
            match parseNth E maps i bs off depth with
            | .error e => .error (wrapErr e)
            | .ok r => .ok r
        | none =>
          if groupMapMissing dflt then .error .mapping
          else
            match parseOpt E dflt bs off depth with
            | .error e => .error (wrapErr e)
            | .ok r => .ok r
termination_by structural m
def parseNth (E : Env) (ms : List DMap) (i : Nat) (bs : Bytes) (off depth : Nat) : PRes :=
  match ms with
  | [] => .error .attribute
  | m :: ms =>
    match i with
    | 0 => parse E m bs off depth []
    | i + 1 => parseNth E ms i bs off depth
termination_by structural ms
def parseOpt (E : Env) (m : Option DMap) (bs : Bytes) (off depth : Nat) : PRes :=
  match m with
  | none => .error .attribute
  | some m => parse E m bs off depth []
termination_by structural m
/-- The members of a structure from offset `off` on; `used` bytes and `attrs`
so far. -/
def parseMembers (E : Env) (cls : String) (bs : Bytes) (depth : Nat) (outer : Namespace)
    (infos : List MemInfo) (maps : List DMap) (off used : Nat) (attrs : List (String × Val)) :
    Except Err (List (String × Val) × Nat) :=
  match maps with
  | [] => .ok (attrs, used)
  | m :: maps =>
    match infos with
    | [] => .ok (attrs, used)
    | info :: infos =>
      let ns := structNs cls attrs outer
      match evalCondition E info ns with
      | .error e => .error e
      | .ok false => parseMembers E cls bs depth outer infos maps off used attrs
      | .ok true =>
        match parse E m bs off (depth + 1) ns with
        | .error e => .error (wrapErr e)
        | .ok (v, n) =>
          if !valueOk info v then .error .mapping
          else
            parseMembers E cls bs depth outer infos maps (off + n) (used + n)
              (setAttr attrs info.name v)
termination_by structural maps
end

end Dtf
