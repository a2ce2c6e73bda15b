import Verif.Fold
import Verif.Hint
import Verif.Linear
/-!
Byte orders that count: definitions that leave the byte order to the structure or
sequence they are used in have maps that cannot be told from those of definitions that
name it.
-/
namespace Dtf

namespace Spec

/-- The byte order that counts: what leaves it open takes that of the whole. -/
def effective (whole part : Order) : Order := if part = .native then whole else part

mutual
/-- A definition with the byte orders that count written out, as a part of a whole with
the byte order `whole`. A primitive type, UUID or sequence takes the byte order of the
structure it is a member of, a primitive element that of the sequence; other elements,
structures and groups have their own. The byte order of streams, strings, sequences of
such elements and groups does not matter: it is removed. -/
def settle (whole : Order) : Defn → Defn
  | .prim h k s u => .prim { h with order := effective whole h.order } k s u
  | .uuid h s u => .uuid { h with order := effective whole h.order } s u
  | .seq h info e =>
    match info.kind with
    | .sequence => .seq { h with order := if e.isComposite then .native else effective whole h.order } info
        (settle (if e.isComposite then .native else effective whole h.order) e)
    | _ => .seq { h with order := .native } info
        (match e with
          | .prim h k s u => .prim { h with order := .native } k s u
          | e => settle .native e)
  | .struct h ms => .struct h (settleAll h.order ms)
  | .group h base ident dflt ms =>
    .group { h with order := .native } (settle .native base) ident (settleOpt .native dflt) (settleAll .native ms)
  | .member h d c t vs => .member { h with order := .native } (settle whole d) c t vs
  | .padding h a => .padding h a
  | .union h ms => .union h ms
  | .constant h v => .constant h v
  | .enumeration h vs => .enumeration h vs
  | .format h o l => .format h o l
  | .family h b ms => .family h b ms
termination_by structural d => d
def settleAll (whole : Order) : List Defn → List Defn
  | [] => []
  | d :: ds => settle whole d :: settleAll whole ds
termination_by structural ds => ds
def settleOpt (whole : Order) : Option Defn → Option Defn
  | none => none
  | some d => some (settle whole d)
termination_by structural d => d
end

/-- What a structure must satisfy for the byte orders to count as `settle` says: types
of members are told apart by their names; if it has a byte order, structures in it have
one; and if all members are primitive types and some have no byte order, then the others
have that of the structure. -/
def Orderly : Defn → Prop
  | .struct h ms => DistinctTypes ms ∧
    (h.order ≠ .native →
      (∀ m ∈ ms, ∀ h' ms', m.target = .struct h' ms' → h'.order ≠ .native) ∧
      ((∀ m ∈ ms, m.isComposite = false ∧ ∀ h a, m ≠ .padding h a) → (∃ m ∈ ms, m.order? = some .native) →
        ∀ m ∈ ms, m.order? = some .native ∨ m.order? = some h.order))
  | _ => True

end Spec
open Spec

/-! ### Maps that cannot be told apart -/

/-- The description of a sequence, with another name of the type of its elements. -/
def SeqInfo.retyped (info : SeqInfo) (t : Option String) : SeqInfo := { info with elementDataType := t }

theorem kind_retyped (info : SeqInfo) (t : Option String) : (info.retyped t).kind = info.kind := rfl
theorem dataSize_retyped (info : SeqInfo) (t : Option String) : (info.retyped t).dataSize = info.dataSize := rfl
theorem numElements_retyped (info : SeqInfo) (t : Option String) :
    (info.retyped t).numElements = info.numElements := rfl
theorem streamMap_retyped (E : Env) (info : SeqInfo) (t : Option String) :
    streamMap E (info.retyped t) = streamMap E info := rfl
theorem stringMap_retyped (E : Env) (info : SeqInfo) (t : Option String) (enc) :
    stringMap E enc (info.retyped t) = stringMap E enc info := rfl
theorem compositeSeqMap_retyped (E : Env) (info : SeqInfo) (t : Option String) :
    compositeSeqMap E (info.retyped t) = compositeSeqMap E info := rfl
theorem streamFold_retyped (E : Env) (info : SeqInfo) (t : Option String) :
    streamFold E (info.retyped t) = streamFold E info := rfl
theorem stringFold_retyped (E : Env) (info : SeqInfo) (t : Option String) (enc) :
    stringFold E enc (info.retyped t) = stringFold E enc info := rfl
theorem seqHint_retyped (E : Env) (info : SeqInfo) (t : Option String) :
    seqHint E (info.retyped t) = seqHint E info := rfl
theorem seqLinear_retyped (info : SeqInfo) (t : Option String) :
    seqLinear (info.retyped t) = seqLinear info := rfl

mutual
/-- Maps that differ at most in names that are not shown, names of the types of elements and
byte orders that are not used. -/
inductive SameMap : DMap → DMap → Prop
  | missing : SameMap .missing .missing
  | prim {h h' : Hdr} {k s u} (ho : h.order = h'.order) : SameMap (.prim h k s u) (.prim h' k s u)
  | uuid {h h' : Hdr} {s u} (ho : h.order = h'.order) : SameMap (.uuid h s u) (.uuid h' s u)
  | padding {h h' : Hdr} {a} : SameMap (.padding h a) (.padding h' a)
  | stream {h h' : Hdr} {info : SeqInfo} {t ei b e e'} (hk : info.kind ≠ .sequence)
      (hh : ∀ E off ctx, sizeHint E e off ctx = sizeHint E e' off ctx) :
      SameMap (.seq h info ei b e) (.seq h' (info.retyped t) ei b e')
  | sequence {h h' : Hdr} {info : SeqInfo} {t ei b e e'} (hk : info.kind = .sequence) (he : SameMap e e')
      (ho : seqLinear info ei = true → e.orderStr = e'.orderStr) :
      SameMap (.seq h info ei b e) (.seq h' (info.retyped t) ei b e')
  | struct {h h' : Hdr} {b l i infos maps maps'} (hn : h.name = h'.name) (ho : h.order = h'.order)
      (hm : SameMaps maps maps') : SameMap (.struct h b l i infos maps) (.struct h' b l i infos maps')
  | constant {h h' : Hdr} : SameMap (.constant h) (.constant h')
  | enumeration {h h' : Hdr} {vs} : SameMap (.enumeration h vs) (.enumeration h' vs)
  | format {h h' : Hdr} {l : List (String × Option Int)} : SameMap (.format h l) (.format h' l)
  | group {h h' : Hdr} {ident base base' dflt dflt' keys maps maps'} (hb : SameMap base base')
      (hd : SameOpt dflt dflt') (hm : SameMaps maps maps') :
      SameMap (.group h ident base dflt keys maps) (.group h' ident base' dflt' keys maps')
inductive SameMaps : List DMap → List DMap → Prop
  | nil : SameMaps [] []
  | cons {m m' ms ms'} (h : SameMap m m') (t : SameMaps ms ms') : SameMaps (m :: ms) (m' :: ms')
inductive SameOpt : Option DMap → Option DMap → Prop
  | none : SameOpt none none
  | some {m m'} (h : SameMap m m') : SameOpt (some m) (some m')
end

mutual
theorem SameMap.symm : ∀ {m m' : DMap}, SameMap m m' → SameMap m' m
  | _, _, .missing => .missing
  | _, _, .prim ho => .prim ho.symm
  | _, _, .uuid ho => .uuid ho.symm
  | _, _, .padding => .padding
  | _, _, .stream (info := info) hk hh =>
    .stream (t := info.elementDataType) hk fun E off ctx => (hh E off ctx).symm
  | _, _, .sequence (info := info) hk he ho =>
    .sequence (t := info.elementDataType) hk he.symm fun h => (ho h).symm
  | _, _, .struct hn ho hm => .struct hn.symm ho.symm hm.symm
  | _, _, .constant => .constant
  | _, _, .enumeration => .enumeration
  | _, _, .format => .format
  | _, _, .group hb hd hm => .group hb.symm hd.symm hm.symm
theorem SameMaps.symm : ∀ {ms ms' : List DMap}, SameMaps ms ms' → SameMaps ms' ms
  | _, _, .nil => .nil
  | _, _, .cons h t => .cons h.symm t.symm
theorem SameOpt.symm : ∀ {m m' : Option DMap}, SameOpt m m' → SameOpt m' m
  | _, _, .none => .none
  | _, _, .some h => .some h.symm
end

mutual
theorem SameMap.trans : ∀ {m m' m'' : DMap}, SameMap m m' → SameMap m' m'' → SameMap m m''
  | _, _, _, .missing, h => h
  | _, _, _, .prim ho, h => by cases h with | prim ho' => exact .prim (ho.trans ho')
  | _, _, _, .uuid ho, h => by cases h with | uuid ho' => exact .uuid (ho.trans ho')
  | _, _, _, .padding, h => by cases h; exact .padding
  | _, _, _, .stream hk hh, h => by
    cases h with
    | stream _ hh' => exact .stream hk fun E off ctx => (hh E off ctx).trans (hh' E off ctx)
    | sequence hk' _ _ => exact absurd hk' hk
  | _, _, _, .sequence hk he ho, h => by
    cases h with
    | stream hk' _ => exact absurd hk hk'
    | sequence _ he' ho' => exact .sequence hk (he.trans he') fun h => (ho h).trans (ho' h)
  | _, _, _, .struct hn ho hm, h => by
    cases h with | struct hn' ho' hm' => exact .struct (hn.trans hn') (ho.trans ho') (hm.trans hm')
  | _, _, _, .constant, h => by cases h; exact .constant
  | _, _, _, .enumeration, h => by cases h; exact .enumeration
  | _, _, _, .format, h => by cases h; exact .format
  | _, _, _, .group hb hd hm, h => by
    cases h with | group hb' hd' hm' => exact .group (hb.trans hb') (hd.trans hd') (hm.trans hm')
theorem SameMaps.trans : ∀ {ms ms' ms'' : List DMap}, SameMaps ms ms' → SameMaps ms' ms'' → SameMaps ms ms''
  | _, _, _, .nil, h => h
  | _, _, _, .cons h t, h' => by cases h' with | cons h' t' => exact .cons (h.trans h') (t.trans t')
theorem SameOpt.trans : ∀ {m m' m'' : Option DMap}, SameOpt m m' → SameOpt m' m'' → SameOpt m m''
  | _, _, _, .none, h => h
  | _, _, _, .some h, h' => by cases h' with | some h' => exact .some (h.trans h')
end

mutual
theorem fmt_same : ∀ {m m' : DMap}, SameMap m m' → m.fmt = m'.fmt
  | _, _, .missing => rfl
  | _, _, .prim _ => by simp only [DMap.fmt]
  | _, _, .uuid _ => by simp only [DMap.fmt]
  | _, _, .padding => by simp only [DMap.fmt]
  | _, _, .stream (info := info) hk _ => by
    rw [DMap.fmt.eq_def, DMap.fmt.eq_def]
    simp only [kind_retyped]
    generalize info.kind = k at hk
    cases k with
    | sequence => exact absurd rfl hk
    | _ => rfl
  | _, _, .sequence hk he ho => by
    have := fmt_same he
    rw [DMap.fmt.eq_def, DMap.fmt.eq_def]
    simp only [kind_retyped, dataSize_retyped, numElements_retyped, hk]
    cases he <;> simp only [this] <;> rfl
  | _, _, .struct hn ho hm => by
    rw [DMap.fmt, DMap.fmt, fmts_same hm]
  | _, _, .constant => by simp only [DMap.fmt]
  | _, _, .enumeration => by simp only [DMap.fmt]
  | _, _, .format => by simp only [DMap.fmt]
  | _, _, .group hb hd hm => by simp only [DMap.fmt]
theorem fmts_same : ∀ {ms ms' : List DMap}, SameMaps ms ms' → fmts ms = fmts ms'
  | _, _, .nil => rfl
  | _, _, .cons h t => by
    have h1 := fmt_same h
    have h2 := fmts_same t
    rw [fmts.eq_def, fmts.eq_def]
    simp only
    cases h <;> simp only [h1, h2]
end

theorem structOp_same {h h' : Hdr} {b l i infos maps maps'} (ho : h.order = h'.order) (hm : SameMaps maps maps') :
    (DMap.struct h b l i infos maps).operation = (DMap.struct h' b l i infos maps').operation := by
  simp only [DMap.operation, DMap.orderStr, DMap.fmt, fmts_same hm, ho]

theorem seqOp_same {h h' : Hdr} {info : SeqInfo} {t ei b e e'} (he : SameMap e e') (ho : e.orderStr = e'.orderStr)
    (hk : info.kind = .sequence) :
    (DMap.seq h info ei b e).operation = (DMap.seq h' (info.retyped t) ei b e').operation := by
  have h1 : (DMap.seq h info ei b e).orderStr = (DMap.seq h' (info.retyped t) ei b e').orderStr := by
    rw [DMap.orderStr.eq_def, DMap.orderStr.eq_def]
    simp only
    cases he <;> simp only [ho]
  rw [DMap.operation, h1, fmt_same (m' := .seq h' (info.retyped t) ei b e')
    (.sequence hk he fun _ => ho)]
  rfl

theorem linearValues_same : ∀ {infos : List MemInfo} {maps maps' : List DMap}, SameMaps maps maps' → ∀ vs,
    linearValues infos maps vs = linearValues infos maps' vs
  | _, _, _, _, [] => by simp only [linearValues]
  | [], _, _, _, _ :: _ => by simp only [linearValues]
  | _ :: _, _, _, .nil, _ :: _ => by simp only [linearValues]
  | i :: is, _, _, .cons h t, v :: vs => by
    have := linearValues_same (infos := is) t vs
    cases h <;> simp only [linearValues, this]

theorem linearSeqMap_same (E : Env) {e e' : DMap} (he : SameMap e e') (b op bs off ctx) :
    linearSeqMap E b op e bs off ctx = linearSeqMap E b op e' bs off ctx := by
  cases he <;> rfl

theorem linearStructMap_same (E : Env) {h h' : Hdr} {maps maps' : List DMap} (hn : h.name = h'.name)
    (hm : SameMaps maps maps') (b op i infos bs off ctx) :
    linearStructMap E h b op i infos maps bs off ctx = linearStructMap E h' b op i infos maps' bs off ctx := by
  simp only [linearStructMap, linearValues_same hm, hn]

theorem op_same {m m' : DMap} (h : m.operation = m'.operation) : m.op = m'.op := by
  simp only [DMap.op, h]

theorem getElem_same : ∀ {ms ms' : List DMap}, SameMaps ms ms' → ∀ i : Nat,
    groupMapMissing ms[i]? = groupMapMissing ms'[i]?
  | _, _, .nil, _ => rfl
  | _, _, .cons h _, 0 => by cases h <;> rfl
  | _, _, .cons _ t, i + 1 => by simpa using getElem_same t i

theorem missing_same {m m' : Option DMap} (h : SameOpt m m') : groupMapMissing m = groupMapMissing m' := by
  cases h with
  | none => rfl
  | some h => cases h <;> rfl

mutual
/-- They read the same. -/
theorem mapStream_sameMap (E : Env) : ∀ {m m' : DMap}, SameMap m m' → ∀ bs off depth ctx,
    mapStream E m bs off depth ctx = mapStream E m' bs off depth ctx
  | _, _, .missing, _, _, _, _ => rfl
  | _, _, .prim ho, _, _, _, _ => by simp only [mapStream, primMap, ho]
  | _, _, .uuid ho, _, _, _, _ => by simp only [mapStream, uuidMap, ho]
  | _, _, .padding, _, _, _, _ => by simp only [mapStream]
  | _, _, .stream (info := info) hk _, _, _, _, _ => by
    simp only [mapStream, kind_retyped, streamMap_retyped, stringMap_retyped]
    generalize info.kind = k at hk
    cases k with
    | sequence => exact absurd rfl hk
    | _ => rfl
  | _, _, .sequence (info := info) (t := t) (ei := ei) (e := e) (e' := e') hk he ho, bs, off, depth, ctx => by
    have hs : (fun off c => mapStream E e bs off (depth + 1) c) = fun off c => mapStream E e' bs off (depth + 1) c :=
      funext fun off => funext fun c => mapStream_sameMap E he bs off (depth + 1) c
    simp only [mapStream, kind_retyped, compositeSeqMap_retyped, hk, hs]
    by_cases hl : seqLinear info ei = true
    · rw [if_pos hl, if_pos (c := seqLinear (info.retyped t) ei = true) hl]
      rw [op_same (seqOp_same he (ho hl) hk), linearSeqMap_same E he]
    · rw [if_neg hl, if_neg (c := seqLinear (info.retyped t) ei = true) hl]
  | _, _, .struct (h := h) (h' := h') (maps := maps) (maps' := maps') hn ho hm, bs, off, depth, ctx => by
    have hl : ∀ infos start s, structLoop E h.name bs depth infos maps start s =
        structLoop E h'.name bs depth infos maps' start s := by
      intro infos start s
      rw [hn]
      exact structLoop_same E hm ..
    simp only [mapStream, hl]
    rw [op_same (structOp_same ho hm), linearStructMap_same E hn hm, hn]
  | _, _, .constant, _, _, _, _ => by simp only [mapStream]
  | _, _, .enumeration, _, _, _, _ => by simp only [mapStream]
  | _, _, .format, _, _, _, _ => by simp only [mapStream]
  | _, _, .group hb hd hm, bs, off, depth, ctx => by
    simp only [mapStream, mapStream_sameMap E hb, mapNth_same E hm, mapOpt_same E hd, getElem_same hm,
      missing_same hd]
theorem structLoop_same (E : Env) : ∀ {maps maps' : List DMap}, SameMaps maps maps' → ∀ cls bs depth infos skip s,
    structLoop E cls bs depth infos maps skip s = structLoop E cls bs depth infos maps' skip s
  | _, _, .nil, _, _, _, _, _, _ => rfl
  | _, _, .cons h t, cls, bs, depth, infos, skip, s => by
    rw [structLoop.eq_def, structLoop.eq_def]
    cases infos with
    | nil => rfl
    | cons info infos =>
      cases skip with
      | succ skip => simp only [structLoop_same E t]
      | zero => simp only [structLoop_same E t, mapStream_sameMap E h]
theorem mapNth_same (E : Env) : ∀ {ms ms' : List DMap}, SameMaps ms ms' → ∀ i bs off depth ctx,
    mapNth E ms i bs off depth ctx = mapNth E ms' i bs off depth ctx
  | _, _, .nil, _, _, _, _, _ => rfl
  | _, _, .cons h t, i, bs, off, depth, ctx => by
    cases i with
    | zero => simp only [mapNth, mapStream_sameMap E h]
    | succ i => simp only [mapNth, mapNth_same E t]
theorem mapOpt_same (E : Env) : ∀ {m m' : Option DMap}, SameOpt m m' → ∀ bs off depth ctx,
    mapOpt E m bs off depth ctx = mapOpt E m' bs off depth ctx
  | _, _, .none, _, _, _, _ => rfl
  | _, _, .some h, bs, off, depth, ctx => by simp only [mapOpt, mapStream_sameMap E h]
end

mutual
/-- They write the same. -/
theorem fold_same (E : Env) : ∀ {m m' : DMap}, SameMap m m' → ∀ v ns, fold E m v ns = fold E m' v ns
  | _, _, .missing, _, _ => rfl
  | _, _, .prim ho, _, _ => by simp only [fold, ho]
  | _, _, .uuid ho, _, _ => by simp only [fold, ho]
  | _, _, .padding, _, _ => by simp only [fold]
  | _, _, .stream (info := info) hk _, _, _ => by
    simp only [fold, kind_retyped, streamFold_retyped, stringFold_retyped]
    generalize info.kind = k at hk
    cases k with
    | sequence => exact absurd rfl hk
    | _ => rfl
  | _, _, .sequence (info := info) (t := t) (ei := ei) hk he ho, v, ns => by
    simp only [fold, kind_retyped, hk]
    by_cases hl : seqLinear info ei = true
    · rw [if_pos hl, if_pos (c := seqLinear (info.retyped t) ei = true) hl]
      rw [op_same (seqOp_same he (ho hl) hk)]
    · rw [if_neg hl, if_neg (c := seqLinear (info.retyped t) ei = true) hl]
  | _, _, .struct hn ho hm, v, ns => by
    simp only [fold, foldMembers_same E hm]
    rw [op_same (structOp_same ho hm)]
  | _, _, .constant, _, _ => by simp only [fold]
  | _, _, .enumeration, _, _ => by simp only [fold]
  | _, _, .format, _, _ => by simp only [fold]
  | _, _, .group _ _ _, _, _ => by simp only [fold]
theorem foldMembers_same (E : Env) : ∀ {maps maps' : List DMap}, SameMaps maps maps' → ∀ v infos,
    foldMembers E v infos maps = foldMembers E v infos maps'
  | _, _, .nil, _, _ => rfl
  | _, _, .cons h t, v, infos => by
    have h1 := fold_same E h
    have h2 := foldMembers_same E t
    rw [foldMembers.eq_def, foldMembers.eq_def]
    cases infos with
    | nil => rfl
    | cons info infos => cases h <;> simp only [h1, h2]
end

mutual
/-- They give the same hints. -/
theorem sizeHint_same (E : Env) : ∀ {m m' : DMap}, SameMap m m' → ∀ off ctx, sizeHint E m off ctx = sizeHint E m' off ctx
  | _, _, .missing, _, _ => rfl
  | _, _, .prim ho, _, _ => by simp only [sizeHint]
  | _, _, .uuid ho, _, _ => by simp only [sizeHint]
  | _, _, .padding, _, _ => by simp only [sizeHint]
  | _, _, .stream (e := e) (e' := e') hk hh, _, _ => by
    have : (fun c => sizeHint E e 0 c) = fun c => sizeHint E e' 0 c := funext fun c => hh E 0 c
    simp only [sizeHint, seqHint_retyped, this]
  | _, _, .sequence (e := e) (e' := e') hk he ho, v, ns => by
    have : (fun c => sizeHint E e 0 c) = fun c => sizeHint E e' 0 c := funext fun c => sizeHint_same E he 0 c
    simp only [sizeHint, seqHint_retyped, this]
  | _, _, .struct hn ho hm, v, ns => by
    simp only [sizeHint, hn, hintMembers_same E hm]
  | _, _, .constant, _, _ => by simp only [sizeHint]
  | _, _, .enumeration, _, _ => by simp only [sizeHint]
  | _, _, .format, _, _ => by simp only [sizeHint]
  | _, _, .group hb hd hm, _, _ => by
    simp only [sizeHint, sizeHint_same E hb, hintNth_same E hm, getElem_same hm]
theorem hintMembers_same (E : Env) : ∀ {maps maps' : List DMap}, SameMaps maps maps' → ∀ skip total sub,
    hintMembers E maps skip total sub = hintMembers E maps' skip total sub
  | _, _, .nil, _, _, _ => rfl
  | _, _, .cons h t, skip, total, sub => by
    cases skip with
    | zero => simp only [hintMembers, sizeHint_same E h, hintMembers_same E t]
    | succ skip => simp only [hintMembers, hintMembers_same E t]
theorem hintNth_same (E : Env) : ∀ {ms ms' : List DMap}, SameMaps ms ms' → ∀ i off ctx,
    hintNth E ms i off ctx = hintNth E ms' i off ctx
  | _, _, .nil, _, _, _ => rfl
  | _, _, .cons h t, i, off, ctx => by
    cases i with
    | zero => simp only [hintNth, sizeHint_same E h]
    | succ i => simp only [hintNth, hintNth_same E t]
end

/-! ### Settled definitions -/

theorem effective_native (o : Order) : effective .native o = o := by
  unfold effective; split <;> simp_all

theorem effective_self (w o : Order) : effective w (effective w o) = effective w o := by
  unfold effective; split <;> simp_all

theorem settleAll_map (w : Order) (ds : List Defn) : settleAll w ds = ds.map (settle w) := by
  induction ds with
  | nil => rfl
  | cons d ds ih => rw [settleAll, ih]; rfl

theorem settleOpt_map (w : Order) (d : Option Defn) : settleOpt w d = d.map (settle w) := by
  cases d <;> rfl

theorem settle_seq {w : Order} {h : Hdr} {info : SeqInfo} {e : Defn} (hk : info.kind = .sequence) :
    settle w (.seq h info e) = .seq { h with order := if e.isComposite then .native else effective w h.order } info
      (settle (if e.isComposite then .native else effective w h.order) e) := by
  rw [settle.eq_def]; simp only [hk]

/-- The element of a settled stream. -/
def settleByte : Defn → Defn
  | .prim h k s u => .prim { h with order := .native } k s u
  | e => settle .native e

theorem settle_stream {w : Order} {h : Hdr} {info : SeqInfo} {e : Defn} (hk : info.kind ≠ .sequence) :
    settle w (.seq h info e) = .seq { h with order := .native } info (settleByte e) := by
  rw [settle.eq_def]
  simp only
  generalize hi : info.kind = k at hk
  cases k with
  | sequence => exact absurd rfl hk
  | _ => cases e <;> simp only [settleByte]

theorem settle_hdr (w : Order) (d : Defn) : (settle w d).name = d.name ∧
    (settle w d).hdr.description = d.hdr.description := by
  cases d with
  | seq h info e =>
    by_cases hk : info.kind = .sequence
    · rw [settle_seq hk]; exact ⟨rfl, rfl⟩
    · rw [settle_stream hk]; exact ⟨rfl, rfl⟩
  | _ => simp [settle, Defn.name, Defn.hdr]

theorem settle_name (w : Order) (d : Defn) : (settle w d).name = d.name := (settle_hdr w d).1

theorem settleByte_name (d : Defn) : (settleByte d).name = d.name := by
  cases d <;> first | rfl | exact settle_name _ _

theorem settle_composite (d : Defn) : ∀ w, (settle w d).isComposite = d.isComposite := by
  induction d using Defn.ind with
  | seq h info e ih =>
    intro w
    by_cases hk : info.kind = .sequence
    · rw [settle_seq hk]; rfl
    · rw [settle_stream hk]; rfl
  | member h d c dt vs ih => intro w; simp only [settle, Defn.isComposite, ih w]
  | _ => intros; simp only [settle, Defn.isComposite]

theorem settleByte_composite (d : Defn) : (settleByte d).isComposite = d.isComposite := by
  cases d <;> first | rfl | exact settle_composite _ _

theorem settle_terminator (w : Order) (d : Defn) : (settle w d).terminator? = d.terminator? := by
  cases d with
  | seq h info e =>
    by_cases hk : info.kind = .sequence
    · rw [settle_seq hk]; rfl
    · rw [settle_stream hk]; rfl
  | _ => simp only [settle, Defn.terminator?]

theorem settleByte_terminator (d : Defn) : (settleByte d).terminator? = d.terminator? := by
  cases d <;> first | rfl | exact settle_terminator _ _

theorem settle_target (w : Order) (d : Defn) : (settle w d).target = settle w d.target := by
  cases d with
  | seq h info e =>
    by_cases hk : info.kind = .sequence
    · simp only [Defn.target]; rw [settle_seq hk]
    · simp only [Defn.target]; rw [settle_stream hk]
  | _ => simp only [settle, Defn.target]

theorem settle_memInfo (w : Order) (d : Defn) : (settle w d).memInfo = d.memInfo := by
  cases d with
  | seq h info e =>
    by_cases hk : info.kind = .sequence
    · rw [settle_seq hk]; rfl
    · rw [settle_stream hk]; rfl
  | _ => simp only [settle, Defn.memInfo, Defn.name, Defn.hdr]

theorem settle_typeText (w : Order) (d : Defn) : memberTypeText (settle w d) = memberTypeText d := by
  have hseq : ∀ h info e, ∃ h' e', settle w (.seq h info e) = .seq h' info e' := by
    intro h info e
    by_cases hk : info.kind = .sequence
    · exact ⟨_, _, settle_seq hk⟩
    · exact ⟨_, _, settle_stream hk⟩
  cases d with
  | seq h info e =>
    obtain ⟨h', e', hs⟩ := hseq h info e
    rw [hs]; rfl
  | member h d c dt vs =>
    rw [settle]
    cases d with
    | seq h info e =>
      obtain ⟨h', e', hs⟩ := hseq h info e
      rw [hs]; rfl
    | _ => simp only [settle, memberTypeText]
  | _ => simp only [settle, memberTypeText]

theorem structSize_settle (w : Order) (ds : List Defn)
    (hd : ∀ d ∈ ds, (settle w d).byteSize = d.byteSize) (t : Int) :
    structSize t (ds.map (settle w)) = structSize t ds := by
  induction ds generalizing t with
  | nil => rfl
  | cons d ds ih =>
    have h1 := hd d List.mem_cons_self
    have h2 := ih fun d h => hd d (List.mem_cons_of_mem _ h)
    rw [List.map_cons]
    cases d with
    | padding h a =>
      cases a with
      | none => simp only [settle, structSize, Defn.byteSize]
      | some a => cases a <;> simp only [settle, structSize, Defn.byteSize, h2]
    | seq h info e =>
      by_cases hk : info.kind = .sequence
      · rw [settle_seq hk] at h1 ⊢; simp only [structSize, h1, h2]
      · rw [settle_stream hk] at h1 ⊢; simp only [structSize, h1, h2]
    | _ => simp only [settle] at h1 ⊢; simp only [structSize, h1, h2]

theorem settle_byteSize (d : Defn) : ∀ w, (settle w d).byteSize = d.byteSize := by
  induction d using Defn.ind with
  | seq h info e ih =>
    intro w
    by_cases hk : info.kind = .sequence
    · rw [settle_seq hk]; simp only [Defn.byteSize, ih]
    · rw [settle_stream hk]
      have : (settleByte e).byteSize = e.byteSize := by
        cases e <;> first | rfl | exact ih .native
      simp only [Defn.byteSize, this]
  | struct h ms ih =>
    intro w
    have := structSize_settle h.order ms (fun d hd => ih d hd _) 0
    rw [settle, settleAll_map]
    cases ms with
    | nil => rfl
    | cons m ms => simpa only [Defn.byteSize, List.map_cons] using this
  | member h d c dt vs ih => intro w; simp only [settle, Defn.byteSize, ih w]
  | union h ms ih => intro w; rw [settle]
  | _ => intros; simp only [settle, Defn.byteSize]

theorem settleByte_byteSize (d : Defn) : (settleByte d).byteSize = d.byteSize := by
  cases d <;> first | rfl | exact settle_byteSize _ _

theorem attributeLine_congr {d d' : Defn} (hn : d'.name = d.name) (hd : d'.hdr.description = d.hdr.description)
    (t : List Char) : attributeLine d' t = attributeLine d t := by
  unfold attributeLine
  generalize "    ".toList = a
  generalize " (".toList = b
  generalize "): ".toList = c
  rw [hn, hd]

theorem createClass_settle (E : Env) (nm : String) (description : Option String) (w : Order) (ms : List Defn) :
    createClass E nm description (ms.map (settle w)) = createClass E nm description ms := by
  have h1 : (ms.map (settle w)).map Defn.name = ms.map Defn.name := by
    rw [List.map_map]; exact List.map_congr_left fun d _ => settle_name w d
  have h2 : classDoc nm description (ms.map (settle w)) = classDoc nm description ms := by
    have : ((fun d => (memberTypeText d).map (attributeLine d)) ∘ settle w) =
        fun d => (memberTypeText d).map (attributeLine d) := by
      funext d
      have : attributeLine (settle w d) = attributeLine d :=
        funext fun t => attributeLine_congr (settle_hdr w d).1 (settle_hdr w d).2 t
      rw [Function.comp, settle_typeText, this]
    unfold classDoc
    rw [List.mapM_map, this]
  have h3 : plainTexts nm description (ms.map (settle w)) = plainTexts nm description ms := by
    simp only [plainTexts, List.all_map]
    congr 2
    funext d
    simp only [Function.comp, settle_hdr, settle_typeText]
  rw [createClass, createClass, h1, h2, h3]

/-! ### The maps of settled definitions -/

/-- The same outcome of creating a map. -/
inductive SameOutcome : Except Err DMap → Except Err DMap → Prop
  | ok {m m' : DMap} (h : SameMap m m') : SameOutcome (.ok m) (.ok m')
  | error (x : Err) : SameOutcome (.error x) (.error x)

theorem SameOutcome.symm {r r' : Except Err DMap} (h : SameOutcome r r') : SameOutcome r' r := by
  cases h with
  | ok h => exact .ok h.symm
  | error x => exact .error x

theorem SameOutcome.trans {r r' r'' : Except Err DMap} (h : SameOutcome r r') (h' : SameOutcome r' r'') :
    SameOutcome r r'' := by
  cases h with
  | ok h => cases h' with | ok h' => exact .ok (h.trans h')
  | error x => exact h'

/-- Names and byte orders under which a definition that is part of a whole of byte order
`w` and the settled definition have the same map. -/
def Placed (w : Order) (nm nm' : String) (o o' : Order) : Defn → Prop
  | .prim h _ _ _ | .uuid h _ _ => o = effective w h.order ∧ o' = o
  | .seq h info e => info.kind = .sequence → e.isComposite = false → o = effective w h.order ∧ o' = o
  | .struct h _ => nm = nm' ∧ o = h.order ∧ o' = o
  | _ => True

theorem settle_order (w : Order) (d : Defn) : (settle w d).order?.isSome = d.order?.isSome := by
  cases d with
  | seq h info e =>
    by_cases hk : info.kind = .sequence
    · rw [settle_seq hk]; rfl
    · rw [settle_stream hk]; rfl
  | _ => simp [settle, Defn.order?]

theorem placed_native (d : Defn) :
    Placed .native d.name (settle .native d).name d.orderOrNative (settle .native d).orderOrNative d := by
  rw [settle_name]
  cases d with
  | seq h info e =>
    intro hk hc
    rw [settle_seq hk]
    simp [Defn.orderOrNative, Defn.order?, effective_native, hc]
  | _ => simp [Placed, settle, Defn.orderOrNative, Defn.order?, effective_native]

/-- The name and byte order of the type of a member. -/
theorem placed_member (sname : String) (so : Order) (d : Defn)
    (hs : so ≠ .native → ∀ h ms, d = .struct h ms → h.order ≠ .native) :
    (∃ x, memberNameOrder sname so d = .error x ∧ memberNameOrder sname so (settle so d) = .error x) ∨
    ∃ n o n' o', memberNameOrder sname so d = .ok (n, o) ∧ memberNameOrder sname so (settle so d) = .ok (n', o') ∧
      Placed so n n' o o' d := by
  unfold memberNameOrder
  rw [settle_name]
  have hio := settle_order so d
  by_cases hn : so = .native
  · subst hn
    have := placed_native d
    rw [settle_name] at this
    exact .inr ⟨_, _, _, _, rfl, rfl, this⟩
  · simp only [if_neg hn]
    cases hd : d.order? with
    | none =>
      rw [hd] at hio
      cases hd' : (settle so d).order? with
      | none => exact .inl ⟨_, rfl, rfl⟩
      | some o' => rw [hd'] at hio; cases hio
    | some o =>
      rw [hd] at hio
      cases hd' : (settle so d).order? with
      | none => rw [hd'] at hio; cases hio
      | some o' =>
        refine .inr ?_
        have key : ∀ p p', (match some o with
            | none => Except.error Err.attribute
            | some .native => .ok ("_" ++ sname ++ "_" ++ d.name, so)
            | some o => .ok (d.name, o)) = .ok p →
            (match some o' with
            | none => Except.error Err.attribute
            | some .native => .ok ("_" ++ sname ++ "_" ++ d.name, so)
            | some o => .ok (d.name, o)) = .ok p' → Placed so p.1 p'.1 p.2 p'.2 d := by
          intro p p' hp hp'
          have h2 : p.2 = effective so o := by
            unfold effective
            cases o <;> cases hp <;> simp
          have h2' : p'.2 = effective so o' := by
            unfold effective
            cases o' <;> cases hp' <;> simp
          cases d with
          | prim h k s u =>
            simp only [settle, Defn.order?, Option.some.injEq] at hd hd'
            subst hd; subst hd'
            exact ⟨h2, by rw [h2', h2, effective_self]⟩
          | uuid h s u =>
            simp only [settle, Defn.order?, Option.some.injEq] at hd hd'
            subst hd; subst hd'
            exact ⟨h2, by rw [h2', h2, effective_self]⟩
          | seq h info e =>
            intro hk hc
            rw [settle_seq hk] at hd'
            simp only [Defn.order?, Option.some.injEq, hc, Bool.false_eq_true, if_false] at hd hd'
            subst hd; subst hd'
            exact ⟨h2, by rw [h2', h2, effective_self]⟩
          | struct h ms =>
            simp only [settle, Defn.order?, Option.some.injEq] at hd hd'
            subst hd; subst hd'
            have hne := hs hn h ms rfl
            have he : effective so h.order = h.order := by unfold effective; rw [if_neg hne]
            refine ⟨?_, by rw [h2, he], by rw [h2', h2]⟩
            rw [hp] at hp'
            cases hp'
            rfl
          | _ => trivial
        cases o <;> cases o' <;> exact ⟨_, _, _, _, rfl, rfl, key _ _ rfl rfl⟩

/-- `createMembers` without the cache. -/
def plainMembers (E : Env) (sname : String) (so : Order) : List Defn → Except Err (List MemInfo × List DMap)
  | [] => .ok ([], [])
  | d :: ds =>
    match memberNameOrder sname so d.target with
    | .error x => .error x
    | .ok (n, o) =>
      match createAs E n o d.target with
      | .error x => .error x
      | .ok m =>
        match plainMembers E sname so ds with
        | .error x => .error x
        | .ok (infos, maps) => .ok (d.memInfo :: infos, m :: maps)

theorem createMembers_plain (E : Env) (sname : String) (so : Order) (all : List Defn)
    (hd : DistinctTypes all) (ds : List Defn) (hsub : ∀ d ∈ ds, d ∈ all) (cache : List (String × DMap))
    (hc : ∀ p ∈ cache, ∃ x ∈ all, ∃ o, memberNameOrder sname so x.target = .ok (p.1, o) ∧
      createAs E p.1 o x.target = .ok p.2) :
    createMembers E sname so cache ds = plainMembers E sname so ds := by
  induction ds generalizing cache with
  | nil => rfl
  | cons d ds ih =>
    rw [createMembers_cons, plainMembers]
    cases hno : memberNameOrder sname so d.target with
    | error x => rfl
    | ok p =>
      obtain ⟨n, o⟩ := p
      simp only
      have hdm : ∀ p, cache.find? (·.1 == n) = some p → createAs E n o d.target = .ok p.2 := by
          intro p hp
          obtain ⟨x, hx, o', h1, h2⟩ := hc p (List.mem_of_find?_eq_some hp)
          have hpn : p.1 = n := by simpa using List.find?_some hp
          subst hpn
          have hda := hsub d List.mem_cons_self
          have hname : x.target = d.target := by
            rcases memberNameOrder_name h1 with e1 | e1 <;>
              rcases memberNameOrder_name hno with e2 | e2
            · exact hd.1 x hx d hda (e1.symm.trans e2)
            · have := hd.2 x hx
              rw [← e1, e2, head_copy] at this
              exact absurd rfl this
            · have := hd.2 d hda
              rw [← e2, e1, head_copy] at this
              exact absurd rfl this
            · have := e1.symm.trans e2
              exact hd.1 x hx d hda (String.append_right_inj _ |>.mp this)
          rw [hname] at h1 h2
          rw [hno] at h1
          cases h1
          exact h2
      have hrest : ∀ m, createAs E n o d.target = .ok m →
          createMembers E sname so ((n, m) :: cache) ds = plainMembers E sname so ds := by
        intro m hm
        refine ih (fun d hd => hsub d (List.mem_cons_of_mem _ hd)) _ fun p hp => ?_
        simp only [List.mem_cons] at hp
        rcases hp with rfl | hp
        · exact ⟨d, hsub d List.mem_cons_self, o, hno, hm⟩
        · exact hc p hp
      cases hp : cache.find? (·.1 == n) with
      | some p =>
        have := hdm p hp
        simp only [this, hrest _ this]
        rcases plainMembers E sname so ds with x | ⟨infos, maps⟩ <;> rfl
      | none =>
        cases hm : createAs E n o d.target with
        | error x => rfl
        | ok m =>
          simp only [hrest _ hm]
          rcases plainMembers E sname so ds with x | ⟨infos, maps⟩ <;> rfl

/-- The same outcome of creating the maps of members. -/
inductive SameMembers : Except Err (List MemInfo × List DMap) → Except Err (List MemInfo × List DMap) → Prop
  | ok {infos : List MemInfo} {maps maps' : List DMap} (h : SameMaps maps maps') :
      SameMembers (.ok (infos, maps)) (.ok (infos, maps'))
  | error (x : Err) : SameMembers (.error x) (.error x)

/-- The statement about one definition. -/
def SettleOk (E : Env) (d : Defn) : Prop :=
  d.Every Orderly → ∀ w nm nm' o o', Placed w nm nm' o o' d →
    SameOutcome (createAs E nm o d) (createAs E nm' o' (settle w d))

theorem plainMembers_settle (E : Env) (sname : String) (so : Order) (ds : List Defn)
    (hok : ∀ d ∈ ds, SettleOk E d.target) (hev : ∀ d ∈ ds, d.Every Orderly)
    (hs : so ≠ .native → ∀ d ∈ ds, ∀ h ms, d.target = .struct h ms → h.order ≠ .native) :
    SameMembers (plainMembers E sname so ds) (plainMembers E sname so (ds.map (settle so))) := by
  induction ds with
  | nil => exact .ok .nil
  | cons d ds ih =>
    have ih := ih (fun d h => hok d (List.mem_cons_of_mem _ h)) (fun d h => hev d (List.mem_cons_of_mem _ h))
      (fun hn d h => hs hn d (List.mem_cons_of_mem _ h))
    rw [List.map_cons, plainMembers, plainMembers, settle_target, settle_memInfo]
    rcases placed_member sname so d.target (fun hn => hs hn d List.mem_cons_self) with
      ⟨x, h1, h2⟩ | ⟨n, o, n', o', h1, h2, hp⟩
    · rw [h1, h2]; exact .error x
    · rw [h1, h2]
      simp only
      have := hok d List.mem_cons_self (hev d List.mem_cons_self).target so n n' o o' hp
      generalize createAs E n o d.target = r at this ⊢
      generalize createAs E n' o' (settle so d.target) = r' at this ⊢
      generalize plainMembers E sname so ds = q at ih ⊢
      generalize plainMembers E sname so (ds.map (settle so)) = q' at ih ⊢
      cases this with
      | error x => exact .error x
      | ok hm =>
        cases ih with
        | error x => exact .error x
        | ok ht => exact .ok (.cons hm ht)

theorem plainMembers_orders {E : Env} {sname : String} {so : Order} {ds : List Defn} (hn : so ≠ .native)
    {r} (h : plainMembers E sname so ds = .ok r) : ∀ d ∈ ds, d.order? ≠ none := by
  induction ds generalizing r with
  | nil => simp
  | cons d ds ih =>
    rw [plainMembers] at h
    split at h
    · cases h
    rename_i n o hno
    split at h
    · cases h
    split at h
    · cases h
    rename_i hr
    intro x hx
    rcases List.mem_cons.mp hx with rfl | hx
    · intro hx
      rw [memberNameOrder, if_neg hn] at hno
      cases x <;> simp [Defn.order?] at hx <;> simp [Defn.target, Defn.order?, hx] at hno
    · exact ih hr x hx

def isPad : Defn → Bool
  | .padding _ _ => true
  | _ => false

theorem isPad_iff (d : Defn) : isPad d = true ↔ ∃ h a, d = .padding h a := by
  cases d <;> simp [isPad]

theorem checkLinear_cons (last : Order) (d : Defn) (ds : List Defn) :
    checkLinear last (d :: ds) =
      if d.isComposite || isPad d then .ok false
      else
        match d.order? with
        | none => .error .attribute
        | some o =>
          if last ≠ .native ∧ o ≠ .native ∧ last ≠ o then .ok false
          else checkLinear o ds := by
  cases d <;> rfl

theorem checkLinear_composite (ds : List Defn) (ho : ∀ d ∈ ds, d.order? ≠ none)
    (hc : ∃ d ∈ ds, d.isComposite = true ∨ ∃ h a, d = .padding h a) (last : Order) :
    checkLinear last ds = .ok false := by
  induction ds generalizing last with
  | nil => obtain ⟨d, hd, -⟩ := hc; cases hd
  | cons d ds ih =>
    rw [checkLinear_cons]
    by_cases hd : d.isComposite = true ∨ ∃ h a, d = .padding h a
    · rw [← isPad_iff, ← Bool.or_eq_true] at hd
      rw [if_pos hd]
    · have hd' := hd
      rw [← isPad_iff, ← Bool.or_eq_true] at hd'
      rw [if_neg hd']
      have ih := ih (fun d h => ho d (List.mem_cons_of_mem _ h)) (by
        obtain ⟨x, hx, hx'⟩ := hc
        rcases List.mem_cons.mp hx with rfl | hx
        · exact absurd hx' hd
        · exact ⟨x, hx, hx'⟩)
      cases hq : d.order? with
      | none => exact absurd hq (ho d List.mem_cons_self)
      | some o =>
        simp only [ih]
        split <;> rfl

theorem checkLinear_simple (so : Order) (ds : List Defn)
    (hc : ∀ d ∈ ds, d.isComposite = false ∧ ∀ h a, d ≠ .padding h a)
    (ho : ∀ d ∈ ds, d.order? = some .native ∨ d.order? = some so) (last : Order)
    (hl : last = .native ∨ last = so) : checkLinear last ds = .ok true := by
  induction ds generalizing last with
  | nil => rfl
  | cons d ds ih =>
    have ih := ih (fun d h => hc d (List.mem_cons_of_mem _ h)) (fun d h => ho d (List.mem_cons_of_mem _ h))
    obtain ⟨h1, h2⟩ := hc d List.mem_cons_self
    have hnp : ¬ (d.isComposite || isPad d) = true := by
      rw [Bool.or_eq_true, isPad_iff, h1]
      rintro (h | ⟨h, a, rfl⟩)
      · cases h
      · exact h2 _ _ rfl
    rw [checkLinear_cons, if_neg hnp]
    rcases ho d List.mem_cons_self with ho | ho
    · rw [ho]
      simp only [ih .native (.inl rfl)]
      simp
    · rw [ho]
      simp only [ih so (.inr rfl)]
      rcases hl with rfl | rfl <;> simp

theorem settle_pad (w : Order) (d : Defn) : isPad (settle w d) = isPad d := by
  cases d with
  | seq h info e =>
    by_cases hk : info.kind = .sequence
    · rw [settle_seq hk]; rfl
    · rw [settle_stream hk]; rfl
  | _ => simp only [settle, isPad]

theorem settle_simple (w : Order) (d : Defn) (hc : d.isComposite = false)
    (ho : d.orderOrNative = .native ∨ d.orderOrNative = w) :
    (settle w d).orderOrNative = .native ∨ (settle w d).orderOrNative = w := by
  induction d using Defn.ind with
  | prim h k s u =>
    simp only [settle, Defn.orderOrNative, Defn.order?, Option.getD_some] at ho ⊢
    unfold effective
    rcases ho with ho | ho <;> simp [ho]
  | member h d c dt vs ih =>
    simp only [Defn.isComposite, Bool.or_eq_false_iff] at hc
    exact ih hc.2 ho
  | padding h a => simpa only [settle] using ho
  | constant h v => simpa only [settle] using ho
  | enumeration h vs => simpa only [settle] using ho
  | _ => simp [Defn.isComposite] at hc

theorem settle_simple_order {w : Order} {d : Defn} (hc : d.isComposite = false)
    (ho : d.order? = some .native ∨ d.order? = some w) :
    (settle w d).order? = some .native ∨ (settle w d).order? = some w := by
  have h1 := settle_order w d
  have h2 := settle_simple w d hc (by unfold Defn.orderOrNative; rcases ho with ho | ho <;> simp [ho])
  unfold Defn.orderOrNative at h2
  cases hd : (settle w d).order? with
  | none => rw [hd] at h1; rcases ho with ho | ho <;> simp [ho] at h1
  | some o => rw [hd] at h2; simpa using h2

theorem settle_native_order (d : Defn) : (settle .native d).isComposite = false →
    (settle .native d).order? = d.order? := by
  intro hc
  rw [settle_composite] at hc
  induction d using Defn.ind with
  | prim h k s u => simp only [settle, Defn.order?, effective_native]
  | member h d c dt vs ih =>
    simp only [Defn.isComposite, Bool.or_eq_false_iff] at hc
    simp only [settle, Defn.order?, ih hc.2]
  | padding h a => simp only [settle]
  | constant h v => simp only [settle]
  | enumeration h vs => simp only [settle]
  | _ => simp [Defn.isComposite] at hc

theorem settle_own_order (w : Order) (d : Defn) : d.isComposite = false → d.order? ≠ some .native →
    (settle w d).order? = d.order? := by
  intro hc ho
  induction d using Defn.ind with
  | prim h k s u =>
    simp only [Defn.order?, ne_eq, Option.some.injEq] at ho
    simp only [settle, Defn.order?, effective, ho, if_false]
  | member h d c dt vs ih =>
    simp only [Defn.isComposite, Bool.or_eq_false_iff] at hc
    simp only [settle, Defn.order?] at ho ⊢
    rw [ih hc.2 fun h => ho (by rw [h]; rfl)]
  | padding h a => simp only [settle]
  | constant h v => simp only [settle]
  | enumeration h vs => simp only [settle]
  | _ => simp [Defn.isComposite] at hc

theorem checkLinear_own (w : Order) (ds : List Defn) (ho : ∀ d ∈ ds, d.order? ≠ some .native) (last : Order) :
    checkLinear last (ds.map (settle w)) = checkLinear last ds := by
  induction ds generalizing last with
  | nil => rfl
  | cons d ds ih =>
    have ih := ih fun d h => ho d (List.mem_cons_of_mem _ h)
    rw [List.map_cons, checkLinear_cons, checkLinear_cons, settle_composite, settle_pad]
    by_cases hc : (d.isComposite || isPad d) = true
    · rw [if_pos hc, if_pos hc]
    · have : d.isComposite = false := by
        cases h : d.isComposite with
        | true => rw [h] at hc; exact absurd rfl hc
        | false => rfl
      rw [if_neg hc, if_neg hc, settle_own_order w d this (ho d List.mem_cons_self)]
      simp only [ih]

theorem checkLinear_native (ds : List Defn) (last : Order) :
    checkLinear last (ds.map (settle .native)) = checkLinear last ds := by
  induction ds generalizing last with
  | nil => rfl
  | cons d ds ih =>
    rw [List.map_cons, checkLinear_cons, checkLinear_cons, settle_composite, settle_pad]
    by_cases hc : (d.isComposite || isPad d) = true
    · rw [if_pos hc, if_pos hc]
    · have : d.isComposite = false := by
        cases h : d.isComposite with
        | true => rw [h] at hc; exact absurd rfl hc
        | false => rfl
      rw [if_neg hc, if_neg hc, settle_native_order d (by rw [settle_composite]; exact this)]
      simp only [ih]

/-- Whether a structure is read in one go does not change. -/
theorem checkLinear_settle {E : Env} {sname : String} {h : Hdr} {ms : List Defn} (hf : Orderly (.struct h ms))
    {r r'} (hr : plainMembers E sname h.order ms = .ok r)
    (hr' : plainMembers E sname h.order (ms.map (settle h.order)) = .ok r') :
    checkLinear h.order (ms.map (settle h.order)) = checkLinear h.order ms := by
  by_cases hn : h.order = .native
  · rw [hn, checkLinear_native]
  · obtain ⟨-, hf⟩ := hf
    obtain ⟨-, hf⟩ := hf hn
    by_cases hc : ∃ d ∈ ms, d.isComposite = true ∨ ∃ h a, d = .padding h a
    · rw [checkLinear_composite ms (plainMembers_orders hn hr) hc,
        checkLinear_composite _ (plainMembers_orders hn hr')]
      obtain ⟨d, hd, hc⟩ := hc
      refine ⟨_, List.mem_map_of_mem hd, ?_⟩
      rw [← isPad_iff] at hc ⊢
      rwa [settle_composite, settle_pad]
    · have hs : ∀ m ∈ ms, m.isComposite = false ∧ ∀ h a, m ≠ .padding h a := by
        intro m hm
        constructor
        · cases hmc : m.isComposite with
          | true => exact absurd ⟨m, hm, .inl hmc⟩ hc
          | false => rfl
        · intro h a hp
          exact hc ⟨m, hm, .inr ⟨h, a, hp⟩⟩
      by_cases hx : ∃ m ∈ ms, m.order? = some .native
      case neg => exact checkLinear_own _ ms (fun d hd he => hx ⟨d, hd, he⟩) _
      have ho := hf hs hx
      rw [checkLinear_simple h.order ms hs ho _ (.inr rfl), checkLinear_simple h.order _ ?_ ?_ _ (.inr rfl)]
      · intro d hd
        obtain ⟨m, hm, rfl⟩ := List.mem_map.mp hd
        refine ⟨by rw [settle_composite]; exact (hs m hm).1, fun h a hp => ?_⟩
        have := (isPad_iff _).mpr ⟨h, a, hp⟩
        rw [settle_pad, isPad_iff] at this
        obtain ⟨h, a, hp⟩ := this
        exact (hs m hm).2 h a hp
      · intro d hd
        obtain ⟨m, hm, rfl⟩ := List.mem_map.mp hd
        exact settle_simple_order (hs m hm).1 (ho m hm)

theorem distinctTypes_settle {w : Order} {ms : List Defn} (h : DistinctTypes ms) :
    DistinctTypes (ms.map (settle w)) := by
  constructor
  · intro x hx y hy hn
    obtain ⟨a, ha, rfl⟩ := List.mem_map.mp hx
    obtain ⟨b, hb, rfl⟩ := List.mem_map.mp hy
    simp only [settle_target, settle_name] at hn ⊢
    rw [h.1 a ha b hb hn]
  · intro x hx
    obtain ⟨a, ha, rfl⟩ := List.mem_map.mp hx
    simp only [settle_target, settle_name]
    exact h.2 a ha

theorem groupValues_settle (ident : String) (w : Order) (g : Defn) :
    groupValues ident (settle w g) = groupValues ident g := by
  cases g with
  | seq h info e =>
    by_cases hk : info.kind = .sequence
    · rw [settle_seq hk]; rfl
    · rw [settle_stream hk]; rfl
  | struct h ms =>
    rw [settle, settleAll_map]
    have : (ms.map (settle h.order)).find? (·.name == ident) =
        (ms.find? (·.name == ident)).map (settle h.order) := by
      rw [List.find?_map]
      congr 2
      funext d
      simp only [Function.comp, settle_name]
    simp only [groupValues, memberByName, this]
    cases hf : ms.find? (·.name == ident) with
    | none => rfl
    | some d =>
      simp only [Option.map_some]
      cases d with
      | seq h info e =>
        by_cases hk : info.kind = .sequence
        · rw [settle_seq hk]
        · rw [settle_stream hk]
      | member h d c dt vs => cases vs <;> simp only [settle]
      | _ => simp only [settle]
  | _ => simp only [settle, groupValues, memberByName]

theorem SameMaps.append {a a' b b' : List DMap} (h : SameMaps a a') (h' : SameMaps b b') :
    SameMaps (a ++ b) (a' ++ b') := by
  induction a generalizing a' with
  | nil => cases h; exact h'
  | cons m a ih => cases h with | cons hm ht => exact .cons hm (ih ht)

theorem SameMaps.replicate {m m' : DMap} (h : SameMap m m') (n : Nat) :
    SameMaps (List.replicate n m) (List.replicate n m') := by
  induction n with
  | zero => exact .nil
  | succ n ih => exact .cons h ih

theorem createGroup_settle (E : Env) (ident : String) (gs : List Defn)
    (hok : ∀ d ∈ gs, SettleOk E d) (hev : ∀ d ∈ gs, d.Every Orderly) (keys : List Lit) :
    (∃ x, createGroup E ident keys gs = .error x ∧ createGroup E ident keys (gs.map (settle .native)) = .error x) ∨
    ∃ ks maps maps', createGroup E ident keys gs = .ok (ks, maps) ∧
      createGroup E ident keys (gs.map (settle .native)) = .ok (ks, maps') ∧ SameMaps maps maps' := by
  induction gs generalizing keys with
  | nil => exact .inr ⟨_, _, _, rfl, rfl, .nil⟩
  | cons g gs ih =>
    have ih := ih (fun d h => hok d (List.mem_cons_of_mem _ h)) (fun d h => hev d (List.mem_cons_of_mem _ h))
    rw [List.map_cons, createGroup, createGroup, groupValues_settle]
    cases groupValues ident g with
    | error x => exact .inl ⟨x, rfl, rfl⟩
    | ok vs =>
      cases vs with
      | nil => exact ih keys
      | cons v vs =>
        simp only
        cases addKeys keys [v] with
        | error x => exact .inl ⟨x, rfl, rfl⟩
        | ok _ =>
          have := hok g List.mem_cons_self (hev g List.mem_cons_self) .native _ _ _ _ (placed_native g)
          simp only
          generalize createAs E g.name g.orderOrNative g = r at this ⊢
          generalize createAs E (settle .native g).name (settle .native g).orderOrNative (settle .native g) = r' at this ⊢
          cases this with
          | error x => exact .inl ⟨x, rfl, rfl⟩
          | ok hm =>
            simp only
            cases addKeys keys (v :: vs) with
            | error x => exact .inl ⟨x, rfl, rfl⟩
            | ok keys' =>
              simp only
              rcases ih keys' with ⟨x, h1, h2⟩ | ⟨ks, maps, maps', h1, h2, hs⟩
              · rw [h1, h2]; exact .inl ⟨x, rfl, rfl⟩
              · rw [h1, h2]
                exact .inr ⟨_, _, _, rfl, rfl, (SameMaps.replicate hm _).append hs⟩

/-- The end of the constructors. -/
theorem finishSeq_same {E : Env} {info : SeqInfo} {ei : ElemInfo} {m m' : DMap} (hs : SameMap m m')
    (ho : info.kind = .sequence → seqLinear info ei = true → m.operation = m'.operation) :
    SameOutcome (finishSeq E info m ei) (finishSeq E info m' ei) := by
  unfold finishSeq
  split
  · exact .error _
  · generalize info.kind = k at ho
    cases k with
    | sequence =>
      simp only
      by_cases hl : seqLinear info ei = true
      · rw [if_pos hl, if_pos hl, ho rfl hl]
        cases m'.operation with
        | error x => exact .error x
        | ok _ => exact .ok hs
      · rw [if_neg hl, if_neg hl]; exact .ok hs
    | _ =>
      simp only
      split
      · exact .error _
      · exact .ok hs

theorem finishStruct_same {l : Bool} {m m' : DMap} (hs : SameMap m m') (ho : m.operation = m'.operation) :
    SameOutcome (finishStruct m l) (finishStruct m' l) := by
  unfold finishStruct
  rw [ho]
  split
  · cases m'.operation with
    | error x => exact .error x
    | ok _ => exact .ok hs
  · exact .ok hs

theorem simple_orderStr {E : Env} {n : String} {o : Order} {d : Defn} {m m' : DMap}
    (hd : d.isComposite = false) (hm : createAs E n o d = .ok m) (hs : SameMap m m') :
    m.orderStr = m'.orderStr := by
  have : ∀ h i ei b e, m ≠ .seq h i ei b e := by
    intro h i ei b e hq
    subst hq
    cases d <;> simp [Defn.isComposite] at hd
    case prim h k s u =>
      simp only [createAs] at hm
      split at hm <;> cases hm
    all_goals
      simp only [createAs, Except.ok.injEq] at hm
      cases hm
  cases hs with
  | stream _ _ => exact absurd rfl (this _ _ _ _ _)
  | sequence _ _ _ => exact absurd rfl (this _ _ _ _ _)
  | prim ho => simp only [DMap.orderStr, ho]
  | uuid ho => simp only [DMap.orderStr, ho]
  | struct _ ho _ => simp only [DMap.orderStr, ho]
  | _ => simp only [DMap.orderStr]

/-- The name and byte order of the element of a sequence of byte order `o`. -/
theorem placed_element (w o o' : Order) (nm nm' : String) (e : Defn) (eo eo' : Order)
    (ho : e.isComposite = true ∧ w = .native ∨ e.isComposite = false ∧ o = w ∧ o' = w) (he : e.order? = some eo)
    (he' : (settle w e).order? = some eo') :
    Placed w
      (if (o ≠ .native && eo = .native && !e.isComposite : Bool) then "_" ++ nm ++ "_" ++ e.name else e.name)
      (if (o' ≠ .native && eo' = .native && !e.isComposite : Bool) then "_" ++ nm' ++ "_" ++ e.name else e.name)
      (if (o ≠ .native && eo = .native && !e.isComposite : Bool) then o else eo)
      (if (o' ≠ .native && eo' = .native && !e.isComposite : Bool) then o' else eo') e := by
  rcases ho with ⟨hc, rfl⟩ | ⟨hc, rfl, rfl⟩
  · have := placed_native e
    simp only [settle_name, Defn.orderOrNative, he, he', Option.getD_some] at this
    simpa [hc] using this
  · cases e with
    | prim h k s u =>
      simp only [settle, Defn.order?, Option.some.injEq] at he he'
      subst he; subst he'
      simp only [Placed, effective, Defn.isComposite]
      cases o' <;> cases h.order <;> simp
    | padding h a => trivial
    | constant h v => trivial
    | enumeration h vs => trivial
    | member h d c dt vs => trivial
    | _ => simp [Defn.isComposite] at hc

/-- The same outcome of creating the map of the element of a stream. -/
inductive SameHints : Except Err DMap → Except Err DMap → Prop
  | ok {m m' : DMap} (h : ∀ E off ctx, sizeHint E m off ctx = sizeHint E m' off ctx) : SameHints (.ok m) (.ok m')
  | error (x : Err) : SameHints (.error x) (.error x)

theorem createByte_settle {E : Env} {e : Defn} (ih : SettleOk E e) (hev : e.Every Orderly) (n n' : String)
    (o o' : Order) (hp : (∀ h k s u, e ≠ .prim h k s u) → Placed .native n n' o o' e) :
    SameHints (createAs E n o e) (createAs E n' o' (settleByte e)) := by
  have other : (∀ h k s u, e ≠ .prim h k s u) → settleByte e = settle .native e →
      SameHints (createAs E n o e) (createAs E n' o' (settleByte e)) := by
    intro hne hs
    rw [hs]
    have := ih hev .native n n' o o' (hp hne)
    generalize createAs E n o e = r at this ⊢
    generalize createAs E n' o' (settle .native e) = r' at this ⊢
    cases this with
    | error x => exact .error x
    | ok hm => exact .ok fun E off ctx => sizeHint_same E hm off ctx
  cases e with
  | prim h k s u =>
    simp only [settleByte, createAs]
    split
    · exact .error _
    · exact .ok fun E off ctx => by simp only [sizeHint]
  | _ => exact other (by simp) rfl

theorem placed_byte (o o' : Order) (nm nm' : String) (e : Defn) (eo eo' : Order) (he : e.order? = some eo)
    (he' : (settleByte e).order? = some eo') (hne : ∀ h k s u, e ≠ .prim h k s u) :
    Placed .native
      (if (o ≠ .native && eo = .native && !e.isComposite : Bool) then "_" ++ nm ++ "_" ++ e.name else e.name)
      (if (o' ≠ .native && eo' = .native && !e.isComposite : Bool) then "_" ++ nm' ++ "_" ++ e.name else e.name)
      (if (o ≠ .native && eo = .native && !e.isComposite : Bool) then o else eo)
      (if (o' ≠ .native && eo' = .native && !e.isComposite : Bool) then o' else eo') e := by
  cases hc : e.isComposite with
  | true =>
    have hs : settleByte e = settle .native e := by cases e <;> first | rfl | exact absurd rfl (hne _ _ _ _)
    rw [hs] at he'
    have := placed_native e
    simp only [settle_name, Defn.orderOrNative, he, he', Option.getD_some] at this
    simpa using this
  | false =>
    cases e with
    | prim h k s u => exact absurd rfl (hne _ _ _ _)
    | padding h a => trivial
    | constant h v => trivial
    | enumeration h vs => trivial
    | member h d c dt vs => trivial
    | _ => simp [Defn.isComposite] at hc

theorem createAs_seq_settle {E : Env} {h : Hdr} {info : SeqInfo} {e : Defn} (ih : SettleOk E e) :
    SettleOk E (.seq h info e) := by
  intro hev w nm nm' o o' hp
  obtain ⟨-, hev⟩ := hev
  by_cases hk : info.kind = .sequence
  · rw [settle_seq hk]
    generalize hw : (if e.isComposite = true then Order.native else effective w h.order) = w'
    have ho : e.isComposite = true ∧ w' = .native ∨ e.isComposite = false ∧ o = w' ∧ o' = w' := by
      cases hc : e.isComposite with
      | true => rw [hc, if_pos rfl] at hw; exact .inl ⟨rfl, hw.symm⟩
      | false =>
        rw [hc, if_neg (by simp)] at hw
        obtain ⟨h1, h2⟩ := hp hk hc
        exact .inr ⟨rfl, h1.trans hw, (h2.trans h1).trans hw⟩
    have hb : (Defn.seq { h with order := w' } info (settle w' e)).byteSize = (Defn.seq h info e).byteSize := by
      simp only [Defn.byteSize, settle_byteSize]
    rw [createAs, createAs, hb, settle_byteSize, settle_composite, settle_terminator, settle_name]
    have hio := settle_order w' e
    cases he : e.order? with
    | none =>
      rw [he] at hio
      cases he' : (settle w' e).order? with
      | none => exact .error _
      | some eo' => rw [he'] at hio; cases hio
    | some eo =>
      rw [he] at hio
      cases he' : (settle w' e).order? with
      | none => rw [he'] at hio; cases hio
      | some eo' =>
        have := ih hev _ _ _ _ _ (placed_element w' o o' nm nm' e eo eo' ho he he')
        simp only
        generalize hr : createAs E _ _ e = r at this ⊢
        generalize createAs E _ _ (settle w' e) = r' at this ⊢
        cases this with
        | error x => exact .error x
        | ok hm =>
          have hl : seqLinear info ⟨e.byteSize, e.isComposite, e.terminator?⟩ = true → e.isComposite = false := by
            intro hl
            cases hc : e.isComposite with
            | true => rw [hc] at hl; simp [seqLinear] at hl
            | false => rfl
          exact finishSeq_same (.sequence hk hm fun h => simple_orderStr (hl h) hr hm)
            fun _ h => seqOp_same hm (simple_orderStr (hl h) hr hm) hk
  · rw [settle_stream hk]
    have hb : (Defn.seq { h with order := .native } info (settleByte e)).byteSize =
        (Defn.seq h info e).byteSize := by
      simp only [Defn.byteSize, settleByte_byteSize]
    rw [createAs, createAs, hb, settleByte_byteSize, settleByte_composite, settleByte_terminator, settleByte_name]
    have hio : (settleByte e).order?.isSome = e.order?.isSome := by
      cases e <;> first | rfl | exact settle_order _ _
    cases he : e.order? with
    | none =>
      rw [he] at hio
      cases he' : (settleByte e).order? with
      | none => exact .error _
      | some eo' => rw [he'] at hio; cases hio
    | some eo =>
      rw [he] at hio
      cases he' : (settleByte e).order? with
      | none => rw [he'] at hio; cases hio
      | some eo' =>
        have := createByte_settle ih hev _ _ _ _ (placed_byte o o' nm nm' e eo eo' he he')
        simp only
        generalize createAs E _ _ e = r at this ⊢
        generalize createAs E _ _ (settleByte e) = r' at this ⊢
        cases this with
        | error x => exact .error x
        | ok hm => exact finishSeq_same (.stream hk hm) fun h => absurd h hk

theorem createAs_settle (E : Env) (d : Defn) : SettleOk E d := by
  suffices h : SettleOk E d ∧ SettleOk E d.target from h.1
  have both : ∀ {p : Prop}, p → p ∧ p := fun h => ⟨h, h⟩
  induction d using Defn.ind with
  | prim h k s u =>
    refine both ?_
    intro _ w nm nm' o o' hp
    obtain ⟨-, rfl⟩ := hp
    simp only [settle, createAs]
    split
    · exact .error _
    · exact .ok (.prim rfl)
  | uuid h s u =>
    refine both ?_
    intro _ w nm nm' o o' hp
    obtain ⟨-, rfl⟩ := hp
    simp only [settle, createAs]
    exact .ok (.uuid rfl)
  | seq h info e ih => exact ⟨createAs_seq_settle ih.1, createAs_seq_settle ih.1⟩
  | struct h ms ih =>
    refine both ?_
    intro hev w nm nm' o o' hp
    obtain ⟨rfl, rfl, rfl⟩ := hp
    obtain ⟨hf, hev⟩ := hev
    rw [everyDefn_iff] at hev
    have hb : (Defn.struct h (ms.map (settle h.order))).byteSize = (Defn.struct h ms).byteSize := by
      have := settle_byteSize (.struct h ms) .native
      rwa [settle, settleAll_map] at this
    rw [settle, settleAll_map, createAs, createAs, createClass_settle, hb,
      createMembers_plain E nm h.order ms hf.1 ms (fun d h => h) [] (by simp),
      createMembers_plain E nm h.order _ (distinctTypes_settle hf.1) _ (fun d h => h) [] (by simp)]
    cases createClass E nm h.description ms with
    | error x => exact .error x
    | ok instOk =>
      simp only
      have := plainMembers_settle E nm h.order ms (fun d hd => (ih d hd).2) hev fun hn => (hf.2 hn).1
      have hlin := @checkLinear_settle E nm h ms hf
      generalize plainMembers E nm h.order ms = r at this hlin ⊢
      generalize plainMembers E nm h.order (ms.map (settle h.order)) = r' at this hlin ⊢
      cases this with
      | error x => exact .error x
      | ok hm =>
        simp only
        rw [hlin rfl rfl]
        cases checkLinear h.order ms with
        | error x => exact .error x
        | ok linear => exact finishStruct_same (.struct rfl rfl hm) (structOp_same rfl hm)
  | group h base ident dflt ms ihb ihd ihm =>
    refine both ?_
    intro hev w nm nm' o o' hp
    simp only [Defn.Every] at hev
    obtain ⟨-, hb, hd, hm⟩ := hev
    rw [everyDefn_iff] at hm
    rw [everyOptDefn_iff] at hd
    rw [settle, settleAll_map, settleOpt_map, createAs, createAs]
    have h1 : (∃ x, createOpt E dflt = .error x ∧ createOpt E (dflt.map (settle .native)) = .error x) ∨
        ∃ m m', createOpt E dflt = .ok m ∧ createOpt E (dflt.map (settle .native)) = .ok m' ∧ SameOpt m m' := by
      cases dflt with
      | none => exact .inr ⟨_, _, rfl, rfl, .none⟩
      | some d =>
        have := (ihd d rfl).1 (hd d rfl) .native _ _ _ _ (placed_native d)
        simp only [Option.map_some, createOpt]
        generalize createAs E d.name d.orderOrNative d = r at this ⊢
        generalize createAs E (settle .native d).name (settle .native d).orderOrNative (settle .native d) = r' at this ⊢
        cases this with
        | error x => exact .inl ⟨x, rfl, rfl⟩
        | ok hm => exact .inr ⟨_, _, rfl, rfl, .some hm⟩
    rcases h1 with ⟨x, h1, h2⟩ | ⟨dm, dm', h1, h2, hdm⟩
    · rw [h1, h2]; exact .error x
    · rw [h1, h2]
      simp only
      have := ihb.1 hb .native _ _ _ _ (placed_native base)
      generalize createAs E base.name base.orderOrNative base = r at this ⊢
      generalize createAs E (settle .native base).name (settle .native base).orderOrNative (settle .native base) = r' at this ⊢
      cases this with
      | error x => exact .error x
      | ok hbm =>
        simp only [List.isEmpty_map]
        split
        · exact .error _
        · rcases createGroup_settle E ident ms (fun d hd => (ihm d hd).1) hm [] with
            ⟨x, h1, h2⟩ | ⟨ks, maps, maps', h1, h2, hs⟩
          · rw [h1, h2]; exact .error x
          · rw [h1, h2]; exact .ok (.group hbm hdm hs)
  | member h d c dt vs ih =>
    refine ⟨?_, ih.1⟩
    intro _ w nm nm' o o' hp
    simp only [settle, createAs]
    exact .ok .missing
  | padding h a =>
    refine both ?_
    intro _ w nm nm' o o' hp
    simp only [settle, createAs]
    exact .ok .padding
  | union h ms ih =>
    refine both ?_
    intro _ w nm nm' o o' hp
    simp only [settle, createAs]
    exact .ok .missing
  | constant h v =>
    refine both ?_
    intro _ w nm nm' o o' hp
    simp only [settle, createAs]
    exact .ok .constant
  | enumeration h vs =>
    refine both ?_
    intro _ w nm nm' o o' hp
    simp only [settle, createAs]
    exact .ok .enumeration
  | format h fo l =>
    refine both ?_
    intro _ w nm nm' o o' hp
    simp only [settle, createAs]
    exact .ok .format
  | family h b ms ihb ihm =>
    refine both ?_
    intro _ w nm nm' o o' hp
    simp only [settle, createAs]
    exact .ok .missing

/-- Definitions that settle to the same have the same map. -/
theorem createMap_settled (E : Env) {d d' : Defn} (hd : d.Every Orderly) (hd' : d'.Every Orderly)
    (h : settle .native d = settle .native d') : SameOutcome (createMap E d) (createMap E d') := by
  have h1 := createAs_settle E d hd .native _ _ _ _ (placed_native d)
  have h2 := createAs_settle E d' hd' .native _ _ _ _ (placed_native d')
  rw [← h] at h2
  exact h1.trans h2.symm

end Dtf
