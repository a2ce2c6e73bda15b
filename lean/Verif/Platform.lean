import Verif.Orders
import Verif.Fabric
/-!
Lemmas for C111: what does not depend on the byte order of the platform.
-/
namespace Dtf
namespace Spec

/-- The same Python on a platform that stores numbers least significant byte first
(`little`) or last. -/
def _root_.Dtf.Env.on (E : Env) (little : Bool) : Env := { E with nativeLittle := little }

/-- Whether every part of a definition that is read as a primitive value takes one byte. -/
def OneByte (d : Defn) : Prop := ∀ h k s u, d.target = .prim h k s u → s = .bytes 1

mutual
/-- Whether the byte order of every number of several bytes is told by the definition,
used in the byte order `o`: its own or, if it leaves it open, that of the structure it is a
member of or of the sequence it is an element of. Streams and strings are bytes, whatever
their elements. A structure that leaves its byte order open must have a member that is
composite or padding, or members of one byte only: one that has primitive members only is
read in a single operation, in the byte order of the structure (see `C111_refuted`). -/
def Portable (o : Order) : Defn → Prop
  | .prim _ _ s _ => o ≠ .native ∨ s = .bytes 1
  | .seq _ info e =>
    info.kind = .sequence →
      Portable (if e.isComposite then e.orderOrNative else effective o e.orderOrNative) e
  | .struct _ ms =>
    portableMembers o ms ∧
      (o = .native → (∃ d ∈ ms, d.isComposite ∨ d.target.isComposite ∨ ∃ h a, d = .padding h a) ∨
        ∀ d ∈ ms, OneByte d)
  | .group _ base _ dflt ms =>
    Portable base.orderOrNative base ∧ portableDefault dflt ∧ portableAll ms
  | .member _ d _ _ _ => Portable o d
  | _ => True
termination_by structural d => d
/-- The members of a structure in the byte order `o`. -/
def portableMembers (o : Order) : List Defn → Prop
  | [] => True
  | d :: ds => Portable (effective o d.target.orderOrNative) d ∧ portableMembers o ds
termination_by structural ds => ds
/-- The default of a group. -/
def portableDefault : Option Defn → Prop
  | none => True
  | some d => Portable d.orderOrNative d
termination_by structural d => d
/-- The members of a group. -/
def portableAll : List Defn → Prop
  | [] => True
  | d :: ds => Portable d.orderOrNative d ∧ portableAll ds
termination_by structural ds => ds
end

end Spec
open Spec

theorem portableMembers_iff (o : Order) (ds : List Defn) :
    portableMembers o ds ↔ ∀ d ∈ ds, Portable (effective o d.target.orderOrNative) d := by
  induction ds with
  | nil => simp [portableMembers]
  | cons d ds ih => simp [portableMembers, ih]

theorem portableAll_iff (ds : List Defn) : portableAll ds ↔ ∀ d ∈ ds, Portable d.orderOrNative d := by
  induction ds with
  | nil => simp [portableAll]
  | cons d ds ih => simp [portableAll, ih]

/-! ### Reading and writing numbers -/

/-- A byte order and codes that do not depend on the platform. -/
def Fixed (o : Order) (cs : List Code) : Prop := o ≠ .native ∨ ∀ c ∈ cs, c.size = 1

theorem isLittle_on {E : Env} {b : Bool} {o : Order} (h : o ≠ .native) :
    (E.on b).isLittle o = E.isLittle o := by
  cases o <;> first | rfl | exact absurd rfl h

theorem unsignedOf_short (x y : Bool) {bs : Bytes} (h : bs.length ≤ 1) :
    unsignedOf x bs = unsignedOf y bs := by
  rcases bs with _ | ⟨a, _ | ⟨b, bs⟩⟩
  · cases x <;> cases y <;> rfl
  · cases x <;> cases y <;> rfl
  · simp at h

theorem unpackOne_on (E : Env) (b : Bool) {o : Order} {c : Code} (h : Fixed o [c]) (bs : Bytes) :
    unpackOne (E.on b) o c (bs.take c.size) = unpackOne E o c (bs.take c.size) := by
  rcases h with h | h
  · unfold unpackOne; rw [isLittle_on h]; rfl
  · unfold unpackOne
    rw [unsignedOf_short ((E.on b).isLittle o) (E.isLittle o)
      (by have := h c (by simp); simp only [List.length_take]; omega)]
    rfl

theorem bytesOf_one (x y : Bool) (u : Nat) : bytesOf x 1 u = bytesOf y 1 u := by
  cases x <;> cases y <;> rfl

theorem packOne_on (E : Env) (b : Bool) {o : Order} {c : Code} (h : Fixed o [c]) (v : Val) :
    packOne (E.on b) o c v = packOne E o c v := by
  rcases h with h | h
  · unfold packOne; rw [isLittle_on h]; rfl
  · have hc := h c (by simp)
    have key : ∀ sg i, packInt ((E.on b).isLittle o) 1 sg i = packInt (E.isLittle o) 1 sg i := by
      intro sg i
      unfold packInt
      rw [bytesOf_one ((E.on b).isLittle o) (E.isLittle o), bytesOf_one ((E.on b).isLittle o) (E.isLittle o)]
    cases c <;> simp only [Code.size] at hc <;>
      first
      | omega
      | (simp only [packOne, Code.size]; congr 1; funext i; exact key _ i)

theorem unpackAll_on (E : Env) (b : Bool) {o : Order} {cs : List Code} (h : Fixed o cs) (bs : Bytes) :
    unpackAll (E.on b) o cs bs = unpackAll E o cs bs := by
  induction cs generalizing bs with
  | nil => rfl
  | cons c cs ih =>
    simp only [unpackAll]
    rw [unpackOne_on E b (h.imp id fun h c hc => h c (by simp_all)),
      ih (h.imp id fun h c hc => h c (by simp_all))]

theorem packAll_on (E : Env) (b : Bool) {o : Order} {cs : List Code} (h : Fixed o cs) (vs : List Val) :
    packAll (E.on b) o cs vs = packAll E o cs vs := by
  induction cs generalizing vs with
  | nil => cases vs <;> rfl
  | cons c cs ih =>
    cases vs with
    | nil => rfl
    | cons v vs =>
      simp only [packAll]
      rw [packOne_on E b (h.imp id fun h c hc => h c (by simp_all)),
        ih (h.imp id fun h c hc => h c (by simp_all))]

theorem readFrom_on (E : Env) (b : Bool) {op : Op} (h : Fixed op.order op.codes) (bs : Bytes) :
    op.readFrom (E.on b) bs = op.readFrom E bs := by
  unfold Op.readFrom; rw [unpackAll_on E b h]

theorem writeTo_on (E : Env) (b : Bool) {op : Op} (h : Fixed op.order op.codes) (vs : List Val) :
    op.writeTo (E.on b) vs = op.writeTo E vs := packAll_on E b h vs

/-! ### Maps -/

mutual
/-- A map that does not depend on the platform. -/
def Free : DMap → Prop
  | .prim h k s _ => ∀ c, primCode k s = some c → Fixed h.order [c]
  | .seq h info ei bsz e =>
    info.kind = .sequence → Free e ∧
      (seqLinear info ei = true → ∀ op, (DMap.seq h info ei bsz e).op = some op → Fixed op.order op.codes)
  | .struct h bsz l io infos maps =>
    freeAll maps ∧
      (l = true → ∀ op, (DMap.struct h bsz l io infos maps).op = some op → Fixed op.order op.codes)
  | .group _ _ base dflt _ maps => Free base ∧ freeOpt dflt ∧ freeAll maps
  | _ => True
termination_by structural m => m
def freeOpt : Option DMap → Prop
  | none => True
  | some m => Free m
termination_by structural m => m
def freeAll : List DMap → Prop
  | [] => True
  | m :: ms => Free m ∧ freeAll ms
termination_by structural ms => ms
end

theorem freeAll_iff (ms : List DMap) : freeAll ms ↔ ∀ m ∈ ms, Free m := by
  induction ms with
  | nil => simp [freeAll]
  | cons m ms ih => simp [freeAll, ih]

theorem bind_readFrom_on (E : Env) (b : Bool) {op : Option Op}
    (h : ∀ o, op = some o → Fixed o.order o.codes) (bs : Bytes) :
    (op.bind fun op => op.readFrom (E.on b) bs) = op.bind fun op => op.readFrom E bs := by
  cases op with
  | none => rfl
  | some op => exact readFrom_on E b (h op rfl) bs

theorem primRead_on (E : Env) (b : Bool) {o : Order} {k : PrimKind} {s : Size}
    (h : ∀ c, primCode k s = some c → Fixed o [c]) (bs : Bytes) :
    primRead (E.on b) o k s bs = primRead E o k s bs := by
  unfold primRead
  split
  · rfl
  · rename_i c hc
    rw [unpackOne_on E b (h c hc)]

theorem linearSeqMap_on (E : Env) (b : Bool) {bsz : Option Int} {op : Option Op} {elem : DMap}
    (h : ∀ o, op = some o → Fixed o.order o.codes) (bs : Bytes) (off : Nat) (ctx : Ctx) :
    linearSeqMap (E.on b) bsz op elem bs off ctx = linearSeqMap E bsz op elem bs off ctx := by
  unfold linearSeqMap
  rw [bind_readFrom_on E b h]

theorem linearStructMap_on (E : Env) (b : Bool) {hd : Hdr} {bsz : Option Int} {op : Option Op} {io : Bool}
    {infos : List MemInfo} {maps : List DMap}
    (h : ∀ o, op = some o → Fixed o.order o.codes) (bs : Bytes) (off : Nat) (ctx : Ctx) :
    linearStructMap (E.on b) hd bsz op io infos maps bs off ctx =
      linearStructMap E hd bsz op io infos maps bs off ctx := by
  unfold linearStructMap
  rw [bind_readFrom_on E b h]

mutual
/-- They read the same on every platform. -/
theorem mapStream_on (E : Env) (b : Bool) : ∀ (m : DMap), Free m → ∀ bs off depth ctx,
    mapStream (E.on b) m bs off depth ctx = mapStream E m bs off depth ctx
  | .missing, _, _, _, _, _ => rfl
  | .prim h k s u, hf, bs, off, depth, ctx => by
    simp only [Free] at hf
    simp only [mapStream, primMap, primRead_on E b hf]
  | .uuid _ _ _, _, _, _, _, _ => rfl
  | .padding _ _, _, _, _, _, _ => rfl
  | .seq h info ei bsz e, hf, bs, off, depth, ctx => by
    simp only [Free] at hf
    simp only [mapStream]
    generalize hk : info.kind = k at hf ⊢
    cases k with
    | stream => rfl
    | string enc => rfl
    | sequence =>
      obtain ⟨he, ho⟩ := hf rfl
      have hs : (fun off c => mapStream (E.on b) e bs off (depth + 1) c) =
          fun off c => mapStream E e bs off (depth + 1) c :=
        funext fun off => funext fun c => mapStream_on E b e he bs off (depth + 1) c
      simp only [hs]
      split
      · rename_i hl
        exact linearSeqMap_on E b (ho hl) bs off ctx
      · rfl
  | .struct h bsz l io infos maps, hf, bs, off, depth, ctx => by
    simp only [Free] at hf
    simp only [mapStream, structLoop_on E b maps hf.1]
    split
    · rename_i hl
      exact linearStructMap_on E b (hf.2 hl) bs off ctx
    · rfl
  | .constant _, _, _, _, _, _ => rfl
  | .enumeration _ _, _, _, _, _, _ => rfl
  | .format _ _, _, _, _, _, _ => rfl
  | .group _ _ base dflt _ maps, hf, bs, off, depth, ctx => by
    simp only [Free] at hf
    simp only [mapStream, mapStream_on E b base hf.1, mapOpt_on E b dflt hf.2.1, mapNth_on E b maps hf.2.2]
theorem mapOpt_on (E : Env) (b : Bool) : ∀ (m : Option DMap), freeOpt m → ∀ bs off depth ctx,
    mapOpt (E.on b) m bs off depth ctx = mapOpt E m bs off depth ctx
  | none, _, _, _, _, _ => rfl
  | some m, hf, bs, off, depth, ctx => by
    simp only [freeOpt] at hf
    simp only [mapOpt, mapStream_on E b m hf]
theorem mapNth_on (E : Env) (b : Bool) : ∀ (ms : List DMap), freeAll ms → ∀ i bs off depth ctx,
    mapNth (E.on b) ms i bs off depth ctx = mapNth E ms i bs off depth ctx
  | [], _, _, _, _, _, _ => rfl
  | m :: ms, hf, i, bs, off, depth, ctx => by
    simp only [freeAll] at hf
    cases i with
    | zero => simp only [mapNth, mapStream_on E b m hf.1]
    | succ i => simp only [mapNth, mapNth_on E b ms hf.2]
theorem structLoop_on (E : Env) (b : Bool) : ∀ (ms : List DMap), freeAll ms → ∀ cls bs depth infos skip s,
    structLoop (E.on b) cls bs depth infos ms skip s = structLoop E cls bs depth infos ms skip s
  | [], _, _, _, _, _, _, _ => rfl
  | m :: ms, hf, cls, bs, depth, infos, skip, s => by
    simp only [freeAll] at hf
    rw [structLoop.eq_def, structLoop.eq_def]
    cases infos with
    | nil => rfl
    | cons info infos =>
      cases skip with
      | succ skip => simp only [structLoop_on E b ms hf.2]
      | zero =>
        have hc : ∀ i ns, evalCondition (E.on b) i ns = evalCondition E i ns := fun _ _ => rfl
        simp only [structLoop_on E b ms hf.2, mapStream_on E b m hf.1, hc]
end

theorem linearFold_on (E : Env) (b : Bool) {op : Option Op} (h : ∀ o, op = some o → Fixed o.order o.codes)
    (v : Val) (names : List String) :
    linearSeqFold (E.on b) op v = linearSeqFold E op v ∧
      linearStructFold (E.on b) op names v = linearStructFold E op names v := by
  cases op with
  | none => exact ⟨rfl, rfl⟩
  | some op =>
    have hw := fun vs => writeTo_on E b (h op rfl) vs
    refine ⟨?_, by simp only [linearStructFold, hw]⟩
    unfold linearSeqFold
    cases v.iter with
    | none => rfl
    | some vs => simp only [hw]

mutual
/-- They write the same on every platform. -/
theorem fold_on (E : Env) (b : Bool) : ∀ (m : DMap), Free m → ∀ v ns, fold (E.on b) m v ns = fold E m v ns
  | .missing, _, _, _ => rfl
  | .prim h k s u, hf, v, ns => by
    simp only [Free] at hf
    simp only [fold, primFold]
    cases foldValue k v with
    | none => rfl
    | some x =>
      generalize primCode k s = c at hf
      cases c with
      | none => rfl
      | some c => simp only [packOne_on E b (hf c rfl)]
  | .uuid _ _ _, _, _, _ => rfl
  | .padding _ _, _, _, _ => rfl
  | .seq h info ei bsz e, hf, v, ns => by
    simp only [Free] at hf
    simp only [fold]
    generalize hk : info.kind = k at hf ⊢
    cases k with
    | stream => rfl
    | string enc => rfl
    | sequence =>
      obtain ⟨he, ho⟩ := hf rfl
      by_cases hl : seqLinear info ei = true
      · simp only [hl, if_true]
        exact (linearFold_on E b (ho hl) v []).1
      · rw [if_neg hl, if_neg hl]
  | .struct h bsz l io infos maps, hf, v, ns => by
    simp only [Free] at hf
    simp only [fold, foldMembers_on E b maps hf.1]
    split
    · rename_i hl
      exact (linearFold_on E b (hf.2 hl) v _).2
    · rfl
  | .constant _, _, _, _ => rfl
  | .enumeration _ _, _, _, _ => rfl
  | .format _ _, _, _, _ => rfl
  | .group _ _ _ _ _ _, _, _, _ => rfl
theorem foldMembers_on (E : Env) (b : Bool) : ∀ (ms : List DMap), freeAll ms → ∀ v infos,
    foldMembers (E.on b) v infos ms = foldMembers E v infos ms
  | [], _, _, _ => rfl
  | m :: ms, hf, v, infos => by
    simp only [freeAll] at hf
    have h1 := fold_on E b m hf.1
    have h2 := foldMembers_on E b ms hf.2
    rw [foldMembers.eq_def, foldMembers.eq_def]
    cases infos with
    | nil => rfl
    | cons info infos => cases m <;> simp only [h1, h2]
end

mutual
/-- Size hints are the same on every platform. -/
theorem sizeHint_on (E : Env) (b : Bool) : ∀ (m : DMap) off ctx, sizeHint (E.on b) m off ctx = sizeHint E m off ctx
  | .missing, _, _ => rfl
  | .prim _ _ _ _, _, _ => rfl
  | .uuid _ _ _, _, _ => rfl
  | .padding _ _, _, _ => rfl
  | .seq h info ei bsz e, off, ctx => by
    have : (fun c => sizeHint (E.on b) e 0 c) = fun c => sizeHint E e 0 c := funext fun c => sizeHint_on E b e 0 c
    simp only [sizeHint, this]
    rfl
  | .struct h bsz l io infos maps, off, ctx => by
    simp only [sizeHint, hintMembers_on E b maps]
  | .constant _, _, _ => rfl
  | .enumeration _ _, _, _ => rfl
  | .format _ _, _, _ => rfl
  | .group _ _ base dflt _ maps, off, ctx => by
    simp only [sizeHint, sizeHint_on E b base, hintNth_on E b maps]
theorem hintNth_on (E : Env) (b : Bool) : ∀ (ms : List DMap) i off ctx,
    hintNth (E.on b) ms i off ctx = hintNth E ms i off ctx
  | [], _, _, _ => rfl
  | m :: ms, i, off, ctx => by
    cases i with
    | zero => simp only [hintNth, sizeHint_on E b m]
    | succ i => simp only [hintNth, hintNth_on E b ms]
theorem hintMembers_on (E : Env) (b : Bool) : ∀ (ms : List DMap) skip total sub,
    hintMembers (E.on b) ms skip total sub = hintMembers E ms skip total sub
  | [], _, _, _ => rfl
  | m :: ms, skip, total, sub => by
    cases skip with
    | succ skip => simp only [hintMembers, hintMembers_on E b ms]
    | zero => simp only [hintMembers, hintMembers_on E b ms, sizeHint_on E b m]
end

/-! ### Creating maps -/

theorem charName_on (E : Env) (b : Bool) (acc cs : List Char) : charName (E.on b) acc cs = charName E acc cs := by
  induction cs generalizing acc with
  | nil => rfl
  | cons c cs ih => simp only [charName, ih]; rfl

theorem escapeOk_on (E : Env) (b : Bool) (c : Char) (cs : List Char) : escapeOk (E.on b) c cs = escapeOk E c cs := by
  unfold escapeOk
  simp only [charName_on]

theorem escapesOk_on (E : Env) (b : Bool) : ∀ cs : List Char, escapesOk (E.on b) cs = escapesOk E cs
  | [] => rfl
  | [c] => by
    simp only [escapesOk]
  | c :: e :: rest => by
    rw [escapesOk.eq_def, escapesOk.eq_def E]
    simp only [escapeOk_on, escapesOk_on E b rest, escapesOk_on E b (e :: rest)]

theorem attrNamesOk_on (E : Env) (b : Bool) (seen ns : List String) :
    attrNamesOk (E.on b) seen ns = attrNamesOk E seen ns := by
  induction ns generalizing seen with
  | nil => rfl
  | cons n ns ih => simp only [attrNamesOk, ih]; rfl

theorem createClass_on (E : Env) (b : Bool) (nm : String) (ds : Option String) (ms : List Defn) :
    createClass (E.on b) nm ds ms = createClass E nm ds ms := by
  have hv : validateClass (E.on b) nm (ms.map Defn.name) = validateClass E nm (ms.map Defn.name) := by
    unfold validateClass
    rw [attrNamesOk_on]
    rfl
  have hr : ∀ x y, readDoc (E.on b) x y = readDoc E x y := by
    intro x y; unfold readDoc; rw [escapesOk_on]
  have hp : (E.on b).pyIdent = E.pyIdent := rfl
  unfold createClass
  simp only [hv, hr, hp]

mutual
/-- Maps are created alike on every platform. -/
theorem createAs_on (E : Env) (b : Bool) : ∀ (d : Defn) nm o, createAs (E.on b) nm o d = createAs E nm o d
  | .prim _ _ _ _, _, _ => rfl
  | .uuid _ _ _, _, _ => rfl
  | .padding _ _, _, _ => rfl
  | .seq h info e, nm, o => by
    simp only [createAs, createAs_on E b e]
    rfl
  | .struct h ms, nm, o => by
    simp only [createAs, createMembers_on E b ms, createClass_on]
  | .union _ _, _, _ => rfl
  | .constant _ _, _, _ => rfl
  | .enumeration _ _, _, _ => rfl
  | .format _ _ _, _, _ => rfl
  | .family _ _ _, _, _ => rfl
  | .group h base ident dflt ms, nm, o => by
    simp only [createAs, createOpt_on E b dflt, createAs_on E b base, createGroup_on E b ms]
  | .member _ _ _ _ _, _, _ => rfl
theorem createOpt_on (E : Env) (b : Bool) : ∀ (d : Option Defn), createOpt (E.on b) d = createOpt E d
  | none => rfl
  | some d => by simp only [createOpt, createAs_on E b d]
theorem createMembers_on (E : Env) (b : Bool) : ∀ (ds : List Defn) sname so cache,
    createMembers (E.on b) sname so cache ds = createMembers E sname so cache ds
  | [], _, _, _ => rfl
  | .member _ d _ _ _ :: ds, sname, so, cache => by
    simp only [createMembers, createMembers_on E b ds, createAs_on E b d]
  | .prim h k s u :: ds, sname, so, cache => by
    simp only [createMembers, createMembers_on E b ds, createAs_on E b (.prim h k s u)]
  | .uuid h s u :: ds, sname, so, cache => by
    simp only [createMembers, createMembers_on E b ds, createAs_on E b (.uuid h s u)]
  | .padding h a :: ds, sname, so, cache => by
    simp only [createMembers, createMembers_on E b ds, createAs_on E b (.padding h a)]
  | .seq h i e :: ds, sname, so, cache => by
    simp only [createMembers, createMembers_on E b ds, createAs_on E b (.seq h i e)]
  | .struct h ms :: ds, sname, so, cache => by
    simp only [createMembers, createMembers_on E b ds, createAs_on E b (.struct h ms)]
  | .union h ms :: ds, sname, so, cache => by
    simp only [createMembers, createMembers_on E b ds, createAs_on E b (.union h ms)]
  | .constant h v :: ds, sname, so, cache => by
    simp only [createMembers, createMembers_on E b ds, createAs_on E b (.constant h v)]
  | .enumeration h v :: ds, sname, so, cache => by
    simp only [createMembers, createMembers_on E b ds, createAs_on E b (.enumeration h v)]
  | .format h o l :: ds, sname, so, cache => by
    simp only [createMembers, createMembers_on E b ds, createAs_on E b (.format h o l)]
  | .family h x y :: ds, sname, so, cache => by
    simp only [createMembers, createMembers_on E b ds, createAs_on E b (.family h x y)]
  | .group h x i d y :: ds, sname, so, cache => by
    simp only [createMembers, createMembers_on E b ds, createAs_on E b (.group h x i d y)]
theorem createGroup_on (E : Env) (b : Bool) : ∀ (ds : List Defn) ident keys,
    createGroup (E.on b) ident keys ds = createGroup E ident keys ds
  | [], _, _ => rfl
  | d :: ds, ident, keys => by
    simp only [createGroup, createAs_on E b d, createGroup_on E b ds]
end

/-! ### Portable definitions -/

theorem createMembers_ordered (E : Env) (sname : String) (so : Order) (Q : DMap → Prop) (ds : List Defn)
    (hQ : ∀ d ∈ ds, ∀ n m, createAs E n (effective so d.target.orderOrNative) d.target = .ok m → Q m)
    (cache : List (String × DMap)) (hc : ∀ p ∈ cache, Q p.2)
    (infos : List MemInfo) (maps : List DMap)
    (h : createMembers E sname so cache ds = .ok (infos, maps)) : ∀ m ∈ maps, Q m := by
  induction ds generalizing cache infos maps with
  | nil => simp [createMembers] at h; obtain ⟨rfl, rfl⟩ := h; simp
  | cons d ds ih =>
    rw [createMembers_cons] at h
    split at h
    · cases h
    rename_i n o hno
    split at h
    · cases h
    rename_i m hm
    split at h
    · cases h
    rename_i infos' maps' hr
    simp only [Except.ok.injEq, Prod.mk.injEq] at h
    obtain ⟨rfl, rfl⟩ := h
    have ho : o = effective so d.target.orderOrNative := by
      unfold memberNameOrder at hno
      unfold Defn.orderOrNative at hno ⊢
      unfold effective
      split at hno
      · rename_i hso
        cases hno
        split <;> simp_all
      · split at hno
        · cases hno
        · rename_i h1
          cases hno
          simp [h1]
        · rename_i o' hne h1
          cases hno
          simp only [h1, Option.getD_some]
          rw [if_neg fun hh => hne hh]
    have hqm : Q m := by
      split at hm
      · rename_i p hp
        cases hm
        exact hc p (List.mem_of_find?_eq_some hp)
      · rw [ho] at hm
        exact hQ d List.mem_cons_self _ _ hm
    have h3 := ih (fun d hd => hQ d (List.mem_cons_of_mem _ hd)) _
      (by intro p hp; simp only [List.mem_cons] at hp; rcases hp with rfl | hp
          · exact hqm
          · exact hc p hp) infos' maps' hr
    intro x hx
    simp only [List.mem_cons] at hx
    rcases hx with rfl | hx
    · exact hqm
    · exact h3 x hx

theorem createGroup_ordered (E : Env) (ident : String) (Q : DMap → Prop) (ds : List Defn)
    (hQ : ∀ d ∈ ds, ∀ m, createAs E d.name d.orderOrNative d = .ok m → Q m) (keys ks : List Lit)
    (maps : List DMap) (h : createGroup E ident keys ds = .ok (ks, maps)) :
    ∀ m ∈ maps, Q m := by
  induction ds generalizing keys ks maps with
  | nil => simp [createGroup] at h; obtain ⟨rfl, rfl⟩ := h; simp
  | cons d ds ih =>
    have hq' := fun d hd => hQ d (List.mem_cons_of_mem _ hd)
    rw [createGroup] at h
    split at h
    · cases h
    · exact ih hq' _ _ _ h
    split at h
    · cases h
    split at h
    · cases h
    rename_i m hm
    split at h
    · cases h
    split at h
    · cases h
    rename_i ks' maps' hr
    simp only [Except.ok.injEq, Prod.mk.injEq] at h
    obtain ⟨rfl, rfl⟩ := h
    intro x hx
    rcases List.mem_append.mp hx with hx | hx
    · rw [List.eq_of_mem_replicate hx]
      exact hQ d List.mem_cons_self _ hm
    · exact ih hq' _ _ _ hr x hx

theorem oneByte_code {k : PrimKind} {c : Code} (h : primCode k (.bytes 1) = some c) : c.size = 1 :=
  primCode_size h

/-- The maps of the members of a structure whose members are of one byte. -/
theorem members_oneByte {E : Env} {nm : String} {o : Order} {ms : List Defn} {infos : List MemInfo}
    {maps : List DMap} (h1 : ∀ d ∈ ms, OneByte d) (hmem : createMembers E nm o [] ms = .ok (infos, maps)) :
    ∀ m ∈ maps, ∀ h k s u, m = .prim h k s u → s = .bytes 1 := by
  refine (createMembers_all E nm o (fun m => ∀ h k s u, m = .prim h k s u → s = .bytes 1) ms ?_ [] (by simp)
    infos maps hmem).2.2
  rintro d hd n o' m hm h k s u rfl
  have hone := h1 d hd
  unfold OneByte at hone
  generalize d.target = x at hm hone
  cases x with
  | prim h' k' s' u' =>
    simp only [createAs] at hm
    split at hm <;> cases hm
    exact hone _ _ _ _ rfl
  | seq h' i e =>
    obtain ⟨_, _, _, _, _, hx, _⟩ := createAs_seq hm
    cases hx
  | struct h' ms =>
    obtain ⟨_, _, _, _, _, _, _, hx, _⟩ := createAs_struct hm
    cases hx
  | group =>
    obtain ⟨_, _, _, _, _, _, _, _, hx⟩ := createAs_group hm
    cases hx
  | _ => simp [createAs] at hm

theorem all2_right {P : DMap → Code → Prop} {Q : DMap → Prop} {R : Code → Prop} {ms : List DMap} {cs : List Code}
    (h : All2 P ms cs) (hq : ∀ m ∈ ms, Q m) (hr : ∀ m c, P m c → Q m → R c) : ∀ c ∈ cs, R c := by
  induction h with
  | nil => simp
  | cons h t ih =>
    intro c hc
    rcases List.mem_cons.mp hc with rfl | hc
    · exact hr _ _ h (hq _ List.mem_cons_self)
    · exact ih (fun m hm => hq m (List.mem_cons_of_mem _ hm)) c hc

/-- The map of a portable definition does not depend on the platform. -/
theorem createAs_free {E : Env} (d : Defn) :
    ∀ nm o m, createAs E nm o d = .ok m → Portable o d → Free m := by
  suffices h : (∀ nm o m, createAs E nm o d = .ok m → Portable o d → Free m) ∧
      (∀ nm o m, createAs E nm o d.target = .ok m → Portable o d → Free m) from h.1
  induction d using Defn.ind with
  | prim h k s u =>
    refine and_self_iff.mpr ?_
    intro nm o m hm hd
    simp only [createAs] at hm
    simp only [Portable] at hd
    split at hm <;> cases hm
    simp only [Free]
    intro c hc
    rcases hd with hd | rfl
    · exact .inl hd
    · exact .inr (by simpa using oneByte_code hc)
  | seq h i e ih =>
    refine and_self_iff.mpr ?_
    intro nm o m hm hd
    obtain ⟨n, eo, em, he, ⟨eo', heo, rfl⟩, rfl, -⟩ := createAs_seq hm
    simp only [Free]
    intro hk
    simp only [Portable] at hd
    have hp := hd hk
    have hoo : e.orderOrNative = eo' := by simp [Defn.orderOrNative, heo]
    have hfix : (if o ≠ .native ∧ eo' = .native ∧ e.isComposite = false then o else eo') =
        if e.isComposite then e.orderOrNative else effective o e.orderOrNative := by
      rw [hoo]; unfold effective
      cases e.isComposite <;> by_cases h1 : o = .native <;> by_cases h2 : eo' = .native <;> simp [h1, h2]
    have hfree := ih.1 _ _ _ he (by rw [hfix]; exact hp)
    refine ⟨hfree, ?_⟩
    intro hl op hop
    have hc : e.isComposite = false := by
      cases hx : e.isComposite with
      | false => rfl
      | true => simp [seqLinear, hx] at hl
    obtain ⟨h', k, sz, u, c, n', ec, rfl, hm', hec, hcode, -, hcs, -, -⟩ := seq_op hk hm hc op hop
    simp only [DMap.seq.injEq] at hm'
    obtain ⟨-, -, -, -, rfl⟩ := hm'
    simp only [Free] at hfree
    rw [hec] at hfree
    rcases hfree c hcode with h1 | h1
    · exact .inl h1
    · refine .inr fun x hx => ?_
      rw [hcs] at hx
      rw [List.eq_of_mem_replicate hx]
      exact h1 c (by simp)
  | struct h ms ih =>
    refine and_self_iff.mpr ?_
    intro nm o m hm hd
    obtain ⟨io, infos, maps, l, -, hmem, hlin, rfl, -⟩ := createAs_struct hm
    simp only [Portable, portableMembers_iff] at hd
    simp only [Free, freeAll_iff]
    refine ⟨createMembers_ordered E nm o Free ms
      (fun d hdm n m' hm' => (ih d hdm).2 _ _ _ hm' (hd.1 d hdm)) [] (by simp) infos maps hmem, ?_⟩
    rintro rfl op hop
    obtain ⟨hord, hcs⟩ := struct_op hm op hop
    by_cases ho : o = .native
    · rcases hd.2 ho with ⟨x, hx, hxc⟩ | h1
      · have hnc := checkLinear_true hlin x hx
        rcases hxc with hxc | hxc | ⟨hh, a, rfl⟩
        · rw [hnc.1] at hxc; cases hxc
        · rw [hnc.2.1] at hxc; cases hxc
        · exact absurd rfl (hnc.2.2.2 hh a)
      · refine .inr (all2_right hcs (members_oneByte h1 hmem) ?_)
        rintro m c ⟨hh, k, s, u, rfl, hcode⟩ hs
        have := hs _ _ _ _ rfl
        subst this
        exact oneByte_code hcode
    · exact .inl (by rw [hord]; exact ho)
  | group h base ident dflt ms ih1 ih2 ih3 =>
    refine and_self_iff.mpr ?_
    intro nm o m hm hd
    obtain ⟨dm, bm, keys, maps, hdm, hbm, -, hg, rfl⟩ := createAs_group hm
    simp only [Portable, portableAll_iff] at hd
    simp only [Free, freeAll_iff]
    refine ⟨ih1.1 _ _ _ hbm hd.1, ?_, createGroup_ordered E ident Free ms
      (fun d hdm m' hm' => (ih3 d hdm).1 _ _ _ hm' (hd.2.2 d hdm)) _ _ _ hg⟩
    cases dflt with
    | none => simp [createOpt] at hdm; subst hdm; simp [freeOpt]
    | some d =>
      simp only [createOpt] at hdm
      split at hdm
      · cases hdm
      · rename_i hx
        cases hdm
        simp only [freeOpt]
        exact (ih2 d rfl).1 _ _ _ hx (by simpa only [portableDefault] using hd.2.1)
  | member h d c dt vs ih =>
    refine ⟨?_, fun nm o m hm hd => ih.1 nm o m hm (by simpa only [Portable] using hd)⟩
    intro nm o m hm hd
    simp only [createAs, Except.ok.injEq] at hm
    subst hm
    simp [Free]
  | _ =>
    refine and_self_iff.mpr ?_
    intro nm o m hm hd
    simp only [createAs, Except.ok.injEq] at hm
    subst hm
    simp [Free]

/-! ### The reader -/

theorem toInt_on (E : Env) (b : Bool) : (E.on b).toInt = E.toInt := by
  funext y
  cases y <;> rfl

theorem resolve_on (E : Env) (b : Bool) : resolve (E.on b) = resolve E := rfl

theorem readSize_on (E : Env) (b : Bool) : readSize (E.on b) = readSize E := by
  funext s y
  unfold readSize
  rw [toInt_on]

theorem readFixed_on (E : Env) (b : Bool) : readFixed (E.on b) = readFixed E := by
  unfold readFixed
  rw [readSize_on]

theorem readInteger_on (E : Env) (b : Bool) : readInteger (E.on b) = readInteger E := by
  unfold readInteger
  rw [readFixed_on]

theorem readRule_on (E : Env) (b : Bool) : readRule (E.on b) = readRule E := by
  funext y
  unfold readRule
  rw [toInt_on]

theorem readElements_on (E : Env) (b : Bool) : readElements (E.on b) = readElements E := by
  unfold readElements
  rw [readRule_on, resolve_on]

theorem readPadding_on (E : Env) (b : Bool) : readPadding (E.on b) = readPadding E := by
  unfold readPadding
  rw [toInt_on]

theorem addFamily_on (E : Env) (b : Bool) (reg : Registry) : ∀ (ms : List Yaml) (acc : List Defn),
    addFamily (E.on b) reg acc ms = addFamily E reg acc ms
  | [], _ => rfl
  | m :: ms, acc => by simp only [addFamily, resolve_on, addFamily_on E b reg ms]

theorem addGroup_on (E : Env) (b : Bool) (reg : Registry) (ident : String) : ∀ (ms : List Yaml) (acc : List Defn),
    addGroup (E.on b) reg ident acc ms = addGroup E reg ident acc ms
  | [], _ => rfl
  | m :: ms, acc => by simp only [addGroup, resolve_on, addGroup_on E b reg ident ms]

theorem readFamily_on (E : Env) (b : Bool) (reg : Registry) : readFamily (E.on b) reg = readFamily E reg := by
  unfold readFamily
  simp only [resolve_on, addFamily_on]

theorem readGroup_on (E : Env) (b : Bool) (reg : Registry) : readGroup (E.on b) reg = readGroup E reg := by
  unfold readGroup readDefault
  simp only [resolve_on, addGroup_on]

theorem readTyped_on (E : Env) (b : Bool) (reg : Registry) (rm : Bool → Yaml → Except Err Defn) :
    readTyped (E.on b) reg rm = readTyped E reg rm := by
  funext t isMember d name
  cases t <;> simp only [readTyped, readBoolean, readCharacter, readFloat, readUuid, readSequence, readStream, readString,
    readFixed_on, readInteger_on, readElements_on, readPadding_on, readFamily_on, readGroup_on]

theorem readMember_on (E : Env) (b : Bool) (reg : Registry) : ∀ n, readMember (E.on b) reg n = readMember E reg n
  | 0 => rfl
  | n + 1 => by
    funext c d
    simp only [readMember, readTyped_on, resolve_on, readMember_on E b reg n]

theorem readDefinition_on (E : Env) (b : Bool) (reg : Registry) (d : Yaml) :
    readDefinition (E.on b) reg d = readDefinition E reg d := by
  simp only [readDefinition, readTyped_on, readMember_on]

theorem readDocs_on (E : Env) (b : Bool) : ∀ (ds : List Yaml) (reg : Registry),
    readDocs (E.on b) reg ds = readDocs E reg ds
  | [], _ => rfl
  | d :: ds, reg => by
    simp only [readDocs, readDefinition_on, readDocs_on E b ds]
    rfl

theorem readFileObject_on (E : Env) (b : Bool) (reg : Registry) (f : YamlFile) :
    readFileObject (E.on b) reg f = readFileObject E reg f := by
  simp only [readFileObject, readDocs_on]

end Dtf
