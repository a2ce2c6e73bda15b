import Verif.Platform
/-!
Lemmas for C112: definitions that leave all byte orders open, and the same definitions with
one byte order written everywhere.
-/
namespace Dtf
namespace Spec

mutual
/-- The definition with the byte order `o` written everywhere a byte order can be. -/
def _root_.Dtf.Defn.inOrder (o : Order) : Defn → Defn
  | .prim h k s u => .prim { h with order := o } k s u
  | .uuid h s u => .uuid { h with order := o } s u
  | .padding h a => .padding { h with order := o } a
  | .seq h info e => .seq { h with order := o } info (e.inOrder o)
  | .struct h ms => .struct { h with order := o } (inOrderAll o ms)
  | .union h ms => .union { h with order := o } (inOrderAll o ms)
  | .constant h v => .constant h v
  | .enumeration h vs => .enumeration h vs
  | .format h fo l => .format h (fo.map fun _ => o) l
  | .family h b ms => .family h (b.inOrder o) (inOrderAll o ms)
  | .group h base ident dflt ms =>
    .group { h with order := o } (base.inOrder o) ident (inOrderOpt o dflt) (inOrderAll o ms)
  | .member h d c t vs => .member h (d.inOrder o) c t vs
termination_by structural d => d
def inOrderAll (o : Order) : List Defn → List Defn
  | [] => []
  | d :: ds => d.inOrder o :: inOrderAll o ds
termination_by structural ds => ds
def inOrderOpt (o : Order) : Option Defn → Option Defn
  | none => none
  | some d => some (d.inOrder o)
termination_by structural d => d
end

/-- A definition that leaves its byte order open. It is no UUID, whose value is `None` if
the byte order is open (C108), and the types of the members of a structure have a byte
order, which semantic types (constants, enumerations) have not. -/
def LeftOpen (d : Defn) : Prop :=
  d.orderOrNative = .native ∧ (∀ h s u, d ≠ .uuid h s u) ∧
  match d with
  | .struct _ ms => ∀ m ∈ ms, m.order? ≠ none
  | .member _ d _ _ _ => d.order? ≠ none
  | _ => True

end Spec
open Spec

theorem inOrderAll_map (o : Order) (ds : List Defn) : inOrderAll o ds = ds.map (·.inOrder o) := by
  induction ds with
  | nil => rfl
  | cons d ds ih => rw [inOrderAll, ih]; rfl

theorem inOrderOpt_map (o : Order) (d : Option Defn) : inOrderOpt o d = d.map (·.inOrder o) := by
  cases d <;> rfl

theorem inOrder_name (o : Order) (d : Defn) : (d.inOrder o).name = d.name := by
  cases d <;> simp only [Defn.inOrder, Defn.name, Defn.hdr]

theorem inOrder_description (o : Order) (d : Defn) : (d.inOrder o).hdr.description = d.hdr.description := by
  cases d <;> simp only [Defn.inOrder, Defn.hdr]

theorem inOrder_order (o : Order) (d : Defn) (h : d.Every LeftOpen) :
    (d.inOrder o).order? = d.order?.map fun _ => o := by
  induction d using Defn.ind with
  | member hh d c t vs ih =>
    have h1 := h.self.2.2
    simp only [Defn.Every] at h
    simp only at h1
    simp only [Defn.inOrder, Defn.order?, ih h.2]
    cases hx : d.order? with
    | none => exact absurd hx h1
    | some x => rfl
  | format hh fo l => cases fo <;> rfl
  | _ => simp only [Defn.inOrder, Defn.order?, Option.map]

theorem inOrder_composite (o : Order) (d : Defn) : (d.inOrder o).isComposite = d.isComposite := by
  induction d using Defn.ind with
  | member hh d c t vs ih => simp only [Defn.inOrder, Defn.isComposite, ih]
  | _ => simp only [Defn.inOrder, Defn.isComposite]

theorem inOrder_terminator (o : Order) (d : Defn) : (d.inOrder o).terminator? = d.terminator? := by
  cases d <;> simp only [Defn.inOrder, Defn.terminator?]

theorem inOrder_target (o : Order) (d : Defn) : (d.inOrder o).target = d.target.inOrder o := by
  cases d <;> simp only [Defn.inOrder, Defn.target]

theorem inOrder_memInfo (o : Order) (d : Defn) : (d.inOrder o).memInfo = d.memInfo := by
  cases d <;> simp only [Defn.inOrder, Defn.memInfo, Defn.name, Defn.hdr]

theorem inOrder_typeText (o : Order) (d : Defn) : memberTypeText (d.inOrder o) = memberTypeText d := by
  cases d with
  | member h d c dt vs => cases d <;> simp only [Defn.inOrder, memberTypeText]
  | _ => simp only [Defn.inOrder, memberTypeText]

theorem structSize_inOrder (o : Order) (ds : List Defn)
    (hd : ∀ d ∈ ds, (d.inOrder o).byteSize = d.byteSize) (t : Int) :
    structSize t (ds.map (·.inOrder o)) = structSize t ds := by
  induction ds generalizing t with
  | nil => rfl
  | cons d ds ih =>
    have h1 := hd d List.mem_cons_self
    have h2 := ih fun d h => hd d (List.mem_cons_of_mem _ h)
    rw [List.map_cons]
    cases d with
    | padding h a =>
      cases a with
      | none => simp only [Defn.inOrder, structSize, Defn.byteSize]
      | some a => cases a <;> simp only [Defn.inOrder, structSize, Defn.byteSize, h2]
    | _ => simp only [Defn.inOrder] at h1 ⊢; simp only [structSize, h1, h2]

theorem unionSize_inOrder (o : Order) (ds : List Defn)
    (hd : ∀ d ∈ ds, (d.inOrder o).byteSize = d.byteSize) (t : Int) :
    unionSize t (ds.map (·.inOrder o)) = unionSize t ds := by
  induction ds generalizing t with
  | nil => rfl
  | cons d ds ih =>
    have h1 := hd d List.mem_cons_self
    have h2 := ih fun d h => hd d (List.mem_cons_of_mem _ h)
    rw [List.map_cons]
    simp only [unionSize, h1, h2]

theorem inOrder_byteSize (o : Order) (d : Defn) : (d.inOrder o).byteSize = d.byteSize := by
  induction d using Defn.ind with
  | seq h info e ih => simp only [Defn.inOrder, Defn.byteSize, ih]
  | struct h ms ih =>
    have := structSize_inOrder o ms ih 0
    rw [Defn.inOrder, inOrderAll_map]
    cases ms with
    | nil => rfl
    | cons m ms => simpa only [Defn.byteSize, List.map_cons] using this
  | union h ms ih =>
    have := unionSize_inOrder o ms ih 0
    rw [Defn.inOrder, inOrderAll_map]
    cases ms with
    | nil => rfl
    | cons m ms => simpa only [Defn.byteSize, List.map_cons] using this
  | member h d c dt vs ih => simp only [Defn.inOrder, Defn.byteSize, ih]
  | _ => simp only [Defn.inOrder, Defn.byteSize]

theorem createClass_inOrder (E : Env) (nm : String) (description : Option String) (o : Order) (ms : List Defn) :
    createClass E nm description (ms.map (·.inOrder o)) = createClass E nm description ms := by
  have h1 : (ms.map (·.inOrder o)).map Defn.name = ms.map Defn.name := by
    rw [List.map_map]; exact List.map_congr_left fun d _ => inOrder_name o d
  have h2 : classDoc nm description (ms.map (·.inOrder o)) = classDoc nm description ms := by
    have : ((fun d => (memberTypeText d).map (attributeLine d)) ∘ (·.inOrder o)) =
        fun d => (memberTypeText d).map (attributeLine d) := by
      funext d
      have : attributeLine (d.inOrder o) = attributeLine d :=
        funext fun t => attributeLine_congr (inOrder_name o d) (inOrder_description o d) t
      rw [Function.comp, inOrder_typeText, this]
    unfold classDoc
    rw [List.mapM_map, this]
  have h3 : plainTexts nm description (ms.map (·.inOrder o)) = plainTexts nm description ms := by
    simp only [plainTexts, List.all_map]
    congr 2
    funext d
    simp only [Function.comp, inOrder_name, inOrder_description, inOrder_typeText]
  rw [createClass, createClass, h1, h2, h3]

theorem find_inOrder (o : Order) (n : String) (ms : List Defn) :
    (ms.map (·.inOrder o)).find? (·.name == n) = (ms.find? (·.name == n)).map (·.inOrder o) := by
  induction ms with
  | nil => rfl
  | cons m ms ih =>
    rw [List.map_cons, List.find?_cons, List.find?_cons, inOrder_name]
    split
    · rfl
    · exact ih

theorem groupValues_inOrder (o : Order) (ident : String) (d : Defn) :
    groupValues ident (d.inOrder o) = groupValues ident d := by
  have key : ∀ x : Option Defn,
      (match (Except.ok (x.map (·.inOrder o)) : Except Err (Option Defn)) with
        | .error e => .error e
        | .ok none => .error .format
        | .ok (some (.member _ _ _ _ none)) => .error .format
        | .ok (some (.member _ _ _ _ (some vs))) => .ok vs
        | .ok (some _) => .error .attribute : Except Err (List Lit)) =
      match (Except.ok x : Except Err (Option Defn)) with
        | .error e => .error e
        | .ok none => .error .format
        | .ok (some (.member _ _ _ _ none)) => .error .format
        | .ok (some (.member _ _ _ _ (some vs))) => .ok vs
        | .ok (some _) => .error .attribute := by
    intro x
    cases x with
    | none => rfl
    | some x => cases x with
      | member h d c t vs => cases vs <;> rfl
      | _ => rfl
  cases d with
  | struct h ms =>
    simp only [Defn.inOrder, groupValues, memberByName, inOrderAll_map, find_inOrder]
    exact key _
  | union h ms =>
    simp only [Defn.inOrder, groupValues, memberByName, inOrderAll_map, find_inOrder]
    exact key _
  | _ => simp only [Defn.inOrder, groupValues, memberByName]

theorem checkLinear_inOrder (o last : Order) (hl : last = .native ∨ last = o) (ms : List Defn)
    (h : ∀ m ∈ ms, m.Every LeftOpen) :
    checkLinear last (ms.map (·.inOrder o)) = checkLinear .native ms := by
  induction ms generalizing last with
  | nil => rfl
  | cons m ms ih =>
    have hm := h m List.mem_cons_self
    have ih := fun l hl => ih l hl fun m hm => h m (List.mem_cons_of_mem _ hm)
    have hp : isPad (m.inOrder o) = isPad m := by cases m <;> simp only [Defn.inOrder, isPad]
    rw [List.map_cons, checkLinear_cons, checkLinear_cons, hp, inOrder_composite, inOrder_order o m hm]
    split
    · rfl
    have hn := hm.self.1
    unfold Defn.orderOrNative at hn
    cases hx : m.order? with
    | none => rfl
    | some x =>
      rw [hx] at hn
      simp only [Option.getD_some] at hn
      subst hn
      simp only [Option.map_some, ne_eq, not_true_eq_false, false_and, if_false]
      rw [if_neg (by rcases hl with rfl | rfl <;> simp), ih o (.inr rfl)]

/-! ### Maps -/

mutual
/-- The map with the byte order `o` everywhere. -/
def DMap.inOrder (o : Order) : DMap → DMap
  | .missing => .missing
  | .prim h k s u => .prim { h with order := o } k s u
  | .uuid h s u => .uuid { h with order := o } s u
  | .padding h a => .padding { h with order := o } a
  | .seq h info ei b e => .seq { h with order := o } info ei b (e.inOrder o)
  | .struct h b l io infos maps => .struct { h with order := o } b l io infos (mapsInOrder o maps)
  | .constant h => .constant h
  | .enumeration h vs => .enumeration h vs
  | .format h l => .format h l
  | .group h ident base dflt keys maps =>
    .group { h with order := o } ident (base.inOrder o) (mapOptInOrder o dflt) keys (mapsInOrder o maps)
termination_by structural m => m
def mapsInOrder (o : Order) : List DMap → List DMap
  | [] => []
  | m :: ms => m.inOrder o :: mapsInOrder o ms
termination_by structural ms => ms
def mapOptInOrder (o : Order) : Option DMap → Option DMap
  | none => none
  | some m => some (m.inOrder o)
termination_by structural m => m
end

theorem mapsInOrder_map (o : Order) (ms : List DMap) : mapsInOrder o ms = ms.map (·.inOrder o) := by
  induction ms with
  | nil => rfl
  | cons d ds ih => rw [mapsInOrder, ih]; rfl

mutual
theorem fmt_inOrder (o : Order) : ∀ m : DMap, (m.inOrder o).fmt = m.fmt
  | .missing => rfl
  | .prim _ _ _ _ => rfl
  | .uuid _ _ _ => rfl
  | .padding _ _ => rfl
  | .seq h info ei b e => by
    have ih := fmt_inOrder o e
    rw [DMap.inOrder, DMap.fmt.eq_def, DMap.fmt.eq_def (.seq _ _ _ _ _)]
    cases e <;> simp only [DMap.inOrder] at ih ⊢ <;> simp only [ih]
  | .struct h b l io infos maps => by simp only [DMap.inOrder, DMap.fmt, fmts_inOrder o maps]
  | .constant _ => rfl
  | .enumeration _ _ => rfl
  | .format _ _ => rfl
  | .group _ _ _ _ _ _ => rfl
theorem fmts_inOrder (o : Order) : ∀ ms : List DMap, fmts (mapsInOrder o ms) = fmts ms
  | [] => rfl
  | m :: ms => by
    have ih := fmt_inOrder o m
    rw [mapsInOrder, fmts.eq_def, fmts.eq_def (_ :: _)]
    simp only [fmts_inOrder o ms]
    cases m <;> simp only [DMap.inOrder] at ih ⊢ <;> simp only [ih]
end

theorem orderStr_inOrder (o : Order) : ∀ m : DMap, (m.inOrder o).orderStr = m.orderStr.map (Option.map fun _ => o)
  | .missing => rfl
  | .prim _ _ _ _ => rfl
  | .uuid _ _ _ => rfl
  | .padding _ _ => rfl
  | .seq h info ei b e => by
    have ih := orderStr_inOrder o e
    simp only [DMap.inOrder]
    cases e <;> simp only [DMap.inOrder] at ih ⊢ <;> first | exact ih | rfl
  | .struct h b l io infos maps => by simp only [DMap.inOrder, DMap.orderStr]; rfl
  | .constant _ => rfl
  | .enumeration _ _ => rfl
  | .format _ _ => rfl
  | .group _ _ _ _ _ _ => rfl

/-- The operation in the byte order `o`. -/
def Op.inOrder (o : Order) (op : Op) : Op := { op with order := o }

theorem operation_inOrder (o : Order) (m : DMap) :
    (m.inOrder o).operation = m.operation.map (Option.map (Op.inOrder o)) := by
  unfold DMap.operation
  rw [orderStr_inOrder, fmt_inOrder]
  rcases m.orderStr with x | os
  · rfl
  rcases m.fmt with x | f
  · rfl
  rcases f with _ | _ | ⟨c, f⟩
  · rfl
  · rfl
  rcases os with _ | os
  · rfl
  simp only [Except.map, Option.map, mkOp]
  cases parseCodes none (c :: f) <;> rfl

theorem op_inOrder (o : Order) (m : DMap) : (m.inOrder o).op = m.op.map (Op.inOrder o) := by
  unfold DMap.op
  rw [operation_inOrder]
  rcases m.operation with x | x <;> rfl

/-! ### Reading and writing -/

theorem unpackAll_little (E : Env) {o o' : Order} (h : E.isLittle o = E.isLittle o') (cs : List Code) (bs : Bytes) :
    unpackAll E o cs bs = unpackAll E o' cs bs := by
  induction cs generalizing bs with
  | nil => rfl
  | cons c cs ih => simp only [unpackAll, ih, unpackOne, h]

theorem packOne_little (E : Env) {o o' : Order} (h : E.isLittle o = E.isLittle o') (c : Code) (v : Val) :
    packOne E o c v = packOne E o' c v := by
  unfold packOne; rw [h]

theorem packAll_little (E : Env) {o o' : Order} (h : E.isLittle o = E.isLittle o') (cs : List Code) (vs : List Val) :
    packAll E o cs vs = packAll E o' cs vs := by
  induction cs generalizing vs with
  | nil => cases vs <;> rfl
  | cons c cs ih => cases vs <;> simp only [packAll, ih, packOne_little E h]

theorem bind_readFrom_little (E : Env) {o o' : Order} (h : E.isLittle o = E.isLittle o') (op : Option Op) (bs : Bytes) :
    ((op.map (Op.inOrder o)).bind fun op => op.readFrom E bs) =
      (op.map (Op.inOrder o')).bind fun op => op.readFrom E bs := by
  cases op with
  | none => rfl
  | some op =>
    simp only [Option.map, Option.bind, Op.readFrom, Op.inOrder]
    rw [unpackAll_little E h]

theorem linearValues_inOrder (o : Order) (infos : List MemInfo) (maps : List DMap) (vs : List Val) :
    linearValues infos (mapsInOrder o maps) vs = linearValues infos maps vs := by
  induction maps generalizing infos vs with
  | nil => rfl
  | cons m maps ih =>
    cases vs with
    | nil => cases infos <;> rfl
    | cons v vs =>
      cases infos with
      | nil => rfl
      | cons i infos =>
        cases m <;> simp only [mapsInOrder, DMap.inOrder, linearValues, ih]

theorem linearSeqMap_little (E : Env) {o o' : Order} (h : E.isLittle o = E.isLittle o') (bsz : Option Int) (op : Option Op)
    (e : DMap) (bs : Bytes) (off : Nat) (ctx : Ctx) :
    linearSeqMap E bsz (op.map (Op.inOrder o)) (e.inOrder o) bs off ctx =
      linearSeqMap E bsz (op.map (Op.inOrder o')) (e.inOrder o') bs off ctx := by
  unfold linearSeqMap
  rw [bind_readFrom_little E h]
  cases e <;> simp only [DMap.inOrder]

theorem linearStructMap_little (E : Env) {o o' : Order} (h : E.isLittle o = E.isLittle o') (hd : Hdr) (bsz : Option Int)
    (op : Option Op) (io : Bool) (infos : List MemInfo) (maps : List DMap) (bs : Bytes) (off : Nat) (ctx : Ctx) :
    linearStructMap E { hd with order := o } bsz (op.map (Op.inOrder o)) io infos (mapsInOrder o maps) bs off ctx =
      linearStructMap E { hd with order := o' } bsz (op.map (Op.inOrder o')) io infos (mapsInOrder o' maps) bs off ctx := by
  unfold linearStructMap
  rw [bind_readFrom_little E h]
  simp only [linearValues_inOrder]

/-- No UUID. -/
def NoUuid (m : DMap) : Prop := ∀ h s u, m ≠ .uuid h s u

theorem missing_inOrder (o o' : Order) (m : Option DMap) :
    groupMapMissing (mapOptInOrder o m) = groupMapMissing (mapOptInOrder o' m) := by
  cases m with
  | none => rfl
  | some m => cases m <;> rfl

theorem getElem_inOrder (o : Order) (ms : List DMap) (i : Nat) :
    (mapsInOrder o ms)[i]? = mapOptInOrder o ms[i]? := by
  rw [mapsInOrder_map, List.getElem?_map]
  cases ms[i]? <;> rfl

mutual
/-- They read the same in two byte orders that are the same on the platform. -/
theorem mapStream_little (E : Env) {o o' : Order} (h : E.isLittle o = E.isLittle o') : ∀ (m : DMap), m.Every NoUuid →
    ∀ bs off depth ctx, mapStream E (m.inOrder o) bs off depth ctx = mapStream E (m.inOrder o') bs off depth ctx
  | .missing, _, _, _, _, _ => rfl
  | .prim hd k s u, _, bs, off, depth, ctx => by
    simp only [DMap.inOrder, mapStream, primMap, primRead, unpackOne, h]
  | .uuid hd s u, hu, _, _, _, _ => absurd rfl (hu.self hd s u)
  | .padding _ _, _, _, _, _, _ => rfl
  | .seq hd info ei bsz e, hu, bs, off, depth, ctx => by
    simp only [DMap.Every] at hu
    have hs : (fun off c => mapStream E (e.inOrder o) bs off (depth + 1) c) =
        fun off c => mapStream E (e.inOrder o') bs off (depth + 1) c :=
      funext fun off => funext fun c => mapStream_little E h e hu.2 bs off (depth + 1) c
    have h1 := op_inOrder o (.seq hd info ei bsz e)
    have h2 := op_inOrder o' (.seq hd info ei bsz e)
    simp only [DMap.inOrder] at h1 h2 ⊢
    simp only [mapStream, hs, h1, h2, linearSeqMap_little E h]
  | .struct hd bsz l io infos maps, hu, bs, off, depth, ctx => by
    simp only [DMap.Every] at hu
    have h1 := op_inOrder o (.struct hd bsz l io infos maps)
    have h2 := op_inOrder o' (.struct hd bsz l io infos maps)
    simp only [DMap.inOrder] at h1 h2 ⊢
    simp only [mapStream, h1, h2, linearStructMap_little E h, structLoop_little E h maps hu.2]
  | .constant _, _, _, _, _, _ => rfl
  | .enumeration _ _, _, _, _, _, _ => rfl
  | .format _ _, _, _, _, _, _ => rfl
  | .group hd ident base dflt keys maps, hu, bs, off, depth, ctx => by
    simp only [DMap.Every] at hu
    simp only [DMap.inOrder, mapStream, mapStream_little E h base hu.2.1, mapOpt_little E h dflt hu.2.2.1,
      mapNth_little E h maps hu.2.2.2, getElem_inOrder, missing_inOrder o o']
theorem mapOpt_little (E : Env) {o o' : Order} (h : E.isLittle o = E.isLittle o') : ∀ (m : Option DMap), everyOptMap NoUuid m →
    ∀ bs off depth ctx, mapOpt E (mapOptInOrder o m) bs off depth ctx = mapOpt E (mapOptInOrder o' m) bs off depth ctx
  | none, _, _, _, _, _ => rfl
  | some m, hf, bs, off, depth, ctx => by
    simp only [everyOptMap] at hf
    simp only [mapOptInOrder, mapOpt, mapStream_little E h m hf]
theorem mapNth_little (E : Env) {o o' : Order} (h : E.isLittle o = E.isLittle o') : ∀ (ms : List DMap), everyMap NoUuid ms →
    ∀ i bs off depth ctx, mapNth E (mapsInOrder o ms) i bs off depth ctx = mapNth E (mapsInOrder o' ms) i bs off depth ctx
  | [], _, _, _, _, _, _ => rfl
  | m :: ms, hf, i, bs, off, depth, ctx => by
    simp only [everyMap] at hf
    cases i with
    | zero => simp only [mapsInOrder, mapNth, mapStream_little E h m hf.1]
    | succ i => simp only [mapsInOrder, mapNth, mapNth_little E h ms hf.2]
theorem structLoop_little (E : Env) {o o' : Order} (h : E.isLittle o = E.isLittle o') : ∀ (ms : List DMap), everyMap NoUuid ms →
    ∀ cls bs depth infos skip s, structLoop E cls bs depth infos (mapsInOrder o ms) skip s =
      structLoop E cls bs depth infos (mapsInOrder o' ms) skip s
  | [], _, _, _, _, _, _, _ => rfl
  | m :: ms, hf, cls, bs, depth, infos, skip, s => by
    simp only [everyMap] at hf
    rw [mapsInOrder, mapsInOrder, structLoop.eq_def, structLoop.eq_def]
    cases infos with
    | nil => rfl
    | cons info infos =>
      cases skip with
      | succ skip => simp only [structLoop_little E h ms hf.2]
      | zero => simp only [structLoop_little E h ms hf.2, mapStream_little E h m hf.1]
end

theorem linearFold_little (E : Env) {o o' : Order} (h : E.isLittle o = E.isLittle o') (op : Option Op) (v : Val)
    (names : List String) :
    linearSeqFold E (op.map (Op.inOrder o)) v = linearSeqFold E (op.map (Op.inOrder o')) v ∧
      linearStructFold E (op.map (Op.inOrder o)) names v = linearStructFold E (op.map (Op.inOrder o')) names v := by
  cases op with
  | none => exact ⟨rfl, rfl⟩
  | some op =>
    have hw : ∀ vs, (op.inOrder o).writeTo E vs = (op.inOrder o').writeTo E vs := fun vs => packAll_little E h _ vs
    refine ⟨?_, by simp only [Option.map, linearStructFold, hw]⟩
    unfold linearSeqFold
    cases v.iter with
    | none => rfl
    | some vs => simp only [Option.map, hw]

mutual
/-- They write the same. -/
theorem fold_little (E : Env) {o o' : Order} (h : E.isLittle o = E.isLittle o') : ∀ (m : DMap), m.Every NoUuid →
    ∀ v ns, fold E (m.inOrder o) v ns = fold E (m.inOrder o') v ns
  | .missing, _, _, _ => rfl
  | .prim hd k s u, _, v, ns => by
    simp only [DMap.inOrder, fold, primFold, packOne_little E h]
  | .uuid hd s u, hu, _, _ => absurd rfl (hu.self hd s u)
  | .padding _ _, _, _, _ => rfl
  | .seq hd info ei bsz e, hu, v, ns => by
    have h1 := op_inOrder o (.seq hd info ei bsz e)
    have h2 := op_inOrder o' (.seq hd info ei bsz e)
    simp only [DMap.inOrder] at h1 h2 ⊢
    simp only [fold, h1, h2, (linearFold_little E h _ v []).1]
  | .struct hd bsz l io infos maps, hu, v, ns => by
    simp only [DMap.Every] at hu
    have h1 := op_inOrder o (.struct hd bsz l io infos maps)
    have h2 := op_inOrder o' (.struct hd bsz l io infos maps)
    simp only [DMap.inOrder] at h1 h2 ⊢
    simp only [fold, h1, h2, (linearFold_little E h _ v _).2, foldMembers_little E h maps hu.2]
  | .constant _, _, _, _ => rfl
  | .enumeration _ _, _, _, _ => rfl
  | .format _ _, _, _, _ => rfl
  | .group _ _ _ _ _ _, _, _, _ => rfl
theorem foldMembers_little (E : Env) {o o' : Order} (h : E.isLittle o = E.isLittle o') : ∀ (ms : List DMap), everyMap NoUuid ms →
    ∀ v infos, foldMembers E v infos (mapsInOrder o ms) = foldMembers E v infos (mapsInOrder o' ms)
  | [], _, _, _ => rfl
  | m :: ms, hf, v, infos => by
    simp only [everyMap] at hf
    have h1 := fold_little E h m hf.1
    have h2 := foldMembers_little E h ms hf.2
    rw [mapsInOrder, mapsInOrder, foldMembers.eq_def, foldMembers.eq_def]
    cases infos with
    | nil => rfl
    | cons info infos => cases m <;> simp only [DMap.inOrder] at h1 ⊢ <;> simp only [h1, h2]
end

mutual
/-- Size hints do not depend on byte orders. -/
theorem sizeHint_inOrder (E : Env) (o : Order) : ∀ (m : DMap) off ctx, sizeHint E (m.inOrder o) off ctx = sizeHint E m off ctx
  | .missing, _, _ => rfl
  | .prim _ _ _ _, _, _ => rfl
  | .uuid _ _ _, _, _ => rfl
  | .padding _ _, _, _ => rfl
  | .seq h info ei bsz e, off, ctx => by
    have : (fun c => sizeHint E (e.inOrder o) 0 c) = fun c => sizeHint E e 0 c := funext fun c => sizeHint_inOrder E o e 0 c
    simp only [DMap.inOrder, sizeHint, this]
  | .struct h bsz l io infos maps, off, ctx => by
    simp only [DMap.inOrder, sizeHint, hintMembers_inOrder E o maps]
  | .constant _, _, _ => rfl
  | .enumeration _ _, _, _ => rfl
  | .format _ _, _, _ => rfl
  | .group _ _ base dflt _ maps, off, ctx => by
    have hm : ∀ x, groupMapMissing (mapOptInOrder o x) = groupMapMissing x := by
      intro x
      cases x with
      | none => rfl
      | some x => cases x <;> rfl
    simp only [DMap.inOrder, sizeHint, sizeHint_inOrder E o base, hintNth_inOrder E o maps, getElem_inOrder, hm]
theorem hintNth_inOrder (E : Env) (o : Order) : ∀ (ms : List DMap) i off ctx,
    hintNth E (mapsInOrder o ms) i off ctx = hintNth E ms i off ctx
  | [], _, _, _ => rfl
  | m :: ms, i, off, ctx => by
    cases i with
    | zero => simp only [mapsInOrder, hintNth, sizeHint_inOrder E o m]
    | succ i => simp only [mapsInOrder, hintNth, hintNth_inOrder E o ms]
theorem hintMembers_inOrder (E : Env) (o : Order) : ∀ (ms : List DMap) skip total sub,
    hintMembers E (mapsInOrder o ms) skip total sub = hintMembers E ms skip total sub
  | [], _, _, _ => rfl
  | m :: ms, skip, total, sub => by
    cases skip with
    | succ skip => simp only [mapsInOrder, hintMembers, hintMembers_inOrder E o ms]
    | zero => simp only [mapsInOrder, hintMembers, hintMembers_inOrder E o ms, sizeHint_inOrder E o m]
end

/-! ### Creating maps -/

theorem finishSeq_inOrder (E : Env) (o : Order) (info : SeqInfo) (m : DMap) (ei : ElemInfo) :
    finishSeq E info (m.inOrder o) ei = (finishSeq E info m ei).map (·.inOrder o) := by
  unfold finishSeq
  rw [operation_inOrder]
  split
  · rfl
  split
  · split <;> rfl
  · split <;> rfl
  · split
    · rcases m.operation with x | x <;> rfl
    · rfl

theorem finishStruct_inOrder (o : Order) (m : DMap) (l : Bool) :
    finishStruct (m.inOrder o) l = (finishStruct m l).map (·.inOrder o) := by
  unfold finishStruct
  rw [operation_inOrder]
  split
  · rcases m.operation with x | x <;> rfl
  · rfl

/-- What is to be shown about a definition. -/
def MadeIn (E : Env) (o : Order) (d : Defn) : Prop :=
  ∀ nm, createAs E nm o (d.inOrder o) = (createAs E nm .native d).map (·.inOrder o)

/-- The byte order does not matter for what has none. -/
theorem createAs_unordered {E : Env} {d : Defn} (h : d.order? = none) (nm : String) (o o' : Order) :
    createAs E nm o d = createAs E nm o' d := by
  cases d <;> first | (simp [Defn.order?] at h; done) | rfl

/-- A definition on its own. -/
theorem createOwn_inOrder {E : Env} {o : Order} {d : Defn} (hd : d.Every LeftOpen) (h : MadeIn E o d) :
    createAs E (d.inOrder o).name (d.inOrder o).orderOrNative (d.inOrder o) =
      (createAs E d.name d.orderOrNative d).map (·.inOrder o) := by
  have ho := inOrder_order o d hd
  rw [inOrder_name, hd.self.1, ← h]
  cases hx : d.order? with
  | none =>
    rw [hx] at ho
    exact createAs_unordered ho _ _ _
  | some x =>
    rw [hx] at ho
    have : (d.inOrder o).orderOrNative = o := by unfold Defn.orderOrNative; rw [ho]; rfl
    rw [this]

theorem memberNameOrder_inOrder {sname : String} {o : Order} {d : Defn} (hd : d.Every LeftOpen) (h : d.order? ≠ none) :
    memberNameOrder sname o (d.inOrder o) = .ok (d.name, o) ∧ memberNameOrder sname .native d = .ok (d.name, .native) := by
  have ho := inOrder_order o d hd
  refine ⟨?_, by unfold memberNameOrder; rw [if_pos rfl, hd.self.1]⟩
  cases hx : d.order? with
  | none => exact absurd hx h
  | some x =>
    rw [hx, Option.map_some] at ho
    unfold memberNameOrder Defn.orderOrNative
    rw [ho, inOrder_name]
    cases o <;> simp

/-- The maps of the members of a structure. -/
theorem createMembers_inOrder {E : Env} {o : Order} (sname : String) (ms : List Defn)
    (hm : ∀ m ∈ ms, m.target.Every LeftOpen ∧ m.target.order? ≠ none ∧ MadeIn E o m.target)
    (cache : List (String × DMap)) :
    createMembers E sname o (cache.map fun p => (p.1, p.2.inOrder o)) (ms.map (·.inOrder o)) =
      (createMembers E sname .native cache ms).map fun r => (r.1, mapsInOrder o r.2) := by
  induction ms generalizing cache with
  | nil => rfl
  | cons m ms ih =>
    obtain ⟨h1, h2, h3⟩ := hm m List.mem_cons_self
    have ih := ih fun m h => hm m (List.mem_cons_of_mem _ h)
    obtain ⟨hn, hn'⟩ := memberNameOrder_inOrder (sname := sname) (o := o) h1 h2
    rw [List.map_cons, createMembers_cons, createMembers_cons, inOrder_target, inOrder_memInfo, hn, hn']
    simp only
    have this : ((fun x : String × DMap => x.1 == m.target.name) ∘ fun p : String × DMap => (p.1, p.2.inOrder o)) =
        fun x => x.1 == m.target.name := rfl
    have tail : ∀ dm : DMap,
        (match createMembers E sname o ((m.target.name, dm.inOrder o) :: cache.map fun p => (p.1, p.2.inOrder o))
            (ms.map (·.inOrder o)) with
          | .error x => .error x
          | .ok (infos, maps) => .ok (m.memInfo :: infos, dm.inOrder o :: maps) : Except Err (List MemInfo × List DMap)) =
        (match createMembers E sname .native ((m.target.name, dm) :: cache) ms with
          | .error x => .error x
          | .ok (infos, maps) => .ok (m.memInfo :: infos, dm :: maps)
          : Except Err (List MemInfo × List DMap)).map fun r => (r.1, mapsInOrder o r.2) := by
      intro dm
      have := ih ((m.target.name, dm) :: cache)
      rw [List.map_cons] at this
      rw [this]
      rcases createMembers E sname .native ((m.target.name, dm) :: cache) ms with x | ⟨is, maps⟩ <;> rfl
    rw [List.find?_map, this]
    cases cache.find? (fun x => x.1 == m.target.name) with
    | some p => exact tail p.2
    | none =>
      simp only [Option.map_none, h3 m.target.name]
      rcases createAs E m.target.name .native m.target with x | dm
      · rfl
      · exact tail dm

theorem createGroup_inOrder {E : Env} {o : Order} (ident : String) (ms : List Defn)
    (hm : ∀ m ∈ ms, m.Every LeftOpen ∧ MadeIn E o m) (keys : List Lit) :
    createGroup E ident keys (ms.map (·.inOrder o)) =
      (createGroup E ident keys ms).map fun r => (r.1, mapsInOrder o r.2) := by
  induction ms generalizing keys with
  | nil => rfl
  | cons m ms ih =>
    obtain ⟨h1, h2⟩ := hm m List.mem_cons_self
    have ih := ih fun m h => hm m (List.mem_cons_of_mem _ h)
    rw [List.map_cons, createGroup, createGroup, groupValues_inOrder, createOwn_inOrder h1 h2]
    rcases groupValues ident m with x | vs
    · rfl
    rcases vs with _ | ⟨v, vs⟩
    · exact ih keys
    simp only
    rcases addKeys keys [v] with x | ks
    · rfl
    rcases createAs E m.name m.orderOrNative m with x | dm
    · rfl
    simp only [Except.map]
    rcases addKeys keys (v :: vs) with x | ks'
    · rfl
    simp only
    rw [ih]
    rcases createGroup E ident ks' ms with x | ⟨is, maps⟩
    · rfl
    · simp [Except.map, mapsInOrder_map, List.map_append, List.map_replicate]

/-- The map of a definition with a byte order written everywhere is the map with that
byte order everywhere. -/
theorem createAs_inOrder (E : Env) (o : Order) (d : Defn) (hd : d.Every LeftOpen) : MadeIn E o d := by
  suffices h : (d.Every LeftOpen → MadeIn E o d) ∧ (d.target.Every LeftOpen → MadeIn E o d.target) from h.1 hd
  clear hd
  induction d using Defn.ind with
  | prim h k s u =>
    refine and_self_iff.mpr ?_
    intro hd nm
    simp only [Defn.inOrder, createAs]
    split <;> rfl
  | seq h i e ih =>
    refine and_self_iff.mpr ?_
    intro hd nm
    have hb := inOrder_byteSize o (.seq h i e)
    have hd' := hd
    simp only [Defn.Every] at hd'
    have he := hd'.2
    have ho := inOrder_order o e he
    have hn : e.orderOrNative = .native := he.self.1
    simp only [Defn.inOrder] at hb ⊢
    rw [createAs, createAs, ho]
    unfold Defn.orderOrNative at hn
    cases hx : e.order? with
    | none => rfl
    | some x =>
      rw [hx] at hn
      simp only [Option.getD_some] at hn
      subst hn
      have hc : (decide (o ≠ .native) && decide (o = .native) && !(e.inOrder o).isComposite) = false := by
        cases o <;> simp
      have hc' : (decide (Order.native ≠ .native) && decide True && !e.isComposite) = false := by
        simp
      simp only [Option.map_some, hc, hc', Bool.false_eq_true, if_false, inOrder_name, ih.1 he e.name]
      rcases createAs E e.name .native e with y | em
      · rfl
      · simp only [Except.map, inOrder_byteSize, inOrder_composite, inOrder_terminator, hb]
        exact finishSeq_inOrder E o i (.seq { h with name := nm, order := .native } i
          ⟨e.byteSize, e.isComposite, e.terminator?⟩ (Defn.seq h i e).byteSize em) _
  | struct h ms ih =>
    refine and_self_iff.mpr ?_
    intro hd nm
    have hb := inOrder_byteSize o (.struct h ms)
    have hs := hd.self.2.2
    simp only at hs
    have hd' := hd
    simp only [Defn.Every, everyDefn_iff] at hd'
    have hmem := createMembers_inOrder (E := E) (o := o) nm ms (fun m hm => by
      refine ⟨(hd'.2 m hm).target, ?_, (ih m hm).2 (hd'.2 m hm).target⟩
      have h1 := hs m hm
      have h2 := (hd'.2 m hm).self.2.2
      cases m <;> first | exact h1 | exact h2) []
    rw [List.map_nil] at hmem
    simp only [Defn.inOrder] at hb ⊢
    rw [createAs, createAs, hb, inOrderAll_map, createClass_inOrder, hmem,
      checkLinear_inOrder o o (.inr rfl) ms hd'.2]
    simp only
    rcases createClass E nm h.description ms with x | io
    · rfl
    rcases createMembers E nm .native [] ms with x | ⟨is, maps⟩
    · rfl
    simp only [Except.map]
    rcases checkLinear .native ms with x | l
    · rfl
    exact finishStruct_inOrder o (.struct { h with name := nm, order := .native } (Defn.struct h ms).byteSize l io is maps) l
  | group h base ident dflt ms ih1 ih2 ih3 =>
    refine and_self_iff.mpr ?_
    intro hd nm
    simp only [Defn.Every, everyDefn_iff, everyOptDefn_iff] at hd
    have hg := createGroup_inOrder (E := E) (o := o) ident ms
      (fun m hm => ⟨hd.2.2.2 m hm, (ih3 m hm).1 (hd.2.2.2 m hm)⟩) []
    have hdf : createOpt E (inOrderOpt o dflt) = (createOpt E dflt).map (mapOptInOrder o) := by
      cases dflt with
      | none => rfl
      | some x =>
        simp only [inOrderOpt, createOpt]
        rw [createOwn_inOrder (hd.2.2.1 x rfl) ((ih2 x rfl).1 (hd.2.2.1 x rfl))]
        rcases createAs E x.name x.orderOrNative x with y | y <;> rfl
    have he : (inOrderAll o ms).isEmpty = ms.isEmpty := by cases ms <;> rfl
    rw [Defn.inOrder, createAs, createAs, hdf, createOwn_inOrder hd.2.1 (ih1.1 hd.2.1), he, inOrderAll_map, hg]
    rcases createOpt E dflt with x | dm
    · rfl
    simp only [Except.map]
    rcases createAs E base.name base.orderOrNative base with x | bm
    · rfl
    simp only
    split
    · rfl
    rcases createGroup E ident [] ms with x | ⟨ks, maps⟩
    · rfl
    rfl
  | member h d c dt vs ih => exact ⟨fun _ _ => rfl, ih.1⟩
  | _ => exact and_self_iff.mpr fun _ _ => rfl

theorem inOrder_native (d : Defn) (hd : d.Every LeftOpen) : d.inOrder .native = d := by
  have hh : ∀ h : Hdr, h.order = .native → { h with order := .native } = h := by
    intro h ho; cases h; simp_all
  have hl : ∀ ms : List Defn, (∀ m ∈ ms, m.inOrder .native = m) → inOrderAll .native ms = ms := by
    intro ms h
    rw [inOrderAll_map]
    exact (List.map_congr_left h).trans (List.map_id ms)
  induction d using Defn.ind with
  | seq h i e ih =>
    have h1 := hd.self.1
    simp only [Defn.Every] at hd
    simp only [Defn.inOrder, hh h h1, ih hd.2]
  | struct h ms ih =>
    have h1 := hd.self.1
    simp only [Defn.Every, everyDefn_iff] at hd
    simp only [Defn.inOrder, hh h h1, hl ms fun m hm => ih m hm (hd.2 m hm)]
  | union h ms ih =>
    have h1 := hd.self.1
    simp only [Defn.Every, everyDefn_iff] at hd
    simp only [Defn.inOrder, hh h h1, hl ms fun m hm => ih m hm (hd.2 m hm)]
  | family h b ms ih1 ih2 =>
    simp only [Defn.Every, everyDefn_iff] at hd
    simp only [Defn.inOrder, ih1 hd.2.1, hl ms fun m hm => ih2 m hm (hd.2.2 m hm)]
  | group h base ident dflt ms ih1 ih2 ih3 =>
    have h1 := hd.self.1
    simp only [Defn.Every, everyDefn_iff, everyOptDefn_iff] at hd
    have : inOrderOpt .native dflt = dflt := by
      cases dflt with
      | none => rfl
      | some x => simp only [inOrderOpt, ih2 x rfl (hd.2.2.1 x rfl)]
    simp only [Defn.inOrder, hh h h1, ih1 hd.2.1, this, hl ms fun m hm => ih3 m hm (hd.2.2.2 m hm)]
  | member h d c dt vs ih =>
    simp only [Defn.Every] at hd
    simp only [Defn.inOrder, ih hd.2]
  | format h fo l =>
    have h1 := hd.self.1
    cases fo with
    | none => rfl
    | some x =>
      have : x = .native := h1
      subst this
      rfl
  | constant => rfl
  | enumeration => rfl
  | _ =>
    have h1 := hd.self.1
    simp only [Defn.inOrder, hh _ h1]

theorem createAs_noUuid {E : Env} {d : Defn} {nm : String} {o : Order} {m : DMap} (hm : createAs E nm o d = .ok m)
    (hd : d.Every LeftOpen) : m.Every NoUuid := by
  refine createAs_every (P := LeftOpen) ?_ d nm o m hm hd
  rintro d nm o m hm hd h s u rfl
  cases d with
  | uuid h' s' u' => exact hd.2.1 _ _ _ rfl
  | prim h' k' s' u' => simp only [createAs] at hm; split at hm <;> cases hm
  | seq h' i e =>
    obtain ⟨_, _, _, _, _, hx, _⟩ := createAs_seq hm
    cases hx
  | struct h' ms =>
    obtain ⟨_, _, _, _, _, _, _, hx, _⟩ := createAs_struct hm
    cases hx
  | group =>
    obtain ⟨_, _, _, _, _, _, _, _, hx⟩ := createAs_group hm
    cases hx
  | _ => simp [createAs] at hm

end Dtf
