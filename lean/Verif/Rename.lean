import Verif.Relabel
import Verif.Refine
/-!
Definitions whose structure members got other names.
-/
namespace Dtf

namespace Spec

/-- Other names for members, and the expressions that go with them. -/
structure Renaming where
  member : String → String
  expr : String → String

mutual
/-- A value whose attributes got other names. -/
def renamed (f : String → String) : Val → Val
  | .tuple vs => .tuple (renamedAll f vs)
  | .struct cls attrs => .struct cls (renamedAttrs f attrs)
  | .pyNone => .pyNone
  | .bool b => .bool b
  | .int i => .int i
  | .float b => .float b
  | .bytes b => .bytes b
  | .str cs => .str cs
  | .uuid b => .uuid b
  | .other i => .other i
termination_by structural v => v
def renamedAll (f : String → String) : List Val → List Val
  | [] => []
  | v :: vs => renamed f v :: renamedAll f vs
termination_by structural vs => vs
def renamedAttrs (f : String → String) : List (String × Val) → List (String × Val)
  | [] => []
  | a :: as => renamedAttr f a :: renamedAttrs f as
termination_by structural as => as
def renamedAttr (f : String → String) : String × Val → String × Val
  | (n, v) => (f n, renamed f v)
termination_by structural a => a
end

/-- The values of a context, which keep their names, with other names for the attributes of
structures among them. -/
def renamedValues (f : String → String) (ns : Namespace) : Namespace := ns.map fun p => (p.1, renamed f p.2)

/-- The definition under another name. -/
def called (n : String) : Defn → Defn
  | .prim h k s u => .prim { h with name := n } k s u
  | .uuid h s u => .uuid { h with name := n } s u
  | .padding h a => .padding { h with name := n } a
  | .seq h i e => .seq { h with name := n } i e
  | .struct h ms => .struct { h with name := n } ms
  | .union h ms => .union { h with name := n } ms
  | .constant h v => .constant { h with name := n } v
  | .enumeration h vs => .enumeration { h with name := n } vs
  | .format h o l => .format { h with name := n } o l
  | .family h b ms => .family { h with name := n } b ms
  | .group h b i d ms => .group { h with name := n } b i d ms
  | .member h d c t vs => .member { h with name := n } d c t vs

/-- The expressions of a sequence, stream or string rewritten. -/
def Renaming.seq (R : Renaming) (info : SeqInfo) : SeqInfo :=
  { info with dataSizeExpr := info.dataSizeExpr.map R.expr, numElementsExpr := info.numElementsExpr.map R.expr }

mutual
/-- The definition with other names for the members of structures and unions, also in the
identifiers of structure groups, and with the expressions rewritten. -/
def Renaming.defn (R : Renaming) : Defn → Defn
  | .seq h info e => .seq h (R.seq info) (R.defn e)
  | .struct h ms => .struct h (R.members ms)
  | .union h ms => .union h (R.members ms)
  | .family h b ms => .family h (R.defn b) (R.defns ms)
  | .group h b i d ms => .group h (R.defn b) (R.member i) (R.defnOpt d) (R.defns ms)
  | .member h d c t vs => .member h (R.defn d) (c.map R.expr) t vs
  | .prim h k s u => .prim h k s u
  | .uuid h s u => .uuid h s u
  | .padding h a => .padding h a
  | .constant h v => .constant h v
  | .enumeration h vs => .enumeration h vs
  | .format h o l => .format h o l
termination_by structural d => d
def Renaming.members (R : Renaming) : List Defn → List Defn
  | [] => []
  | d :: ds => called (R.member d.name) (R.defn d) :: R.members ds
termination_by structural ds => ds
def Renaming.defns (R : Renaming) : List Defn → List Defn
  | [] => []
  | d :: ds => R.defn d :: R.defns ds
termination_by structural ds => ds
def Renaming.defnOpt (R : Renaming) : Option Defn → Option Defn
  | none => none
  | some d => some (R.defn d)
termination_by structural d => d
end

/-- The rewritten expression gives for renamed values what the expression gives for the
values. -/
def Rewritten (E : Env) (R : Renaming) (s : String) : Prop :=
  (R.expr s = "" ↔ s = "") ∧
    ∀ ns, E.evalExpr (R.expr s) (renamedValues R.member ns) = (E.evalExpr s ns).map (renamed R.member)

/-- The condition of a member. -/
def conditionOf : Defn → Option String
  | .member _ _ c _ _ => c
  | _ => none

/-- The expressions of a definition: the sizes of sequences, streams and strings, the
condition of a member, and those of the members of a structure. -/
def exprsOf : Defn → List String
  | .seq _ info _ => info.dataSizeExpr.toList ++ info.numElementsExpr.toList
  | .struct _ ms => ms.filterMap conditionOf
  | .member _ _ c _ _ => c.toList
  | _ => []

/-- All members of a structure have names, other than `super` and the name of the structure,
and are given by the names of their types if they are structures; different types have
different names. -/
def WellNamed : Defn → Prop
  | .struct h ms => DistinctTypes ms ∧ "super" ∉ ms.map Defn.name ∧ h.name ∉ ms.map Defn.name ∧ h.name ≠ "super" ∧
    ∀ m ∈ ms, ∀ h ms, m ≠ .struct h ms
  | _ => True

end Spec
open Spec

/-! ### Values -/

section
variable (f : String → String)

theorem renamedAll_map (vs : List Val) : renamedAll f vs = vs.map (renamed f) := by
  induction vs with
  | nil => rfl
  | cons v vs ih => rw [renamedAll, ih]; rfl

theorem renamedAttrs_map (as : List (String × Val)) : renamedAttrs f as = as.map fun a => (f a.1, renamed f a.2) := by
  induction as with
  | nil => rfl
  | cons a as ih => obtain ⟨n, v⟩ := a; rw [renamedAttrs, ih, renamedAttr]; rfl

theorem renamed_num (v : Val) : (renamed f v).num? = v.num? := by cases v <;> rfl

theorem renamed_pyEq (v : Val) (l : Lit) : pyEq (renamed f v) l = pyEq v l := by
  unfold pyEq
  rw [renamed_num]
  cases v <;> rfl

theorem renamed_pyIn (v : Val) (ls : List Lit) : pyIn (renamed f v) ls = pyIn v ls := by
  simp only [pyIn, renamed_pyEq]

theorem renamed_typeName (v : Val) : (renamed f v).typeName = v.typeName := by cases v <;> rfl

theorem renamed_none {v : Val} : renamed f v = .pyNone ↔ v = .pyNone := by
  cases v <;> simp [renamed]

variable {f} (hf : ∀ a b, f a = f b → a = b)
include hf

theorem beq_injective (a b : String) : (f a == f b) = (a == b) := by
  by_cases h : a = b
  · rw [h, beq_self_eq_true, beq_self_eq_true]
  · rw [beq_eq_false_iff_ne.mpr h, beq_eq_false_iff_ne.mpr fun h' => h (hf a b h')]

theorem nsGet_renamed (as : List (String × Val)) (n : String) :
    nsGet (renamedAttrs f as) (f n) = (nsGet as n).map (renamed f) := by
  induction as with
  | nil => rfl
  | cons a as ih =>
    obtain ⟨k, v⟩ := a
    unfold nsGet at *
    rw [renamedAttrs, List.find?_cons, List.find?_cons, renamedAttr]
    simp only [beq_injective hf]
    cases k == n with
    | true => rfl
    | false => exact ih

theorem getAttr_renamed (v : Val) (n : String) : getAttr (renamed f v) (f n) = renamed f (getAttr v n) := by
  cases v with
  | struct cls as =>
    simp only [renamed, getAttr, nsGet_renamed hf]
    cases nsGet as n <;> rfl
  | _ => rfl

theorem setAttr_renamed (as : List (String × Val)) (n : String) (v : Val) :
    setAttr (renamedAttrs f as) (f n) (renamed f v) = renamedAttrs f (setAttr as n v) := by
  unfold setAttr nsSet
  simp only [renamedAttrs_map, List.any_map, Function.comp_def, beq_injective hf]
  split
  · simp only [List.map_map, Function.comp_def, beq_injective hf]
    refine List.map_congr_left fun a _ => ?_
    split <;> rfl
  · simp

end

theorem nsSet_renamed (f : String → String) (ns : Namespace) (n : String) (v : Val) :
    nsSet (renamedValues f ns) n (renamed f v) = renamedValues f (nsSet ns n v) := by
  unfold nsSet renamedValues
  simp only [List.any_map, Function.comp_def]
  split
  · simp only [List.map_map, Function.comp_def]
    refine List.map_congr_left fun a _ => ?_
    split <;> rfl
  · simp

theorem withBuiltins_renamed (f : String → String) (ns : Namespace) :
    withBuiltins (renamedValues f ns) = renamedValues f (withBuiltins ns) :=
  nsSet_renamed f ns _ (.other 0)

theorem nsUpdate_renamed (f : String → String) (other ns : Namespace) :
    nsUpdate (renamedValues f ns) (renamedValues f other) = renamedValues f (nsUpdate ns other) := by
  unfold nsUpdate
  induction other generalizing ns with
  | nil => rfl
  | cons p ps ih =>
    rw [show renamedValues f (p :: ps) = (p.1, renamed f p.2) :: renamedValues f ps from rfl, List.foldl_cons,
      List.foldl_cons, nsSet_renamed]
    exact ih _

theorem structNs_renamed (f : String → String) (cls : String) (as : List (String × Val)) (outer : Namespace) :
    structNs cls (renamedAttrs f as) (renamedValues f outer) = renamedValues f (structNs cls as outer) :=
  nsUpdate_renamed f outer [(cls, .struct cls as)]

theorem newInstance_renamed (f : String → String) (ns : List String) :
    newInstance (ns.map f) = renamedAttrs f (newInstance ns) := by
  simp only [newInstance, renamedAttrs_map, List.map_map]
  rfl

theorem newInstanceArgs_renamed (f : String → String) (ns : List String) (vs : List Val) :
    newInstanceArgs (ns.map f) (vs.map (renamed f)) = (newInstanceArgs ns vs).map (renamedAttrs f) := by
  induction ns generalizing vs with
  | nil => cases vs <;> rfl
  | cons n ns ih =>
    cases vs with
    | nil => exact congrArg some (newInstance_renamed f (n :: ns))
    | cons v vs =>
      simp only [List.map_cons, newInstanceArgs, ih]
      cases newInstanceArgs ns vs <;> rfl

/-! ### Maps -/

/-- What a structure map keeps of a renamed member. -/
def Spec.Renaming.info (R : Renaming) (i : MemInfo) : MemInfo :=
  { i with name := R.member i.name, condition := i.condition.map R.expr }

mutual
/-- The map of the renamed definition. -/
def Spec.Renaming.map (R : Renaming) : DMap → DMap
  | .seq h info ei b e => .seq h (R.seq info) ei b (R.map e)
  | .struct h b l i infos maps => .struct h b l i (infos.map R.info) (R.maps maps)
  | .group h i b d ks ms => .group h (R.member i) (R.map b) (R.mapOpt d) ks (R.maps ms)
  | .missing => .missing
  | .prim h k s u => .prim h k s u
  | .uuid h s u => .uuid h s u
  | .padding h a => .padding h a
  | .constant h => .constant h
  | .enumeration h vs => .enumeration h vs
  | .format h l => .format h l
termination_by structural m => m
def Spec.Renaming.maps (R : Renaming) : List DMap → List DMap
  | [] => []
  | m :: ms => R.map m :: R.maps ms
termination_by structural ms => ms
def Spec.Renaming.mapOpt (R : Renaming) : Option DMap → Option DMap
  | none => none
  | some m => some (R.map m)
termination_by structural m => m
end

/-- The expressions of one map. -/
def mapExpressions : DMap → List String
  | .seq _ info _ _ _ => info.dataSizeExpr.toList ++ info.numElementsExpr.toList
  | .struct _ _ _ _ infos _ => infos.filterMap (·.condition)
  | _ => []

/-- All expressions of one map can be rewritten. -/
def MapFollows (E : Env) (R : Renaming) (m : DMap) : Prop := ∀ s ∈ mapExpressions m, Rewritten E R s

theorem seq_kind (R : Renaming) (info : SeqInfo) : (R.seq info).kind = info.kind := rfl
theorem seq_dataSize (R : Renaming) (info : SeqInfo) : (R.seq info).dataSize = info.dataSize := rfl
theorem seq_numElements (R : Renaming) (info : SeqInfo) : (R.seq info).numElements = info.numElements := rfl

mutual
theorem fmt_renamed (R : Renaming) : ∀ m : DMap, (R.map m).fmt = m.fmt
  | .seq h info ei b e => by
    have := fmt_renamed R e
    rw [Renaming.map, DMap.fmt.eq_def, DMap.fmt.eq_def]
    simp only [seq_kind, seq_dataSize, seq_numElements]
    cases e <;> simp only [Renaming.map] at this ⊢ <;> first | rfl | simp only [this]
  | .struct h b l i infos maps => by
    rw [Renaming.map, DMap.fmt, DMap.fmt, fmts_renamed R maps]
  | .group h i b d ks ms => by simp only [Renaming.map, DMap.fmt]
  | .missing => rfl
  | .prim h k s u => rfl
  | .uuid h s u => rfl
  | .padding h a => rfl
  | .constant h => rfl
  | .enumeration h vs => rfl
  | .format h l => rfl
theorem fmts_renamed (R : Renaming) : ∀ ms : List DMap, fmts (R.maps ms) = fmts ms
  | [] => rfl
  | m :: ms => by
    have h1 := fmt_renamed R m
    have h2 := fmts_renamed R ms
    rw [Renaming.maps, fmts.eq_def, fmts.eq_def]
    simp only
    cases m <;> simp only [Renaming.map] at h1 ⊢ <;> simp only [h1, h2]
end

theorem orderStr_renamed (R : Renaming) : ∀ m : DMap, (R.map m).orderStr = m.orderStr
  | .seq h info ei b e => by
    have := orderStr_renamed R e
    rw [Renaming.map, DMap.orderStr.eq_def, DMap.orderStr.eq_def]
    cases e <;> simp only [Renaming.map] at this ⊢ <;> simp only [this]
  | .struct .. | .group .. | .missing | .prim .. | .uuid .. | .padding .. | .constant .. | .enumeration ..
  | .format .. => rfl

theorem operation_renamed (R : Renaming) (m : DMap) : (R.map m).operation = m.operation := by
  simp only [DMap.operation, orderStr_renamed, fmt_renamed]

theorem op_renamed (R : Renaming) (m : DMap) : (R.map m).op = m.op := by
  simp only [DMap.op, operation_renamed]

/-! ### Expressions -/

theorem truthyStr_renamed {E : Env} {R : Renaming} {x : Option String} (h : ∀ s ∈ x.toList, Rewritten E R s) :
    truthyStr (x.map R.expr) = truthyStr x := by
  cases x with
  | none => rfl
  | some s =>
    have := (h s (by simp)).1
    simp only [Option.map_some, truthyStr]
    by_cases hs : s = ""
    · rw [this.mpr hs, hs]
    · have h1 : R.expr s ≠ "" := fun h => hs (this.mp h)
      rw [bne_iff_ne.mpr h1, bne_iff_ne.mpr hs]

theorem checkSize_renamed (f : String → String) (k : SeqKind) (v : Val) :
    checkSize k (some (renamed f v)) = checkSize k (some v) := by cases v <;> rfl

theorem evalSize_renamed {E : Env} {R : Renaming} {k : SeqKind} {x : Option String}
    (h : ∀ s ∈ x.toList, Rewritten E R s) (ns : Namespace) :
    evalSize E k (x.map R.expr) (renamedValues R.member ns) = evalSize E k x ns := by
  cases x with
  | none => rfl
  | some s =>
    obtain ⟨h1, h2⟩ := h s (by simp)
    simp only [Option.map_some, evalSize, withBuiltins_renamed, h2]
    by_cases hs : s = ""
    · rw [if_pos (by simp [h1.mpr hs]), if_pos (by simp [hs])]
    · rw [if_neg (by simpa using fun h => hs (h1.mp h)), if_neg (by simpa using hs)]
      cases E.evalExpr s (withBuiltins ns) with
      | none => rfl
      | some v => exact checkSize_renamed _ _ _

section
variable {E : Env} {R : Renaming} {info : SeqInfo}

theorem seqLinear_renamed (ei : ElemInfo) : seqLinear (R.seq info) ei = seqLinear info ei := by
  simp only [seqLinear, Renaming.seq, Option.isSome_map]

theorem hasDataSize_renamed : (R.seq info).hasDataSize = info.hasDataSize := by
  simp only [SeqInfo.hasDataSize, Renaming.seq, Option.isSome_map]

theorem hasNumElements_renamed : (R.seq info).hasNumElements = info.hasNumElements := by
  simp only [SeqInfo.hasNumElements, Renaming.seq, Option.isSome_map]

variable (h : ∀ s ∈ info.dataSizeExpr.toList ++ info.numElementsExpr.toList, Rewritten E R s)
include h

theorem evalDataSize_renamed (ns : Namespace) :
    evalDataSize E (R.seq info) (renamedValues R.member ns) = evalDataSize E info ns := by
  simp only [evalDataSize, Renaming.seq, evalSize_renamed fun s hs => h s (List.mem_append_left _ hs)]

theorem evalNumElements_renamed (ns : Namespace) :
    evalNumElements E (R.seq info) (renamedValues R.member ns) = evalNumElements E info ns := by
  simp only [evalNumElements, Renaming.seq, evalSize_renamed fun s hs => h s (List.mem_append_right _ hs)]

theorem streamSize_renamed (ei : ElemInfo) (ns : Namespace) :
    streamSize E (R.seq info) ei (renamedValues R.member ns) = streamSize E info ei ns := by
  simp only [streamSize, hasDataSize_renamed, hasNumElements_renamed, evalDataSize_renamed h, evalNumElements_renamed h]

theorem streamParse_renamed (ei : ElemInfo) (bs : Bytes) (off : Nat) (ns : Namespace) :
    streamParse E (R.seq info) ei bs off (renamedValues R.member ns) = streamParse E info ei bs off ns := by
  simp only [streamParse, streamSize_renamed h]
  rfl

theorem stringParse_renamed (enc : String) (ei : ElemInfo) (bs : Bytes) (off : Nat) (ns : Namespace) :
    stringParse E enc (R.seq info) ei bs off (renamedValues R.member ns) = stringParse E enc info ei bs off ns := by
  simp only [stringParse, streamParse_renamed h]
  rfl

theorem seqRules_renamed (ei : ElemInfo) (ns : Namespace) :
    (seqRules E (R.seq info) ei (renamedValues R.member ns)).1 = (seqRules E info ei ns).1 := by
  simp only [seqRules, hasDataSize_renamed, hasNumElements_renamed, evalDataSize_renamed h, evalNumElements_renamed h]
  have h1 : (R.seq info).terminator = info.terminator := rfl
  rw [h1]
  (repeat' split) <;> simp_all

end

/-! ### Mapping -/

/-- The outcome with other names for the attributes. -/
def renamedResult (f : String → String) : PRes → PRes
  | .error e => .error e
  | .ok (v, n) => .ok (renamed f v, n)

theorem unpackOne_renamed (f : String → String) (E : Env) (o : Order) (c : Code) (b : Bytes) :
    renamed f (unpackOne E o c b) = unpackOne E o c b := by cases c <;> rfl

theorem mapValue_renamed (f : String → String) {k : PrimKind} {v x : Val} (hv : renamed f v = v)
    (h : mapValue k v = some x) : renamed f x = x := by
  cases k with
  | boolean a b =>
    have key : ∀ (p q r t : Bool),
        (if p = true then some (Val.bool false) else if q = true then some (.bool true)
          else if r = true then some (.bool false) else if t = true then some (.bool true) else none) = some x →
        renamed f x = x := by
      intro p q r t h
      cases p <;> cases q <;> cases r <;> cases t <;> cases h <;> rfl
    exact key _ _ _ _ h
  | character =>
    simp only [mapValue] at h
    split at h
    · split at h
      · cases h; rfl
      · cases h
    · cases h
  | floatingPoint => cases h; exact hv
  | integer s => cases h; exact hv

theorem unpackAll_renamed (f : String → String) (E : Env) (o : Order) (cs : List Code) (b : Bytes) :
    ∀ v ∈ unpackAll E o cs b, renamed f v = v := by
  induction cs generalizing b with
  | nil => simp [unpackAll]
  | cons c cs ih =>
    intro v hv
    rw [unpackAll, List.mem_cons] at hv
    rcases hv with rfl | hv
    · exact unpackOne_renamed ..
    · exact ih _ v hv

theorem mapValues_renamed (f : String → String) {k : PrimKind} {vs xs : List Val} (hv : ∀ v ∈ vs, renamed f v = v)
    (h : mapValues k vs = .ok xs) : ∀ x ∈ xs, renamed f x = x := by
  induction vs generalizing xs with
  | nil => cases h; simp
  | cons v vs ih =>
    rw [mapValues] at h
    cases h1 : mapValue k v with
    | none => rw [h1] at h; cases h
    | some x =>
      rw [h1] at h
      cases h2 : mapValues k vs with
      | error e => rw [h2] at h; cases h
      | ok ys =>
        rw [h2] at h
        cases h
        intro y hy
        rw [List.mem_cons] at hy
        rcases hy with rfl | hy
        · exact mapValue_renamed f (hv v List.mem_cons_self) h1
        · exact ih (fun v h => hv v (List.mem_cons_of_mem _ h)) h2 y hy

theorem valueOk_renamed (R : Renaming) (i : MemInfo) (v : Val) : valueOk (R.info i) (renamed R.member v) = valueOk i v := by
  simp only [valueOk, Renaming.info, renamed_pyIn]

theorem linearValues_renamed (R : Renaming) {infos : List MemInfo} {maps : List DMap} {vs : List Val}
    (hv : ∀ v ∈ vs, renamed R.member v = v) :
    linearValues (infos.map R.info) (R.maps maps) vs = linearValues infos maps vs ∧
      ∀ xs, linearValues infos maps vs = some xs → ∀ x ∈ xs, renamed R.member x = x := by
  induction vs generalizing infos maps with
  | nil => simp only [linearValues]; exact ⟨trivial, fun xs h => by cases h; simp⟩
  | cons v vs ih =>
    cases infos with
    | nil => simp only [List.map_nil, linearValues]; exact ⟨trivial, fun xs h => by cases h⟩
    | cons i is =>
      cases maps with
      | nil => simp only [Renaming.maps, List.map_cons, linearValues]; exact ⟨trivial, fun xs h => by cases h⟩
      | cons m ms =>
        cases m with
        | prim h k s u =>
          obtain ⟨ih1, ih2⟩ := ih (infos := is) (maps := ms) fun v h => hv v (List.mem_cons_of_mem _ h)
          simp only [Renaming.maps, Renaming.map, List.map_cons, linearValues, ih1]
          cases h1 : mapValue k v with
          | none => exact ⟨rfl, fun xs h => by cases h⟩
          | some x =>
            have hx := mapValue_renamed R.member (hv v List.mem_cons_self) h1
            have hok := valueOk_renamed R i x
            rw [hx] at hok
            simp only [hok]
            refine ⟨trivial, fun xs h => ?_⟩
            cases hb : valueOk i x with
            | false => rw [hb] at h; simp at h
            | true =>
              rw [hb] at h
              cases h2 : linearValues is ms vs with
              | none => rw [h2] at h; simp at h
              | some ys =>
                rw [h2] at h
                simp at h
                subst h
                intro y hy
                rw [List.mem_cons] at hy
                rcases hy with rfl | hy
                · exact hx
                · exact ih2 ys h2 y hy
        | _ => simp only [Renaming.maps, Renaming.map, List.map_cons, linearValues]; exact ⟨trivial, fun xs h => by cases h⟩

theorem map_renamed_self {f : String → String} {vs : List Val} (h : ∀ v ∈ vs, renamed f v = v) :
    vs.map (renamed f) = vs := by
  induction vs with
  | nil => rfl
  | cons v vs ih =>
    rw [List.map_cons, h v List.mem_cons_self, ih fun v hv => h v (List.mem_cons_of_mem _ hv)]

theorem readFrom_renamed (f : String → String) {E : Env} {op : Option Op} {b : Bytes} {vs : List Val}
    (h : (op.bind fun op => op.readFrom E b) = some vs) : ∀ v ∈ vs, renamed f v = v := by
  cases op with
  | none => cases h
  | some op =>
    simp only [Option.bind_some, Op.readFrom] at h
    split at h
    · cases h
    · cases h; exact unpackAll_renamed _ _ _ _ _

/-- The statement about one map. -/
def RenameOk (E : Env) (R : Renaming) (m : DMap) : Prop :=
  m.Every (MapFollows E R) → ∀ bs off depth ns,
    parse E (R.map m) bs off depth (renamedValues R.member ns) = renamedResult R.member (parse E m bs off depth ns)

theorem seqEnd_renamed (f : String → String) (num ds : Option Int) (term : Option Lit) (i u : Nat) (v : Val) :
    seqEnd num ds term i u (renamed f v) = seqEnd num ds term i u v := by
  simp only [seqEnd, renamed_pyEq]

theorem atTerm_renamed (f : String → String) (term : Option Lit) (v : Val) : atTerm term (renamed f v) = atTerm term v := by
  simp only [atTerm, renamed_pyEq]

theorem seqEnd_nil {num ds : Option Int} {term : Option Lit} {i u : Nat} {v : Val} {r : List Val × Nat}
    (h : seqEnd num ds term i u v = .ok r) : r.1 = [] := by
  have key : ∀ p q : Bool, (if p = true then Except.error Err.tooSmall
      else if q = true then .error .tooSmall else .ok ([], u)) = .ok r → r.1 = [] := by
    intro p q h
    cases p <;> cases q <;> cases h <;> rfl
  exact key _ _ h

/-- The elements with other names for the attributes. -/
def renamedElems (f : String → String) : Except Err (List Val × Nat) → Except Err (List Val × Nat)
  | .error e => .error e
  | .ok (vs, n) => .ok (vs.map (renamed f), n)

theorem renamedElems_end (f : String → String) {num ds : Option Int} {term : Option Lit} {i u : Nat} {v : Val} :
    renamedElems f (seqEnd num ds term i u v) = seqEnd num ds term i u v := by
  cases h : seqEnd num ds term i u v with
  | error e => rfl
  | ok r =>
    have := seqEnd_nil h
    obtain ⟨vs, n⟩ := r
    simp only at this
    subst this
    rfl

theorem seqParse_renamed (f : String → String) {step step' : Nat → PRes}
    (hs : ∀ off, step' off = renamedResult f (step off)) (len : Nat) (num ds : Option Int) (term : Option Lit)
    (fuel off used index : Nat) (last : Val) :
    seqParse step' len num ds term fuel off used index (renamed f last) =
      renamedElems f (seqParse step len num ds term fuel off used index last) := by
  induction fuel generalizing off used index last with
  | zero => rfl
  | succ fuel ih =>
    rw [seqParse, seqParse, hs]
    split
    · rw [seqEnd_renamed, renamedElems_end]
    · cases step off with
      | error e => rfl
      | ok r =>
        obtain ⟨v, n⟩ := r
        simp only [renamedResult, atTerm_renamed, seqEnd_renamed, ih]
        cases atTerm term v with
        | true =>
          simp only [if_true]
          cases h : seqEnd num ds term (index + 1) (used + n) v with
          | error e => rfl
          | ok r =>
            have := seqEnd_nil h
            obtain ⟨vs, k⟩ := r
            simp only at this
            subst this
            rfl
        | false =>
          simp only [Bool.false_eq_true, if_false]
          cases seqParse step len num ds term fuel (off + n) (used + n) (index + 1) v with
          | error e => rfl
          | ok r => rfl

theorem evalCondition_renamed {E : Env} {R : Renaming} {i : MemInfo} (h : ∀ s ∈ i.condition.toList, Rewritten E R s)
    (ns : Namespace) : evalCondition E (R.info i) (renamedValues R.member ns) = evalCondition E i ns := by
  simp only [evalCondition, Renaming.info, truthyStr_renamed h, withBuiltins_renamed]
  cases hc : i.condition with
  | none => rfl
  | some s =>
    rw [hc] at h
    simp only [Option.map_some, Option.bind_some, (h s (by simp)).2]
    cases E.evalExpr s (withBuiltins ns) with
    | none => rfl
    | some v => cases v <;> rfl

theorem maps_get (R : Renaming) (ms : List DMap) (i : Nat) : groupMapMissing (R.maps ms)[i]? = groupMapMissing ms[i]? := by
  induction ms generalizing i with
  | nil => rfl
  | cons m ms ih =>
    cases i with
    | zero => cases m <;> rfl
    | succ i => simpa [Renaming.maps] using ih i

theorem mapOpt_missing (R : Renaming) (m : Option DMap) : groupMapMissing (R.mapOpt m) = groupMapMissing m := by
  cases m with
  | none => rfl
  | some m => cases m <;> rfl

theorem parseNth_renamed {E : Env} {R : Renaming} {ms : List DMap} (hok : ∀ m ∈ ms, RenameOk E R m)
    (hm : ∀ m ∈ ms, m.Every (MapFollows E R)) (i : Nat) (bs : Bytes) (off depth : Nat) :
    parseNth E (R.maps ms) i bs off depth = renamedResult R.member (parseNth E ms i bs off depth) := by
  induction ms generalizing i with
  | nil => rfl
  | cons m ms ih =>
    cases i with
    | zero => exact hok m List.mem_cons_self (hm m List.mem_cons_self) bs off depth []
    | succ i =>
      exact ih (fun m h => hok m (List.mem_cons_of_mem _ h)) (fun m h => hm m (List.mem_cons_of_mem _ h)) i

theorem parseMembers_renamed {E : Env} {R : Renaming} (hf : ∀ a b, R.member a = R.member b → a = b) {maps : List DMap}
    (hok : ∀ m ∈ maps, RenameOk E R m) (hm : ∀ m ∈ maps, m.Every (MapFollows E R)) {infos : List MemInfo}
    (hi : ∀ i ∈ infos, ∀ s ∈ i.condition.toList, Rewritten E R s) (cls : String) (bs : Bytes) (depth : Nat)
    (outer : Namespace) (off used : Nat) (attrs : List (String × Val)) :
    parseMembers E cls bs depth (renamedValues R.member outer) (infos.map R.info) (R.maps maps) off used
      (renamedAttrs R.member attrs) =
    match parseMembers E cls bs depth outer infos maps off used attrs with
    | .error e => .error e
    | .ok (as, n) => .ok (renamedAttrs R.member as, n) := by
  induction maps generalizing infos off used attrs with
  | nil => simp only [Renaming.maps, parseMembers]
  | cons m maps ih =>
    cases infos with
    | nil => simp only [Renaming.maps, List.map_nil, parseMembers]
    | cons i infos =>
      have ih := @ih (fun m h => hok m (List.mem_cons_of_mem _ h)) (fun m h => hm m (List.mem_cons_of_mem _ h)) infos
        (fun i h => hi i (List.mem_cons_of_mem _ h))
      rw [Renaming.maps, List.map_cons, parseMembers.eq_def, parseMembers.eq_def]
      simp only [structNs_renamed, evalCondition_renamed (hi i List.mem_cons_self),
        hok m List.mem_cons_self (hm m List.mem_cons_self), ih]
      cases evalCondition E i (structNs cls attrs outer) with
      | error e => rfl
      | ok b =>
        cases b with
        | false => rfl
        | true =>
          simp only
          cases parse E m bs off (depth + 1) (structNs cls attrs outer) with
          | error e => rfl
          | ok r =>
            obtain ⟨v, n⟩ := r
            have : (R.info i).name = R.member i.name := rfl
            simp only [renamedResult, valueOk_renamed, this, setAttr_renamed hf, ih]
            cases valueOk i v <;> rfl

theorem parse_renamed {E : Env} {R : Renaming} (hf : ∀ a b, R.member a = R.member b → a = b) (m : DMap) :
    RenameOk E R m := by
  induction m using DMap.ind with
  | missing => intro _ bs off depth ns; rfl
  | constant h => intro _ bs off depth ns; rfl
  | enumeration h vs => intro _ bs off depth ns; rfl
  | format h l => intro _ bs off depth ns; rfl
  | prim h k s u =>
    intro _ bs off depth ns
    simp only [Renaming.map, parse, primParse]
    cases fixedByteSize s u with
    | none => rfl
    | some n =>
      simp only
      split
      · rfl
      · cases hr : primRead E h.order k s (bs.drop off) with
        | none => rfl
        | some v =>
          unfold primRead at hr
          cases hc : primCode k s with
          | none => rw [hc] at hr; cases hr
          | some c =>
            rw [hc] at hr
            simp only at hr
            split at hr
            · cases hr
            · simp only [renamedResult, mapValue_renamed R.member (unpackOne_renamed ..) hr]
  | uuid h s u =>
    intro _ bs off depth ns
    simp only [Renaming.map, parse, uuidParse]
    cases fixedByteSize s u with
    | none => rfl
    | some n =>
      simp only
      split
      · rfl
      · cases h.order <;> simp only <;> (repeat' split) <;> rfl
  | padding h a =>
    intro _ bs off depth ns
    simp only [Renaming.map, parse, paddingParse]
    cases calcPadding a off with
    | error e => rfl
    | ok n => simp only; split <;> rfl
  | seq h info ei b e ih =>
    intro hev bs off depth ns
    obtain ⟨hq, hev⟩ := hev
    have hq : ∀ s ∈ info.dataSizeExpr.toList ++ info.numElementsExpr.toList, Rewritten E R s := hq
    have ih := ih hev
    have hop := op_renamed R (.seq h info ei b e)
    rw [Renaming.map] at hop ⊢
    rw [parse.eq_def, parse.eq_def]
    simp only [seq_kind, streamParse_renamed hq, stringParse_renamed hq, seqLinear_renamed, hop]
    cases info.kind with
    | stream =>
      simp only
      cases streamParse E info ei bs off ns <;> rfl
    | string enc =>
      simp only [stringParse]
      cases streamParse E info ei bs off ns with
      | error e => rfl
      | ok r =>
        simp only
        cases cutString info r.1 with
        | error e => rfl
        | ok b =>
          simp only
          cases E.decode enc b <;> rfl
    | sequence =>
      simp only
      split
      · cases hb : b with
        | none => rfl
        | some n =>
          simp only [linearSeqParse]
          split
          · rfl
          · split
            · rfl
            · rename_i vs hvs0
              have hvs := readFrom_renamed R.member hvs0
              clear hvs0 hop
              cases e with
              | prim h k s u =>
                simp only [Renaming.map]
                cases hx : mapValues k vs with
                | error e => rfl
                | ok xs =>
                  simp only [renamedResult, renamed, renamedAll_map, map_renamed_self (mapValues_renamed R.member hvs hx)]
              | _ => rfl
      · simp only [compositeSeqParse]
        split
        · rfl
        · rw [seqRules_renamed hq]
          cases (seqRules E info ei ns).1 with
          | error e => rfl
          | ok r =>
            obtain ⟨ds, term, num⟩ := r
            simp only
            have := seqParse_renamed R.member (step := fun off => parse E e bs off (depth + 1) [])
              (step' := fun off => parse E (R.map e) bs off (depth + 1) []) (fun off => ih bs off (depth + 1) [])
              bs.length num ds term (seqFuel bs.length off num 0) off 0 0 .pyNone
            rw [show renamed R.member .pyNone = .pyNone from rfl] at this
            rw [this]
            cases seqParse (fun off => parse E e bs off (depth + 1) []) bs.length num ds term
              (seqFuel bs.length off num 0) off 0 0 .pyNone with
            | error e => rfl
            | ok r => simp only [renamedElems, renamedResult, renamed, renamedAll_map]
  | struct h b l io infos maps ih =>
    intro hev bs off depth ns
    simp only [DMap.Every, everyMap_iff] at hev
    obtain ⟨hq, hev⟩ := hev
    have hi : ∀ i ∈ infos, ∀ s ∈ i.condition.toList, Rewritten E R s := by
      intro i hi s hs
      refine hq s ?_
      simp only [mapExpressions, List.mem_filterMap]
      exact ⟨i, hi, by simpa using hs⟩
    have hop := op_renamed R (.struct h b l io infos maps)
    rw [Renaming.map] at hop ⊢
    rw [parse.eq_def, parse.eq_def]
    have hnames : (infos.map R.info).map (·.name) = (infos.map (·.name)).map R.member := by
      simp only [List.map_map]; rfl
    simp only [hop, List.length_map, hnames, newInstance_renamed, parseMembers_renamed hf ih hev hi]
    split
    · cases b with
      | none => rfl
      | some n =>
        simp only [linearStructParse]
        split
        · rfl
        · split
          · rfl
          · rename_i vs hvs
            have hvs := readFrom_renamed R.member hvs
            obtain ⟨h1, h2⟩ := linearValues_renamed R (infos := infos) (maps := maps) hvs
            rw [h1]
            cases hx : linearValues infos maps vs with
            | none => rfl
            | some xs =>
              simp only [hnames]
              have := newInstanceArgs_renamed R.member (infos.map (·.name)) xs
              rw [map_renamed_self (h2 xs hx)] at this
              rw [this]
              cases newInstanceArgs (infos.map (·.name)) xs with
              | none => rfl
              | some as => cases io <;> rfl
    · split
      · rfl
      · split
        · rfl
        · split
          · rfl
          · cases parseMembers E h.name bs depth ns infos maps off 0 (newInstance (infos.map (·.name))) with
            | error e => rfl
            | ok r => rfl
  | group h ident base dflt keys maps ihb ihd ihm =>
    intro hev bs off depth ns
    simp only [DMap.Every, everyMap_iff, everyOptMap_iff] at hev
    obtain ⟨-, hb, hd, hm⟩ := hev
    have h1 := ihb hb bs off depth []
    rw [show renamedValues R.member [] = [] from rfl] at h1
    have h2 : ∀ i, parseNth E (R.maps maps) i bs off depth = _ := fun i => parseNth_renamed ihm hm i bs off depth
    have h3 : parseOpt E (R.mapOpt dflt) bs off depth = renamedResult R.member (parseOpt E dflt bs off depth) := by
      cases dflt with
      | none => rfl
      | some d => exact ihd d rfl (hd d rfl) bs off depth []
    rw [Renaming.map, parse.eq_def, parse.eq_def]
    simp only [h1, h2, h3, maps_get, mapOpt_missing]
    cases parse E base bs off depth [] with
    | error e => rfl
    | ok r =>
      obtain ⟨v, n⟩ := r
      simp only [show renamedResult R.member (.ok (v, n)) = .ok (renamed R.member v, n) from rfl, getAttr_renamed hf]
      have hidx : ∀ x, groupIndex keys (renamed R.member x) = groupIndex keys x := by
        intro x; simp only [groupIndex, renamed_pyEq]
      have step : ∀ (g : Option Nat),
          (match g with
            | some i =>
              if groupMapMissing maps[i]? = true then .error .mapping
              else
                match renamedResult R.member (parseNth E maps i bs off depth) with
                | .error e => .error (wrapErr e)
                | .ok r => .ok r
            | none =>
              if groupMapMissing dflt = true then .error .mapping
              else
                match renamedResult R.member (parseOpt E dflt bs off depth) with
                | .error e => .error (wrapErr e)
                | .ok r => .ok r : PRes) =
          renamedResult R.member
            (match g with
            | some i =>
              if groupMapMissing maps[i]? = true then .error .mapping
              else
                match parseNth E maps i bs off depth with
                | .error e => .error (wrapErr e)
                | .ok r => .ok r
            | none =>
              if groupMapMissing dflt = true then .error .mapping
              else
                match parseOpt E dflt bs off depth with
                | .error e => .error (wrapErr e)
                | .ok r => .ok r : PRes) := by
        intro g
        cases g with
        | none =>
          simp only
          split
          · rfl
          · cases parseOpt E dflt bs off depth <;> rfl
        | some i =>
          simp only
          split
          · rfl
          · cases parseNth E maps i bs off depth <;> rfl
      have hx := hidx (getAttr v ident)
      generalize getAttr v ident = x at hx
      cases x with
      | pyNone => rfl
      | struct cls as =>
        refine Eq.trans ?_ (step (groupIndex keys (.struct cls as)))
        rw [← hx]; rfl
      | tuple vs =>
        refine Eq.trans ?_ (step (groupIndex keys (.tuple vs)))
        rw [← hx]; rfl
      | _ => exact step _

end Dtf
