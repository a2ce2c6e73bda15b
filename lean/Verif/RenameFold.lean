import Verif.Rename
import Verif.Fold
/-!
Folding structures whose members got other names.
-/
namespace Dtf

open Spec

/-- The outcome of folding with other names for attributes: padding is folded to the value
itself. -/
def renamedFold (f : String → String) : Except Err Val → Except Err Val
  | .error e => .error e
  | .ok v => .ok (renamed f v)

section
variable (f : String → String)

theorem toIndex_renamed (v : Val) : (renamed f v).toIndex = v.toIndex := by cases v <;> rfl

theorem toFloat_renamed (E : Env) (v : Val) : (renamed f v).toFloat E = v.toFloat E := by cases v <;> rfl

theorem packOne_renamed (E : Env) (o : Order) (c : Code) (v : Val) : packOne E o c (renamed f v) = packOne E o c v := by
  unfold packOne
  simp only [toIndex_renamed, toFloat_renamed]

theorem packAll_renamed (E : Env) (o : Order) (cs : List Code) (vs : List Val) :
    packAll E o cs (vs.map (renamed f)) = packAll E o cs vs := by
  induction cs generalizing vs with
  | nil => cases vs <;> rfl
  | cons c cs ih =>
    cases vs with
    | nil => rfl
    | cons v vs => simp only [List.map_cons, packAll, packOne_renamed, ih]

theorem iter_renamed (v : Val) : (renamed f v).iter = v.iter.map (List.map (renamed f)) := by
  cases v with
  | tuple vs => simp only [renamed, Val.iter, renamedAll_map, Option.map_some]
  | bytes b => simp only [renamed, Val.iter, Option.map_some, List.map_map]; rfl
  | str cs => simp only [renamed, Val.iter, Option.map_some, List.map_map]; rfl
  | _ => rfl

theorem len_renamed (v : Val) : (renamed f v).len = v.len := by
  cases v with
  | tuple vs => simp only [renamed, Val.len, renamedAll_map, List.length_map]
  | _ => rfl

theorem primFold_renamed (E : Env) (o : Order) (k : PrimKind) (s : Size) (v : Val) :
    primFold E o k s (renamed f v) = renamedFold f (primFold E o k s v) := by
  have h : ∀ r : Option Val, (match r.map (renamed f), primCode k s with
      | some x, some c => match packOne E o c x with
        | some b => .ok (.bytes b)
        | none => .error .folding
      | _, _ => .error .folding : Except Err Val) =
      renamedFold f (match r, primCode k s with
      | some x, some c => match packOne E o c x with
        | some b => .ok (.bytes b)
        | none => .error .folding
      | _, _ => .error .folding) := by
    intro r
    cases r with
    | none => cases primCode k s <;> rfl
    | some x =>
      cases primCode k s with
      | none => rfl
      | some c =>
        simp only [Option.map_some, packOne_renamed]
        cases packOne E o c x <;> rfl
  have hv : foldValue k (renamed f v) = (foldValue k v).map (renamed f) := by
    cases k with
    | boolean a b =>
      cases v with
      | bool x => cases x <;> simp only [renamed, foldValue, Option.map_map] <;> rfl
      | _ => rfl
    | character =>
      cases v with
      | str cs => match cs with
        | [] => rfl
        | [c] => rfl
        | _ :: _ :: _ => rfl
      | bytes b => match b with
        | [] => rfl
        | [c] => rfl
        | _ :: _ :: _ => rfl
      | _ => rfl
    | _ => rfl
  simp only [primFold, hv]
  exact h _

theorem joinBytes_renamed (vs : List Val) : joinBytes (vs.map (renamed f)) = joinBytes vs := by
  induction vs with
  | nil => rfl
  | cons v vs ih => cases v <;> first | rfl | simp only [List.map_cons, renamed, joinBytes, ih]

theorem linearSeqFold_renamed (E : Env) (op : Option Op) (v : Val) :
    linearSeqFold E op (renamed f v) = renamedFold f (linearSeqFold E op v) := by
  simp only [linearSeqFold, iter_renamed]
  cases op with
  | none => rfl
  | some op =>
    cases v.iter with
    | none => rfl
    | some vs =>
      simp only [Option.map_some, Op.writeTo, packAll_renamed]
      cases packAll E op.order op.codes vs <;> rfl

variable {f} (hf : ∀ a b, f a = f b → a = b)
include hf

theorem presentValues_renamed (v : Val) (ns : List String) :
    presentValues (renamed f v) (ns.map f) = (presentValues v ns).map (renamed f) := by
  induction ns with
  | nil => rfl
  | cons n ns ih =>
    simp only [List.map_cons, presentValues, getAttr_renamed hf, ih]
    cases getAttr v n <;> rfl

theorem uuidAttr_renamed {n : String} (hn : f n = n) (g : Bytes → Bytes) (v : Val) :
    uuidAttr n g (renamed f v) = (uuidAttr n g v).map (renamed f) := by
  cases v with
  | struct cls as =>
    have := nsGet_renamed hf as n
    rw [hn] at this
    exact this
  | _ => rfl

theorem uuidFold_renamed (h1 : f "bytes" = "bytes") (h2 : f "bytes_le" = "bytes_le") (o : Order) (v : Val) :
    uuidFold o (renamed f v) = renamedFold f (uuidFold o v) := by
  cases o with
  | native => rfl
  | big =>
    simp only [uuidFold, uuidAttr_renamed hf h1]
    cases uuidAttr "bytes" id v <;> rfl
  | little =>
    simp only [uuidFold, uuidAttr_renamed hf h2]
    cases uuidAttr "bytes_le" uuidSwap v <;> rfl

end

section
variable {E : Env} {R : Renaming} {info : SeqInfo}
  (h : ∀ s ∈ info.dataSizeExpr.toList ++ info.numElementsExpr.toList, Rewritten E R s)
include h

theorem calcDataSize_renamed (ei : ElemInfo) (ns : Namespace) :
    (calcDataSize E (R.seq info) ei { values := renamedValues R.member ns }).1 =
      (calcDataSize E info ei { values := ns }).1 := by
  simp only [calcDataSize, hasDataSize_renamed, hasNumElements_renamed, evalDataSize_renamed h,
    evalNumElements_renamed h]
  cases info.hasDataSize <;> cases info.hasNumElements <;> simp only [truthyInt, Bool.false_eq_true, if_false, if_true]
  · cases ei.byteSize with
    | none => rfl
    | some s => cases evalNumElements E info ns <;> rfl
  · cases evalDataSize E info ns <;> rfl
  · cases evalDataSize E info ns <;> rfl

theorem streamFold_renamed (ei : ElemInfo) (v : Val) (ns : Namespace) :
    streamFold E (R.seq info) ei (renamed R.member v) (renamedValues R.member ns) =
      renamedFold R.member (streamFold E info ei v ns) := by
  have ht : (R.seq info).terminator = info.terminator := rfl
  simp only [streamFold, calcDataSize_renamed h, len_renamed, ht]
  cases (calcDataSize E info ei { values := ns }).1 with
  | error e => rfl
  | ok r =>
    cases r with
    | none =>
      cases info.terminator with
      | none => rfl
      | some t => cases t <;> cases v <;> rfl
    | some n =>
      simp only
      cases v.len with
      | none => rfl
      | some l => simp only; split <;> rfl

theorem stringFold_renamed (enc : String) (ei : ElemInfo) (v : Val) (ns : Namespace) :
    stringFold E enc (R.seq info) ei (renamed R.member v) (renamedValues R.member ns) =
      renamedFold R.member (stringFold E enc info ei v ns) := by
  cases v with
  | str cs =>
    simp only [renamed, stringFold]
    cases E.encode enc cs with
    | none => rfl
    | some b => exact streamFold_renamed h ei (.bytes b) ns
  | _ => rfl

end

theorem info_names (R : Renaming) (infos : List MemInfo) :
    (infos.map R.info).map (·.name) = (infos.map (·.name)).map R.member := by
  simp only [List.map_map]
  rfl

/-- The parts of a structure with other names for attributes. -/
def renamedParts (f : String → String) : Except Err (Option (List Val)) → Except Err (Option (List Val))
  | .error e => .error e
  | .ok r => .ok (r.map (List.map (renamed f)))

section
variable {E : Env} {R : Renaming} (hf : ∀ a b, R.member a = R.member b → a = b)
include hf

theorem foldMembers_renamed (v : Val) (infos : List MemInfo) {maps : List DMap}
    (hm : ∀ m ∈ maps, ∀ v ns, fold E (R.map m) (renamed R.member v) (renamedValues R.member ns) =
      renamedFold R.member (fold E m v ns)) :
    foldMembers E (renamed R.member v) (infos.map R.info) (R.maps maps) =
      renamedParts R.member (foldMembers E v infos maps) := by
  induction maps generalizing infos with
  | nil => simp only [Renaming.maps, foldMembers]; rfl
  | cons m maps ih =>
    cases infos with
    | nil => simp only [Renaming.maps, List.map_nil, foldMembers]; rfl
    | cons i infos =>
      have ih := ih infos fun m h => hm m (List.mem_cons_of_mem _ h)
      have hm := hm m List.mem_cons_self (getAttr v i.name) [(v.typeName, v)]
      rw [show renamedValues R.member [(v.typeName, v)] = [((renamed R.member v).typeName, renamed R.member v)] from
        congrArg (fun n => [(n, renamed R.member v)]) (renamed_typeName R.member v).symm] at hm
      rw [List.map_cons, Renaming.maps]
      have key : m ≠ .missing → ∀ m', m' ≠ .missing → m' = R.map m →
          foldMembers E (renamed R.member v) (R.info i :: infos.map R.info) (m' :: R.maps maps) =
          renamedParts R.member (foldMembers E v (i :: infos) (m :: maps)) := by
        intro h1 m' h2 hq
        have hu : ∀ (m : DMap) w i infos maps, m ≠ .missing → foldMembers E w (i :: infos) (m :: maps) =
            match getAttr w i.name with
            | .pyNone => foldMembers E w infos maps
            | x =>
              match fold E m x [(w.typeName, w)] with
              | .error e => .error e
              | .ok .pyNone => .ok none
              | .ok b =>
                match foldMembers E w infos maps with
                | .error e => .error e
                | .ok none => .ok none
                | .ok (some bs) => .ok (some (b :: bs)) := by
          intro m w i infos maps h
          rw [foldMembers.eq_def]
          simp only
          cases m <;> first | exact absurd rfl h | rfl
        rw [hu _ _ _ _ _ h2, hu _ _ _ _ _ h1, hq, show (R.info i).name = R.member i.name from rfl,
          getAttr_renamed hf, ih]
        by_cases hx : getAttr v i.name = .pyNone
        · rw [hx]; rfl
        · have hx' : renamed R.member (getAttr v i.name) ≠ .pyNone := fun h => hx ((renamed_none R.member).mp h)
          have e1 : ∀ (x : Val) {α : Type} (a : α) (g : Val → α), x ≠ .pyNone →
              (match x with | .pyNone => a | y => g y) = g x := by
            intro x α a g h
            cases x <;> first | exact absurd rfl h | rfl
          rw [e1 _ _ _ hx, e1 _ _ _ hx', hm]
          cases fold E m (getAttr v i.name) [(v.typeName, v)] with
          | error e => rfl
          | ok b =>
            by_cases hb : b = .pyNone
            · subst hb; rfl
            · have hb' : renamed R.member b ≠ .pyNone := fun h => hb ((renamed_none R.member).mp h)
              simp only [renamedFold]
              cases foldMembers E v infos maps with
              | error e => rfl
              | ok r => cases r <;> rfl
      cases m with
      | missing => simp only [Renaming.map, foldMembers]; exact ih
      | _ => exact key (fun h => nomatch h) _ (fun h => nomatch h) (by rfl)

variable (h1 : R.member "bytes" = "bytes") (h2 : R.member "bytes_le" = "bytes_le")
include h1 h2

/-- Folding a renamed value with the renamed map. -/
theorem fold_renamed (m : DMap) : m.Every (MapFollows E R) → ∀ v ns,
    fold E (R.map m) (renamed R.member v) (renamedValues R.member ns) = renamedFold R.member (fold E m v ns) := by
  induction m using DMap.ind with
  | missing => intros; rfl
  | prim h k s u => intro _ v ns; simp only [Renaming.map, fold]; exact primFold_renamed R.member E _ _ _ v
  | uuid h s u => intro _ v ns; simp only [Renaming.map, fold]; exact uuidFold_renamed hf h1 h2 _ v
  | padding h a => intros; simp only [Renaming.map, fold]; rfl
  | seq h info ei b e ih =>
    intro hev v ns
    have hfo : ∀ s ∈ info.dataSizeExpr.toList ++ info.numElementsExpr.toList, Rewritten E R s := hev.self
    have hop := op_renamed R (.seq h info ei b e)
    simp only [Renaming.map] at hop
    simp only [Renaming.map, fold, seq_kind, hop, seqLinear_renamed]
    cases info.kind with
    | stream => exact streamFold_renamed hfo ei v ns
    | string enc => exact stringFold_renamed hfo enc ei v ns
    | sequence =>
      simp only
      split
      · exact linearSeqFold_renamed R.member E _ v
      · rfl
  | struct h b l io infos maps ih =>
    intro hev v ns
    simp only [DMap.Every] at hev
    rw [everyMap_iff] at hev
    have hop := op_renamed R (.struct h b l io infos maps)
    simp only [Renaming.map] at hop
    simp only [Renaming.map, fold, hop]
    split
    · simp only [linearStructFold, info_names, presentValues_renamed hf]
      cases (DMap.struct h b l io infos maps).op with
      | none => rfl
      | some op =>
        simp only [Op.writeTo, packAll_renamed]
        cases packAll E op.order op.codes (presentValues v (infos.map (·.name))) <;> rfl
    · rw [foldMembers_renamed hf v infos fun m hm => ih m hm (hev.2 m hm)]
      cases foldMembers E v infos maps with
      | error e => rfl
      | ok r =>
        cases r with
        | none => rfl
        | some parts =>
          simp only [renamedParts, Option.map_some, joinBytes_renamed]
          cases joinBytes parts <;> rfl
  | constant h => intros; simp only [Renaming.map, fold]; rfl
  | enumeration h vs => intros; simp only [Renaming.map, fold]; rfl
  | format h l => intros; simp only [Renaming.map, fold]; rfl
  | group h ident base dflt keys maps ihb ihd ihm => intros; simp only [Renaming.map, fold]; rfl

end

end Dtf
