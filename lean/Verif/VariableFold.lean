import Verif.VariableMap
import Verif.Props.Fabric
/-!
Folding what the map of a type of variable size read gives the bytes back.
-/
namespace Dtf
namespace Spec

/-- The text ends where its bytes end: a text of a given length that ends at a terminator
earlier does not say what came after the terminator. -/
def Len.Whole : Len → Prop
  | .bytesTo _ _ | .countTo _ _ => False
  | _ => True

mutual
/-- The types that are written as they are read: fixed types as in C65; blocks and texts
whose length depends on the record they are a field of only, texts having either a length
or a terminator; no arrays, no lists and no groups, which FoldByteStream does not support
(C31). -/
def VTy.Writable (E : Env) (k : Known) : VTy → Prop
  | .fixed t => t.Writable
  | .block _ _ len => len.Within k
  | .text _ encoding _ len => len.Within k ∧ len.Whole ∧ Lossless E encoding
  | .array _ _ _ | .list _ _ _ => False
  | .record name _ fs => fs.Writable E name []
  | .group _ _ _ _ => False
termination_by structural t => t
def VFields.Writable (E : Env) (name : String) (before : List String) : VFields → Prop
  | .nil => True
  | .cons n c _ t fs => t.Writable E [(name, .record before)] ∧
    fs.Writable E name (if c.isNone && t.IsNumber then before ++ [n] else before)
  | .padding _ _ fs => fs.Writable E name before
termination_by structural fs => fs
end

end Spec
open Spec

mutual
/-- The fixed parts have no record with a part of its own name. -/
def Spec.VTy.Apart : VTy → Prop
  | .fixed t => t.Apart
  | .block _ _ _ | .text _ _ _ _ => True
  | .array _ e _ | .list _ e _ => e.Apart
  | .record _ _ fs => fs.Apart
  | .group _ base _ ms => base.Apart ∧ ms.Apart
termination_by structural t => t
def Spec.VFields.Apart : VFields → Prop
  | .nil => True
  | .cons _ _ _ t fs => t.Apart ∧ fs.Apart
  | .padding _ _ fs => fs.Apart
termination_by structural fs => fs
def Spec.VMembers.Apart : VMembers → Prop
  | .nil => True
  | .default t => t.Apart
  | .cons t ms => t.Apart ∧ ms.Apart
termination_by structural ms => ms
end

/-! ### Blocks and texts -/

theorem splitAt_parts {t : Bytes} (ht : t ≠ []) (n : Nat) (bs b rest : Bytes) (h : splitAt t n bs = some (b, rest)) :
    bs = b ++ t ++ rest ∧ b.length % t.length = 0 ∧ lastN t.length b ≠ t := by
  have hpos : 0 < t.length := List.length_pos_iff.mpr ht
  induction n generalizing bs b rest with
  | zero => cases h
  | succ n ih =>
    rw [splitAt] at h
    split at h
    · rename_i heq
      cases h
      refine ⟨?_, by simp, ?_⟩
      · rw [List.nil_append]
        have h1 := List.take_append_drop t.length bs
        rw [heq] at h1
        exact h1.symm
      · unfold lastN
        rw [if_neg (by omega), List.drop_nil]
        exact fun h => ht h.symm
    · rename_i hne
      split at h
      · cases h
      · rename_i b' rest' hs
        cases h
        obtain ⟨h1, h2, h3⟩ := ih _ _ _ hs
        have hlen : t.length < bs.length := by
          have := congrArg List.length h1
          rw [List.length_drop, List.length_append, List.length_append] at this
          omega
        have htake : (bs.take t.length).length = t.length := by rw [List.length_take]; omega
        refine ⟨?_, ?_, ?_⟩
        · rw [List.append_assoc, List.append_assoc, ← List.append_assoc b', ← h1, List.take_append_drop]
        · rw [List.length_append, htake, Nat.add_mod_left, h2]
        · unfold lastN at h3 ⊢
          rw [if_neg (by omega)] at h3 ⊢
          rw [List.length_append, htake]
          cases b' with
          | nil =>
            rw [List.length_nil, Nat.add_zero, Nat.sub_self, List.drop_zero, List.append_nil]
            exact hne
          | cons x b' =>
            have hge : t.length ≤ (x :: b').length :=
              Nat.le_of_dvd (by simp) (Nat.dvd_of_mod_eq_zero h2)
            rw [show t.length + (x :: b').length - t.length = (bs.take t.length).length + ((x :: b').length - t.length) by
              rw [htake]; omega, List.drop_append]
            rw [List.drop_eq_nil_of_le (by omega), List.nil_append,
              show (List.take t.length bs).length + ((x :: b').length - t.length) - (List.take t.length bs).length =
                (x :: b').length - t.length by omega]
            exact h3

theorem takeBytes_done {n : Int} {bs b rest : Bytes} (h : takeBytes n bs = .done b rest) :
    bs = b ++ rest ∧ n = (b.length : Int) := by
  unfold takeBytes at h
  split at h
  · cases h
  · split at h
    · cases h
      refine ⟨(List.take_append_drop ..).symm, ?_⟩
      rw [List.length_take]
      omega
    · cases h

theorem takeParts_done {cut : Bytes → Bytes × Bytes} {n : Int} {bs b t rest : Bytes}
    (hc : ∀ x, (cut x).1 ++ (cut x).2 = x) (h : takeParts cut n bs = .done (b, t) rest) :
    bs = b ++ t ++ rest ∧ n = ((b ++ t).length : Int) := by
  unfold takeParts at h
  split at h
  · rename_i d _ hd
    obtain ⟨h1, h2⟩ := takeBytes_done hd
    injection h with h3 h4
    have := hc d
    rw [h3] at this
    rw [this, ← h4]
    exact ⟨h1, h2⟩
  · cases h
  · cases h

theorem calcSize_bytes {E : Env} {info : SeqInfo} {ei : ElemInfo} {ns : Namespace} (h : info.hasDataSize = true) :
    (calcDataSize E info ei { values := ns }).1 = (evalDataSize E info ns).map some := by
  unfold calcDataSize
  simp only [truthyInt, Bool.false_eq_true, if_false, h, if_true]
  cases evalDataSize E info ns <;> rfl

theorem calcSize_count {E : Env} {info : SeqInfo} {ei : ElemInfo} {ns : Namespace} {es : Int} (h1 : info.hasDataSize = false)
    (h2 : info.hasNumElements = true) (h3 : ei.byteSize = some es) :
    (calcDataSize E info ei { values := ns }).1 = (evalNumElements E info ns).map fun n => some (n * es) := by
  unfold calcDataSize
  simp only [truthyInt, Bool.false_eq_true, if_false, h1, h2, h3, if_true]
  cases evalNumElements E info ns <;> rfl

/-- The bytes of a block or text are written as they were read. A terminator that is
left out is added. -/
theorem len_fold {E : Env} (A : Arithmetic E) {kind : SeqKind} {e : Ty} {len : Len} (hok : TyOk E e)
    (hl : LenOk E e len) {k : Known} (hw : len.Within k) {s s' : Scope} {ns : Namespace} (h : Agrees k s' ns)
    (hs : ∀ x : Expr, x.Within k → x.value s = x.value s') {bs b t rest : Bytes}
    (hr : len.read e.size s bs = .done (b, t) rest) :
    bs = b ++ t ++ rest ∧
      streamFold E (lenInfo kind e len) (elemOf (tyDefn e)) (.bytes (b ++ t)) ns = .ok (.bytes (b ++ t)) ∧
      (len.Whole → streamFold E (lenInfo kind e len) (elemOf (tyDefn e)) (.bytes b) ns = .ok (.bytes (b ++ t))) := by
  have bytes : ∀ (info : SeqInfo) (x : Expr) (cut : Bytes → Bytes × Bytes), info.dataSize = x.plain → info.dataSizeExpr = x.formula →
      x.Accepted E → (∀ n, x = .number n → 0 < n) → x.Within k → (∀ z, (cut z).1 ++ (cut z).2 = z) →
      (match x.value s with
        | none => Outcome.invalid
        | some n => takeParts cut n bs) = .done (b, t) rest →
      bs = b ++ t ++ rest ∧ streamFold E info (elemOf (tyDefn e)) (.bytes (b ++ t)) ns = .ok (.bytes (b ++ t)) := by
    intro info x cut e1 e2 hn hp hw hcut hr
    obtain ⟨i, h1, h2⟩ := evalSize_expr A h hn hp hw
    rw [hs x hw, h1] at hr
    obtain ⟨h3, h4⟩ := takeParts_done hcut hr
    have hev : evalDataSize E info ns = .ok i := by
      have : ¬ i < 0 := by omega
      rw [if_neg this, ← e1, ← e2] at h2
      exact h2
    have hc := calcSize_bytes (E := E) (info := info) (ei := elemOf (tyDefn e)) (ns := ns)
      (by unfold SeqInfo.hasDataSize; rw [e1, e2]; exact size_rule_some x)
    rw [hev] at hc
    refine ⟨h3, ?_⟩
    unfold streamFold
    rw [hc]
    simp [Except.map, Val.len, h4]
  have count : ∀ (info : SeqInfo) (x : Expr) (cut : Bytes → Bytes × Bytes), info.dataSize = none → info.dataSizeExpr = none →
      info.numElements = x.plain → info.numElementsExpr = x.formula →
      x.Accepted E → (∀ n, x = .number n → 0 < n) → x.Within k → (∀ z, (cut z).1 ++ (cut z).2 = z) →
      (match x.value s with
        | none => Outcome.invalid
        | some n => takeParts cut (n * e.size) bs) = .done (b, t) rest →
      bs = b ++ t ++ rest ∧ streamFold E info (elemOf (tyDefn e)) (.bytes (b ++ t)) ns = .ok (.bytes (b ++ t)) := by
    intro info x cut d1 d2 e1 e2 hn hp hw hcut hr
    obtain ⟨i, h1, h2⟩ := evalSize_expr A h hn hp hw
    rw [hs x hw, h1] at hr
    obtain ⟨h3, h4⟩ := takeParts_done hcut hr
    have hpos := ty_pos e hok
    have hev : evalNumElements E info ns = .ok i := by
      have : ¬ i < 0 := by
        intro hi
        have : i * (e.size : Int) < 0 := Int.mul_neg_of_neg_of_pos hi (by omega)
        omega
      rw [if_neg this, ← e1, ← e2] at h2
      exact h2
    have hc := calcSize_count (E := E) (info := info) (ei := elemOf (tyDefn e)) (ns := ns)
      (es := e.size) (by unfold SeqInfo.hasDataSize; rw [d1, d2]; rfl)
      (by unfold SeqInfo.hasNumElements; rw [e1, e2]; exact size_rule_some x) (ty_byteSize e hok)
    rw [hev] at hc
    refine ⟨h3, ?_⟩
    unfold streamFold
    rw [hc]
    simp [Except.map, Val.len, h4]
  cases len with
  | bytes x =>
    have h0 : t = [] := by
      rw [Len.read] at hr
      split at hr
      · cases hr
      · unfold takeParts at hr
        split at hr <;> cases hr
        rfl
    obtain ⟨h1, h2⟩ := bytes (lenInfo kind e (.bytes x)) x _ rfl rfl hl.1 hl.2 hw (fun z => List.append_nil z) hr
    refine ⟨h1, h2, fun _ => ?_⟩
    subst h0
    rw [List.append_nil] at h2 ⊢
    exact h2
  | count x =>
    have h0 : t = [] := by
      rw [Len.read] at hr
      split at hr
      · cases hr
      · unfold takeParts at hr
        split at hr <;> cases hr
        rfl
    obtain ⟨h1, h2⟩ := count (lenInfo kind e (.count x)) x _ rfl rfl rfl rfl hl.1 hl.2 hw (fun z => List.append_nil z) hr
    refine ⟨h1, h2, fun _ => ?_⟩
    subst h0
    rw [List.append_nil] at h2 ⊢
    exact h2
  | bytesTo x u =>
    obtain ⟨h1, h2⟩ := bytes (lenInfo kind e (.bytesTo x u)) x _ rfl rfl hl.1 hl.2.1 hw (fun z => (cutAt_spec hl.2.2 z).1) hr
    exact ⟨h1, h2, fun h => h.elim⟩
  | countTo x u =>
    obtain ⟨h1, h2⟩ := count (lenInfo kind e (.countTo x u)) x _ rfl rfl rfl rfl hl.1 hl.2.1 hw
      (fun z => (cutAt_spec hl.2.2 z).1) hr
    exact ⟨h1, h2, fun h => h.elim⟩
  | upto u =>
    rw [Len.read] at hr
    split at hr <;> cases hr
    rename_i hd
    obtain ⟨h1, h2, h3⟩ := splitAt_parts hl.1 _ _ _ _ hd
    refine ⟨h1, ?_, fun _ => ?_⟩
    · unfold streamFold calcDataSize
      simp only [truthyInt, lenInfo, SeqInfo.hasDataSize, SeqInfo.hasNumElements, Option.isSome, Bool.or_self,
        Bool.false_eq_true, if_false]
      have : lastN t.length (b ++ t) = t := by
        unfold lastN
        rw [if_neg (fun h => hl.1 (List.length_eq_zero_iff.mp h)), List.length_append, Nat.add_sub_cancel, List.drop_left]
      simp [this]
    · unfold streamFold calcDataSize
      simp only [truthyInt, lenInfo, SeqInfo.hasDataSize, SeqInfo.hasNumElements, Option.isSome, Bool.or_self,
        Bool.false_eq_true, if_false]
      simp [h3]

/-! ### Types -/

/-- The map gives the bytes back. -/
def VFolds (E : Env) (t : VTy) (m : DMap) : Prop :=
  ∀ k kw s s' ns size bs v rest, t.Scoped k → t.Writable E kw → (∀ r, nsGet s r ≠ none → r ∈ k.map (·.1)) → Agrees kw s' ns →
    (∀ x : Expr, x.Within kw → x.value s = x.value s') → t.read E.decode size s bs = .done v rest → Kept E v →
      ∃ b, fold E m v ns = .ok (.bytes b) ∧ bs = b ++ rest

theorem fixed_folds {E : Env} {t : Ty} (hok : TyOk E t) (hap : t.Apart) (hh : t.height ≤ 11) {m : DMap}
    (hm : createAs E t.name (orderOf t.big) (tyDefn t) = .ok m) : VFolds E (.fixed t) m := by
  intro k kw s s' ns size bs v rest _ hw _ _ _ hv hk
  rw [VTy.Writable] at hw
  obtain ⟨m', hm', hr⟩ := ty_map t hok
  rw [hm] at hm'
  cases hm'
  have hcr : createMap E (tyDefn t) = .ok m := by
    simp only [createMap, tyDefn_name, tyDefn_orderOrNative]
    exact hm
  rw [VTy.read] at hv
  split at hv <;> cases hv
  rename_i hv
  have hp := hr bs 0 0 [] (by omega)
  rw [List.drop_zero, hv] at hp
  have hev := createAs_every (Q := NodeOk) (fun d nm o m => nodeOk_of_create d nm o m) _ _ _ _ hcr (ty_every t hok)
  have hfold := ty_foldable t hok hw hap [] (by simp) m hm
  obtain ⟨-, hb⟩ := fold_back hfold hev bs 0 0 [] ns v t.size (by intro k hk; exact absurd rfl hk)
    (ty_sizeAgree hm [] ns) hp hk
  refine ⟨_, hb, ?_⟩
  have htk := ty_takes t bs
  by_cases hl : t.size ≤ bs.length
  · rw [if_pos hl, hv] at htk
    obtain ⟨w, hw⟩ := htk
    simp only [Option.some.injEq, Prod.mk.injEq] at hw
    rw [hw.2, window, List.drop_zero, List.take_append_drop]
  · rw [if_neg hl, hv] at htk
    cases htk

theorem block_folds {E : Env} (A : Arithmetic E) {n : String} {e : Ty} {len : Len}
    (hok : VTyOk E (.block n e len)) {m : DMap}
    (hm : createAs E n (orderOf e.big) (vtyDefn (.block n e len)) = .ok m) : VFolds E (.block n e len) m := by
  rw [VTyOk] at hok
  obtain ⟨-, hsc, hok, hl⟩ := hok
  rw [vtyDefn] at hm
  obtain ⟨_, _, _, _, _, rfl, _⟩ := createAs_seq hm
  intro k kw s s' ns size bs v rest _ hw _ ha hs hv hk
  rw [VTy.Writable] at hw
  rw [VTy.read] at hv
  split at hv <;> cases hv
  rename_i b t hr
  obtain ⟨h1, h2, -⟩ := len_fold A (kind := .stream) hok hl hw ha hs hr
  refine ⟨b ++ t, ?_, h1⟩
  rw [fold]
  simp only [(lenInfo_ok A (kind := .stream) hl).2.2]
  exact h2

theorem text_folds {E : Env} (A : Arithmetic E) {n enc : String} {e : Ty} {len : Len}
    (hok : VTyOk E (.text n enc e len)) {m : DMap}
    (hm : createAs E n (orderOf e.big) (vtyDefn (.text n enc e len)) = .ok m) : VFolds E (.text n enc e len) m := by
  rw [VTyOk] at hok
  obtain ⟨-, hsc, hok, hl⟩ := hok
  rw [vtyDefn] at hm
  obtain ⟨_, _, _, _, _, rfl, _⟩ := createAs_seq hm
  intro k kw s s' ns size bs v rest _ hw _ ha hs hv hk
  rw [VTy.Writable] at hw
  rw [VTy.read] at hv
  split at hv
  · cases hv
  · cases hv
  rename_i b t rest' hr
  split at hv <;> cases hv
  rename_i cs hd
  obtain ⟨h1, -, h2⟩ := len_fold A (kind := .string enc) hok hl hw.1 ha hs hr
  refine ⟨b ++ t, ?_, h1⟩
  rw [fold]
  simp only [(lenInfo_ok A (kind := .string enc) hl).2.2, stringFold, hw.2.2 b cs hd]
  exact h2 hw.2.1

/-! ### Records -/

/-- A value is never None. -/
theorem ty_read_some {t : Ty} {bs rest : Bytes} {v : Val} (h : t.read bs = some (v, rest)) :
    v ≠ .pyNone := by
  cases t with
  | scalar n b k s =>
    rw [Ty.read, grab] at h
    split at h <;> cases h
    cases k with
    | integer signed => cases signed <;> exact fun h => nomatch h
    | _ => exact fun h => nomatch h
  | uuid n b =>
    rw [Ty.read, grab] at h
    split at h <;> cases h
    simp
  | stream n e s =>
    rw [Ty.read, grab] at h
    split at h <;> cases h
    simp
  | sequence n e s =>
    rw [Ty.read] at h
    split at h <;> cases h
    simp
  | record n big fs =>
    rw [Ty.read] at h
    split at h <;> cases h
    simp

mutual
theorem vty_read_some {decode : String → Bytes → Option (List Nat)} {size : Nat} (t : VTy) {s : Scope}
    {bs rest : Bytes} {v : Val} (h : t.read decode size s bs = .done v rest) : v ≠ .pyNone := by
  cases t with
  | fixed t =>
    rw [VTy.read] at h
    split at h <;> cases h
    rename_i h
    exact ty_read_some h
  | block n e len =>
    rw [VTy.read] at h
    split at h <;> cases h
    simp
  | text n enc e len =>
    rw [VTy.read] at h
    split at h
    · cases h
    · cases h
    split at h <;> cases h
    simp
  | array n e x =>
    rw [VTy.read] at h
    split at h
    · cases h
    split at h
    · cases h
    split at h <;> cases h
    simp
  | list n e x =>
    rw [VTy.read] at h
    split at h
    · cases h
    split at h
    · cases h
    split at h <;> cases h
    simp
  | record n big fs =>
    rw [VTy.read] at h
    split at h
    · cases h
    split at h <;> cases h
    simp
  | group n base ident ms =>
    rw [VTy.read] at h
    split at h
    · cases h
    · cases h
    split at h
    · cases h
    exact vmembers_read_some ms h
termination_by structural t
theorem vmembers_read_some {decode : String → Bytes → Option (List Nat)} {size : Nat} (ms : VMembers)
    {ident : String} {i : Int} {bs rest : Bytes} {v : Val} (h : ms.read decode size ident i bs = .done v rest) :
    v ≠ .pyNone := by
  cases ms with
  | nil => rw [VMembers.read] at h; cases h
  | default t =>
    rw [VMembers.read] at h
    exact vty_read_some t h
  | cons t ms =>
    rw [VMembers.read] at h
    split at h
    · exact vty_read_some t h
    · exact vmembers_read_some ms h
termination_by structural ms
end

/-- The fields read are added to those before. -/
theorem vfields_read_append {decode : String → Bytes → Option (List Nat)} {size : Nat} : ∀ {fs : VFields}
    {s : Scope} {name : String} {pre attrs : List (String × Val)} {bs rest : Bytes},
    fs.read decode size s name pre bs = .done attrs rest → ∃ post, attrs = pre ++ post
  | .nil, s, name, pre, attrs, bs, rest, h => by
    rw [VFields.read] at h
    cases h
    exact ⟨[], by simp⟩
  | .padding n a fs, s, name, pre, attrs, bs, rest, h => by
    rw [VFields.read] at h
    split at h
    · obtain ⟨post, rfl⟩ := vfields_read_append h
      exact ⟨_, List.append_assoc ..⟩
    · cases h
  | .cons n c vs t fs, s, name, pre, attrs, bs, rest, h => by
    rw [VFields.read] at h
    split at h
    · cases h
    · obtain ⟨post, rfl⟩ := vfields_read_append h
      exact ⟨_, List.append_assoc ..⟩
    · split at h
      · cases h
      · cases h
      · split at h
        · obtain ⟨post, rfl⟩ := vfields_read_append h
          exact ⟨_, List.append_assoc ..⟩
        · cases h

theorem foldMembers_skip {E : Env} {v : Val} {info : MemInfo} {infos : List MemInfo} {m : DMap} {maps : List DMap}
    (h : getAttr v info.name = .pyNone) :
    foldMembers E v (info :: infos) (m :: maps) = foldMembers E v infos maps := by
  rw [foldMembers.eq_def]
  cases m <;> simp only [h]

theorem foldMembers_step {E : Env} {v x : Val} {info : MemInfo} {infos : List MemInfo} {m : DMap} {maps : List DMap}
    {b : Bytes} {bs : List Val} (h : getAttr v info.name = x) (hx : x ≠ .pyNone)
    (hf : fold E m x [(v.typeName, v)] = .ok (.bytes b)) (hr : foldMembers E v infos maps = .ok (some bs)) :
    foldMembers E v (info :: infos) (m :: maps) = .ok (some (.bytes b :: bs)) := by
  rw [foldMembers.eq_def]
  cases m with
  | missing => rw [fold] at hf; cases hf
  | _ =>
    simp only [h]
    cases x with
    | pyNone => exact absurd rfl hx
    | _ => simp only [hf, hr]

theorem join_parts : ∀ parts : List Bytes, joinBytes (parts.map .bytes) = some parts.flatten
  | [] => rfl
  | b :: parts => by
    rw [List.map_cons, joinBytes, join_parts parts]
    rfl

theorem getAttr_middle {c n : String} {pre post : List (String × Val)} {x : Val} (h : n ∉ pre.map (·.1)) :
    getAttr (.struct c (pre ++ (n, x) :: post)) n = x := by
  rw [getAttr, ← lookup_nsGet, lookup_append_none h]
  simp

/-- A floating-point number in a field is one in the record. -/
theorem kept_field {E : Env} {c n : String} {attrs : List (String × Val)} {x : Val} (h : Kept E (.struct c attrs))
    (hm : (n, x) ∈ attrs) : Kept E x := fun f hf => h f (.struct hm hf)

theorem value_own {name : String} {v : Val} {s : Scope} (hs : name ∉ s.map (·.1)) {fs : List String} (x : Expr)
    (hx : x.Within [(name, .record fs)]) : x.value (s ++ [(name, v)]) = x.value [(name, v)] := by
  induction x with
  | number n => rfl
  | given n =>
    simp only [Expr.Within, List.lookup] at hx
    split at hx <;> cases hx
  | field r f =>
    obtain ⟨gs, hg, -⟩ := hx
    simp only [List.lookup] at hg
    split at hg
    · rename_i he
      have he : r = name := by simpa using he
      subst he
      simp only [Expr.value, fieldNumber, lookup_append_none hs]
    · cases hg
  | plus a b iha ihb | minus a b iha ihb | times a b iha ihb | bits a b iha ihb => simp only [Expr.value, iha hx.1, ihb hx.2]
  | over a n iha => simp only [Expr.value, iha hx]
  | choose a r c d b iha ihc ihd ihb => simp only [Expr.value, iha hx.1.1, ihb hx.1.2, ihc hx.2.1, ihd hx.2.2]

theorem vfields_fold {E : Env} {big : Bool} {size : Nat} {name : String} {k : Known} {s : Scope}
    (hsk : ∀ r, nsGet s r ≠ none → r ∈ k.map (·.1)) (hk : name ∉ k.map (·.1)) (hb : name ≠ "__builtins__")
    {attrs : List (String × Val)} (hkept : Kept E (.struct name attrs)) (fs : VFields) (maps : List DMap)
    (hmo : All2 (MapOf E name (orderOf big)) (vfieldDefns fs) maps)
    (hr : ∀ t ∈ fs.types, ∀ m, createAs E t.name (orderOf t.big) (vtyDefn t) = .ok m → VFolds E t m)
    (before : List String) (pre : List (String × Val)) (hs : fs.Scoped k name before) (hw : fs.Writable E name before)
    (hf : ∀ f ∈ before, ∃ i : Int, pre.lookup f = some (.int i)) (hn : (pre.map (·.1) ++ fs.names).Nodup)
    {bs rest : Bytes} (hread : fs.read E.decode size s name pre bs = .done attrs rest) :
    ∃ parts : List Bytes, foldMembers E (.struct name attrs) ((vfieldDefns fs).map Defn.memInfo) maps =
      .ok (some (parts.map .bytes)) ∧ bs = parts.flatten ++ rest := by
  match fs with
  | .nil =>
    rw [vfieldDefns] at hmo ⊢
    cases hmo
    rw [VFields.read] at hread
    cases hread
    exact ⟨[], by rw [foldMembers]; rfl, by simp⟩
  | .padding n a fs =>
    rw [vfieldDefns] at hmo ⊢
    rw [VFields.names] at hn
    rw [VFields.Scoped] at hs
    rw [VFields.Writable] at hw
    cases hmo with
    | @cons a' m as ms hm hms =>
    obtain ⟨n', o', hno, hcr⟩ := hm
    simp only [Defn.target, createAs, Except.ok.injEq] at hcr
    subst hcr
    have hsplit := List.nodup_append.mp hn
    have hnpre : n ∉ pre.map (·.1) := fun hmem => hsplit.2.2 n hmem n (List.mem_cons_self ..) rfl
    simp only [List.map_cons]
    rw [VFields.read] at hread
    split at hread
    · obtain ⟨post, hpost⟩ := vfields_read_append hread
      rw [List.append_assoc] at hpost
      obtain ⟨parts, hparts, hrest⟩ := vfields_fold hsk hk hb hkept fs ms hms hr before _ hs hw (by
          intro f hfm
          obtain ⟨i, hi⟩ := hf f hfm
          exact ⟨i, by rw [lookup_append_some (List.mem_map.mpr ⟨_, lookup_some_mem hi, rfl⟩), hi]⟩) (by
          rw [List.map_append, List.append_assoc]
          exact hn) hread
      refine ⟨bs.take (gap (size - bs.length) a) :: parts, ?_, ?_⟩
      · rw [List.map_cons]
        refine foldMembers_step (x := .bytes (bs.take (gap (size - bs.length) a))) ?_ (fun h => nomatch h) ?_ hparts
        · rw [hpost]
          exact getAttr_middle hnpre
        · rw [fold]
      · rw [List.flatten_cons, List.append_assoc, ← hrest, List.take_append_drop]
    · cases hread
  | .cons n c vs t fs =>
    rw [vfieldDefns] at hmo ⊢
    rw [VFields.names] at hn
    rw [VFields.Scoped] at hs
    rw [VFields.Writable] at hw
    obtain ⟨-, hts, hs⟩ := hs
    cases hmo with
    | @cons a m as ms hm hms =>
    obtain ⟨n', o', hno, hcr⟩ := hm
    simp only [Defn.target, vfield_order, Except.ok.injEq, Prod.mk.injEq] at hno
    obtain ⟨rfl, rfl⟩ := hno
    have hm := hr t (by rw [VFields.types]; exact List.mem_cons_self ..) m hcr
    have hr' := fun u hu => hr u (by rw [VFields.types]; exact List.mem_cons_of_mem _ hu)
    have hsplit := List.nodup_append.mp hn
    have hnpre : n ∉ pre.map (·.1) := fun hmem => hsplit.2.2 n hmem n (List.mem_cons_self ..) rfl
    have hnod : ∀ v : Val, ((pre ++ [(n, v)]).map (·.1) ++ fs.names).Nodup := by
      intro v
      rw [List.map_append, List.append_assoc]
      exact hn
    have hold : ∀ v : Val, ∀ f ∈ before, ∃ i : Int, (pre ++ [(n, v)]).lookup f = some (.int i) := by
      intro v f hfm
      obtain ⟨i, hi⟩ := hf f hfm
      exact ⟨i, by rw [lookup_append_some (List.mem_map.mpr ⟨_, lookup_some_mem hi, rfl⟩), hi]⟩
    have hns : name ∉ s.map (·.1) := fun h => hk (hsk name (nsGet_some_mem h))
    simp only [List.map_cons]
    rw [VFields.read] at hread
    split at hread
    · cases hread
    · rename_i hp
      obtain ⟨post, hpost⟩ := vfields_read_append hread
      have hcs : c.isNone = false := by
        cases c with
        | none => cases hp
        | some _ => rfl
      rw [hcs] at hs hw
      rw [foldMembers_skip (by
        rw [hpost, List.append_assoc]
        exact getAttr_middle hnpre)]
      exact vfields_fold hsk hk hb hkept fs ms hms hr' before (pre ++ [(n, .pyNone)]) hs hw.2 (hold _) (hnod _) hread
    · split at hread
      · cases hread
      · cases hread
      rename_i v rest' hv
      split at hread
      case isFalse => cases hread
      obtain ⟨post, hpost⟩ := vfields_read_append hread
      rw [List.append_assoc] at hpost
      have ih := vfields_fold hsk hk hb hkept fs ms hms hr'
        (if c.isNone && t.IsNumber then before ++ [n] else before) (pre ++ [(n, v)]) hs hw.2 (by
          split
          · rename_i hnum
            rw [Bool.and_eq_true] at hnum
            intro f hfm
            rcases List.mem_append.mp hfm with hfm | hfm
            · exact hold v f hfm
            · rw [List.mem_singleton.mp hfm, lookup_append_none hnpre]
              obtain ⟨i, rfl⟩ := number_read hnum.2 hv
              exact ⟨i, by simp⟩
          · exact hold v) (hnod _) hread
      obtain ⟨parts, hparts, hrest⟩ := ih
      have hag := agrees_record agrees_nil (name := name) (by simp) hb (post := (n, v) :: post) hf
      have hag' : Agrees [(name, .record before)] [(name, .struct name pre)] [(name, .struct name attrs)] := by
        rw [hpost]
        exact hag
      obtain ⟨b, hb1, hb2⟩ := hm _ _ _ _ _ _ _ _ _ hts hw.1 (by
          intro r hr
          rw [List.map_append, List.mem_append]
          rw [← lookup_nsGet] at hr
          by_cases hrs : r ∈ s.map (·.1)
          · exact .inl (hsk r (nsGet_some_mem hrs))
          · right
            rw [lookup_append_none hrs] at hr
            simp only [List.lookup] at hr
            split at hr
            · rename_i he; simpa using he
            · exact absurd rfl hr) hag' (fun x hx => value_own hns x hx) hv
          (kept_field (n := n) hkept (by rw [hpost]; simp))
      refine ⟨b :: parts, ?_, ?_⟩
      · rw [List.map_cons]
        refine foldMembers_step ?_ (vty_read_some t hv) hb1 hparts
        rw [hpost]
        exact getAttr_middle hnpre
      · rw [hb2, hrest, List.flatten_cons, List.append_assoc]

/-! Records of scalars -/

theorem flat_read_any {decode : String → Bytes → Option (List Nat)} {big : Bool} {size size' : Nat} {s s' : Scope}
    {name : String} : ∀ {fs : VFields} {k : Nat} {pre : List (String × Val)} {bs : Bytes}, (fs.flat big) = some k →
      fs.read decode size s name pre bs = fs.read decode size' s' name pre bs
  | .nil, _, _, _, _ => by rw [VFields.read, VFields.read]
  | .padding _ _ _, _, _, _, h => by cases h
  | .cons n c vs t fs, k, pre, bs, h => by
    obtain ⟨rfl, en, ek, es, m, rfl, hm, rfl⟩ := flat_cons h
    rw [VFields.read, VFields.read]
    simp only [present, VTy.read]
    split
    · rfl
    · rfl
    · rw [flat_read_any hm]

theorem flat_scoped {big : Bool} {k : Known} {name : String} : ∀ {fs : VFields} {z : Nat} {before : List String}, (fs.flat big) = some z →
    fs.Scoped k name before
  | .nil, _, _, _ => by rw [VFields.Scoped]; trivial
  | .padding _ _ _, _, _, h => by cases h
  | .cons n c vs t fs, z, before, h => by
    obtain ⟨rfl, en, ek, es, m, rfl, hm, rfl⟩ := flat_cons h
    rw [VFields.Scoped, VTy.Scoped]
    exact ⟨by simp, trivial, flat_scoped hm⟩

theorem flat_every {big : Bool} : ∀ {fs : VFields} {z : Nat}, (fs.flat big) = some z →
    everyDefn TypesDistinct (vfieldDefns fs)
  | .nil, _, _ => by rw [vfieldDefns]; trivial
  | .padding _ _ _, _, h => by cases h
  | .cons n c vs t fs, z, h => by
    obtain ⟨rfl, en, ek, es, m, rfl, hm, rfl⟩ := flat_cons h
    rw [vfieldDefns, everyDefn, Defn.Every, vtyDefn, tyDefn, Defn.Every]
    exact ⟨⟨trivial, trivial⟩, flat_every hm⟩

theorem flat_numbers {E : Env} {big : Bool} {sname name : String} : ∀ {fs : VFields} {z : Nat} {before : List String}
    {maps : List DMap}, (fs.flat big) = some z → fs.Writable E name before →
    All2 (MapOf E sname (orderOf big)) (vfieldDefns fs) maps → ∀ m ∈ maps, ∀ h k s u, m = .prim h k s u → Number k
  | .nil, _, _, maps, _, _, hmo => by
    rw [vfieldDefns] at hmo
    cases hmo
    intro m hm
    cases hm
  | .padding _ _ _, _, _, _, h, _, _ => by cases h
  | .cons n c vs t fs, z, before, maps, h, hw, hmo => by
    obtain ⟨rfl, en, ek, es, m, rfl, hm, rfl⟩ := flat_cons h
    rw [VFields.Writable, VTy.Writable] at hw
    rw [vfieldDefns] at hmo
    cases hmo with
    | @cons a m' as ms hm' hms =>
    obtain ⟨n', o', hno, hcr⟩ := hm'
    simp only [Defn.target, vfield_order, Except.ok.injEq, Prod.mk.injEq] at hno
    obtain ⟨rfl, rfl⟩ := hno
    rw [Defn.target, vtyDefn] at hcr
    intro x hx h k s u he
    rcases List.mem_cons.mp hx with rfl | hx
    · subst he
      exact ty_prim hw.1 hcr
    · exact flat_numbers hm hw.2 hms x hx h k s u he

theorem vrecord_folds {E : Env} {big : Bool} {n : String} {fs : VFields} (hok : VTyOk E (.record n big fs))
    (hmap : Mapped E (.record n big fs)) (hh : (VTy.record n big fs).height ≤ 11)
    (hr : ∀ t ∈ fs.types, ∀ m, createAs E t.name (orderOf t.big) (vtyDefn t) = .ok m → VFolds E t m) {m : DMap}
    (hm : createAs E n (orderOf big) (vtyDefn (.record n big fs)) = .ok m) : VFolds E (.record n big fs) m := by
  obtain ⟨m', hm', hreads⟩ := hmap
  rw [show createAs E (VTy.record n big fs).name (orderOf (VTy.record n big fs).big) (vtyDefn (.record n big fs)) =
    createAs E n (orderOf big) (vtyDefn (.record n big fs)) from rfl, hm] at hm'
  cases hm'
  rw [VTyOk] at hok
  obtain ⟨hnm, hv, -, -, hdist, hpads, hfs⟩ := hok
  have hlin := vfields_linear big fs
  have hdt := vfields_distinct hv.distinct hdist hpads hfs
  have hcr : createMap E (vtyDefn (.record n big fs)) = .ok m := by
    simp only [createMap, vtyDefn_name, vtyDefn_orderOr]
    exact hm
  rw [vtyDefn] at hm
  obtain ⟨io, infos, maps, l, -, hmem, hl, rfl, -⟩ := createAs_struct hm
  have hmo := createMembers_mapOf E n (orderOf big) _ hdt _ (fun d hd => hd) [] (by simp) _ _ hmem
  have hb : n ≠ "__builtins__" := by
    rintro rfl
    exact hnm.1 (by decide)
  intro k kw s s' ns size bs v rest hs hw hsk _ _ hread hkept
  rw [hlin] at hl
  cases hl
  rw [VTy.Writable] at hw
  cases hfl : (fs.flat big) with
  | none =>
    rw [VTy.Scoped] at hs
    rw [VTy.read, hfl, Option.getD_none, if_neg (Nat.not_lt_zero _)] at hread
    split at hread <;> cases hread
    rename_i attrs hread
    obtain ⟨rfl, -, -⟩ := createMembers_all E n (orderOf big) (fun _ => True) _ (fun _ _ _ _ _ _ => trivial) [] (by simp)
      _ _ hmem
    obtain ⟨parts, hp, hbs⟩ := vfields_fold hsk hs.1 hb hkept fs maps hmo hr [] [] hs.2 hw (by simp)
      (by simpa using hv.distinct) hread
    refine ⟨parts.flatten, ?_, hbs⟩
    rw [fold]
    simp only [Option.isSome_none, Bool.false_eq_true, if_false, hp, join_parts]
  | some z =>
    rw [hfl] at hcr hreads
    have hp := hreads [] (by rw [VTy.Scoped]; exact ⟨by simp, flat_scoped hfl⟩) bs 0 0 [] [] (Nat.zero_le _)
      (by omega) agrees_nil
    have hread' : (VTy.record n big fs).read E.decode bs.length [] bs = .done v rest := by
      rw [VTy.read] at hread ⊢
      rw [flat_read_any (size' := size) (s' := s) hfl]
      exact hread
    rw [List.drop_zero, hread'] at hp
    obtain ⟨used, hp, hle, hrest⟩ := hp
    rw [Nat.zero_add] at hp
    have hev := createAs_every (Q := NodeOk) (fun d nm o m => nodeOk_of_create d nm o m) _ _ _ _ hcr (by
      rw [vtyDefn, Defn.Every]
      exact ⟨hdt, flat_every hfl⟩)
    have hfold := Foldable.linear (E := E) (outer := []) (h := { name := n, order := orderOf big })
      (bsz := (Defn.struct { name := n, order := orderOf big } (vfieldDefns fs)).byteSize) (io := io) (infos := infos)
      (flat_numbers hfl hw hmo)
    obtain ⟨-, hb⟩ := fold_back hfold hev bs 0 0 [] ns v used (by intro k hk; exact absurd rfl hk) trivial hp hkept
    refine ⟨_, hb, ?_⟩
    rw [hrest, window, List.drop_zero, Nat.zero_add, List.take_append_drop]

mutual
/-- Folding gives the bytes back. -/
theorem vty_folds {E : Env} (A : Arithmetic E) (t : VTy) (hok : VTyOk E t) (hap : t.Apart)
    (hh : t.height ≤ 11) (m : DMap) (hm : createAs E t.name (orderOf t.big) (vtyDefn t) = .ok m) :
    VFolds E t m := by
  cases t with
  | fixed t =>
    rw [VTyOk] at hok
    rw [VTy.Apart] at hap
    rw [VTy.height] at hh
    rw [vtyDefn] at hm
    exact fixed_folds hok hap hh hm
  | block n e len => exact block_folds A hok hm
  | text n enc e len => exact text_folds A hok hm
  | array n e x =>
    intro k kw s s' ns size bs v rest _ hw
    rw [VTy.Writable] at hw
    exact hw.elim
  | list n e x =>
    intro k kw s s' ns size bs v rest _ hw
    rw [VTy.Writable] at hw
    exact hw.elim
  | record n big fs =>
    have hok' := hok
    rw [VTyOk] at hok'
    rw [VTy.Apart] at hap
    have hh' := hh
    rw [VTy.height] at hh'
    exact vrecord_folds hok (vty_mapped A _ hok) hh (vfields_folds A fs hok'.2.2.2.2.2.2 hap (by omega)) hm
  | group n base ident ms =>
    intro k kw s s' ns size bs v rest _ hw
    rw [VTy.Writable] at hw
    exact hw.elim
termination_by structural t
theorem vfields_folds {E : Env} (A : Arithmetic E) (fs : VFields) (hok : VFieldsOk E fs) (hap : fs.Apart)
    (hh : fs.height ≤ 11) : ∀ t ∈ fs.types, ∀ m, createAs E t.name (orderOf t.big) (vtyDefn t) = .ok m →
      VFolds E t m := by
  cases fs with
  | nil => intro t ht; rw [VFields.types] at ht; cases ht
  | padding n a fs =>
    rw [VFieldsOk] at hok
    rw [VFields.Apart] at hap
    rw [VFields.height] at hh
    intro u hu m hm
    rw [VFields.types] at hu
    exact vfields_folds A fs hok.2 hap hh u hu m hm
  | cons n c vs t fs =>
    rw [VFieldsOk] at hok
    rw [VFields.Apart] at hap
    rw [VFields.height] at hh
    intro u hu m hm
    rw [VFields.types, List.mem_cons] at hu
    rcases hu with he | hu
    · rw [he] at hm ⊢
      exact vty_folds A t hok.2.2.1 hap.1 (by omega) m hm
    · exact vfields_folds A fs hok.2.2.2 hap.2 (by omega) u hu m hm
termination_by structural fs
end

end Dtf
