import Verif.Props.Structures
import Verif.Props.SequenceLinear
import Verif.Props.Folding

/-!
# Property C101: folding member by member

The bytes of a structure are those of its members, the bytes of a sequence those of its
elements. What each member folds to is given by folding it with its own map.
-/

namespace Dtf
open Spec

namespace Spec

/-- The bytes `b` are those of the members `ms` of the object `v`, one after another:
every member is folded by the map of its type and may refer to the object by the name
of its class. A member that is `None` or whose type has no map gives no bytes. -/
inductive Joined (E : Env) (nm : String) (so : Order) (v : Val) : List Defn → Bytes → Prop
  | nil : Joined E nm so v [] []
  | absent {d : Defn} {ms : List Defn} {b : Bytes} (ha : getAttr v d.name = .pyNone)
      (h : Joined E nm so v ms b) : Joined E nm so v (d :: ms) b
  | unmapped {d : Defn} {ms : List Defn} {b : Bytes} (hm : MapOf E nm so d .missing)
      (h : Joined E nm so v ms b) : Joined E nm so v (d :: ms) b
  | member {d : Defn} {ms : List Defn} {m : DMap} {p b : Bytes} (ha : getAttr v d.name ≠ .pyNone)
      (hm : MapOf E nm so d m) (hf : fold E m (getAttr v d.name) [(v.typeName, v)] = .ok (.bytes p))
      (h : Joined E nm so v ms b) : Joined E nm so v (d :: ms) (p ++ b)

/-- The bytes `b` are those of the values `vs`, one after another, each folded by the
map `m`. -/
inductive Strung (E : Env) (m : DMap) : List Val → Bytes → Prop
  | nil : Strung E m [] []
  | cons {x : Val} {vs : List Val} {p b : Bytes} (hf : fold E m x [] = .ok (.bytes p))
      (h : Strung E m vs b) : Strung E m (x :: vs) (p ++ b)

/-- A definition of an integer or floating-point number. -/
def NumberDefn (d : Defn) : Prop :=
  ∃ h k s u, d = .prim h k s u ∧ (k = .floatingPoint ∨ ∃ f, k = .integer f)

/-- The sequence has `k` elements: that is their declared number, or as many of them as
fit into the declared size. -/
def Holding (info : SeqInfo) (e : Defn) (k : Nat) : Prop :=
  info.dataSize = none ∧ info.numElements = some (k : Int) ∨
    ∃ ds es : Nat, info.dataSize = some (ds : Int) ∧ e.byteSize = some (es : Int) ∧ 0 < es ∧
      k * es ≤ ds ∧ ds < (k + 1) * es

end Spec

/-! ### Members one by one -/

theorem mapOf_unique {E : Env} {nm : String} {so : Order} {d : Defn} {m m' : DMap}
    (h : MapOf E nm so d m) (h' : MapOf E nm so d m') : m = m' := by
  obtain ⟨n, o, h1, h2⟩ := h
  obtain ⟨n', o', h3, h4⟩ := h'
  rw [h1] at h3
  cases h3
  rw [h2] at h4
  cases h4
  rfl

theorem foldMembers_past {E : Env} {v : Val} {i : MemInfo} {m : DMap} (infos : List MemInfo)
    (maps : List DMap) (h : m = .missing ∨ getAttr v i.name = .pyNone) :
    foldMembers E v (i :: infos) (m :: maps) = foldMembers E v infos maps := by
  rw [foldMembers.eq_def]
  rcases h with rfl | h
  · rfl
  · cases m <;> simp only [h]

theorem foldMembers_take {E : Env} {v : Val} {i : MemInfo} {m : DMap} (infos : List MemInfo)
    (maps : List DMap) (hm : m ≠ .missing) (h : getAttr v i.name ≠ .pyNone) :
    foldMembers E v (i :: infos) (m :: maps) =
      match fold E m (getAttr v i.name) [(v.typeName, v)] with
      | .error e => .error e
      | .ok .pyNone => .ok none
      | .ok b =>
        match foldMembers E v infos maps with
        | .error e => .error e
        | .ok none => .ok none
        | .ok (some bs) => .ok (some (b :: bs)) := by
  rw [foldMembers.eq_def]
  simp only
  generalize getAttr v i.name = x at h ⊢
  cases m <;> first | exact absurd rfl hm | (cases x <;> first | exact absurd rfl h | rfl)

theorem foldMembers_joined {E : Env} {nm : String} {so : Order} {v : Val} {ms : List Defn}
    {maps : List DMap} (hmo : All2 (MapOf E nm so) ms maps) (b : Bytes) :
    (∃ parts, foldMembers E v (ms.map Defn.memInfo) maps = .ok (some parts) ∧ joinBytes parts = some b) ↔
      Joined E nm so v ms b := by
  induction hmo generalizing b with
  | nil =>
    simp only [foldMembers]
    constructor
    · rintro ⟨parts, h, hj⟩
      cases h
      cases hj
      exact .nil
    · intro h
      cases h
      exact ⟨[], rfl, rfl⟩
  | @cons d m ms maps hm hmo ih =>
    by_cases hmiss : m = .missing
    · rw [List.map_cons, foldMembers_past _ _ (.inl hmiss), ih]
      subst hmiss
      constructor
      · exact fun h => .unmapped hm h
      · intro h
        cases h with
        | absent _ h => exact h
        | unmapped _ h => exact h
        | member _ hm' hf _ =>
          cases mapOf_unique hm hm'
          simp [fold] at hf
    by_cases hnone : getAttr v d.name = .pyNone
    · rw [List.map_cons, foldMembers_past _ _ (.inr (by rw [memInfo_name]; exact hnone)), ih]
      constructor
      · exact fun h => .absent hnone h
      · intro h
        cases h with
        | absent _ h => exact h
        | unmapped _ h => exact h
        | member ha _ _ _ => exact absurd hnone ha
    rw [List.map_cons, foldMembers_take _ _ hmiss (by rw [memInfo_name]; exact hnone), memInfo_name]
    have hstep : (∃ parts, (match fold E m (getAttr v d.name) [(v.typeName, v)] with
            | .error e => .error e
            | .ok .pyNone => .ok none
            | .ok b =>
              match foldMembers E v (ms.map Defn.memInfo) maps with
              | .error e => .error e
              | .ok none => .ok none
              | .ok (some bs) => .ok (some (b :: bs)) : Except Err (Option (List Val))) = .ok (some parts) ∧
            joinBytes parts = some b) ↔
        ∃ p r, fold E m (getAttr v d.name) [(v.typeName, v)] = .ok (.bytes p) ∧
          (∃ parts, foldMembers E v (ms.map Defn.memInfo) maps = .ok (some parts) ∧
            joinBytes parts = some r) ∧ b = p ++ r := by
      constructor
      · rintro ⟨parts, h, hj⟩
        split at h
        · cases h
        · cases h
        · rename_i x hx hf
          split at h
          · cases h
          · cases h
          · rename_i bs hbs
            cases h
            cases x <;> simp [joinBytes] at hj
            obtain ⟨r, hr, rfl⟩ := hj
            exact ⟨_, r, hf, ⟨bs, hbs, hr⟩, rfl⟩
      · rintro ⟨p, r, hf, ⟨parts, hbs, hr⟩, rfl⟩
        refine ⟨.bytes p :: parts, ?_, by simp [joinBytes, hr]⟩
        rw [hf]
        simp only [hbs]
    rw [hstep]
    simp only [ih]
    constructor
    · rintro ⟨p, r, hf, hj, rfl⟩
      exact .member hnone hm hf hj
    · intro h
      cases h with
      | absent ha _ => exact absurd ha hnone
      | unmapped hm' _ => exact absurd (mapOf_unique hm hm') hmiss
      | member _ hm' hf hj =>
        cases mapOf_unique hm hm'
        exact ⟨_, _, hf, hj, rfl⟩

/-- **C101** (members one by one) A structure map that folds its members one by one
gives the bytes `b` exactly if those are the bytes of the members, one after another. -/
theorem C101_members (E : Env) (nm : String) (o : Order) (h : Hdr) (ms : List Defn)
    (hdt : DistinctTypes ms) (hd : Hdr) (bsz : Option Int) (io : Bool) (infos : List MemInfo)
    (maps : List DMap)
    (hm : createAs E nm o (.struct h ms) = .ok (.struct hd bsz false io infos maps))
    (v : Val) (ns : Namespace) (b : Bytes) :
    fold E (.struct hd bsz false io infos maps) v ns = .ok (.bytes b) ↔ Joined E nm o v ms b := by
  obtain ⟨io', infos', maps', l, hcls, hmem, hlin, heq, -⟩ := createAs_struct hm
  have hmo := createMembers_mapOf E nm o ms hdt ms (fun d hd => hd) [] (by simp) _ _ hmem
  have hinf := (createMembers_all E nm o (fun _ => True) ms
    (fun _ _ _ _ _ _ => trivial) [] (by simp) _ _ hmem).1
  simp only [DMap.struct.injEq] at heq
  obtain ⟨rfl, hbs, rfl, rfl, rfl, rfl⟩ := heq
  subst hinf
  rw [← foldMembers_joined hmo, fold]
  simp only [Bool.false_eq_true, if_false]
  generalize foldMembers E v (ms.map Defn.memInfo) maps = r
  constructor
  · intro hf
    split at hf
    · cases hf
    · cases hf
    · rename_i parts
      split at hf
      · cases hf
      · rename_i b' hb
        cases hf
        exact ⟨parts, rfl, hb⟩
  · rintro ⟨parts, rfl, hj⟩
    simp only [hj]

/-! ### All members at once -/

theorem packOne_little {E : Env} {o o' : Order} (h : E.isLittle o = E.isLittle o') (c : Code) (x : Val) :
    packOne E o c x = packOne E o' c x := by
  unfold packOne
  rw [h]

theorem fold_number {E : Env} {h : Hdr} {k : PrimKind} {s : Size} {u : String}
    (hk : k = .floatingPoint ∨ ∃ f, k = .integer f) (x : Val) (ns : Namespace) (p : Bytes) :
    fold E (.prim h k s u) x ns = .ok (.bytes p) ↔
      ∃ c, primCode k s = some c ∧ packOne E h.order c x = some p := by
  have hv : foldValue k x = some x := by
    rcases hk with rfl | ⟨f, rfl⟩ <;> rfl
  simp only [fold, primFold, hv]
  cases hc : primCode k s with
  | none => simp
  | some c =>
    simp only
    cases hp : packOne E h.order c x with
    | none => simp [hp]
    | some q => simp [hp]

/-- What a number as member of a structure folds to. -/
theorem number_member {E : Env} {nm : String} {so : Order} {d : Defn} {m : DMap}
    (hm : MapOf E nm so d m) (hn : NumberDefn d.target)
    (hag : ∀ x, d.target.order? = some x → x ≠ .native → (LeastFirst E x ↔ LeastFirst E so)) :
    ∃ h k s u, m = .prim h k s u ∧ (k = .floatingPoint ∨ ∃ f, k = .integer f) ∧
      E.isLittle h.order = E.isLittle so := by
  obtain ⟨h, k, s, u, hd, hk⟩ := hn
  obtain ⟨n, o, hno, hcr⟩ := hm
  have hl := member_order hno (by rw [hd]; simp [Defn.order?]) hag
  rw [hd] at hcr
  simp only [createAs] at hcr
  split at hcr
  · cases hcr
  · cases hcr
    exact ⟨_, k, s, u, rfl, hk, hl⟩

theorem presentValues_all {v : Val} {names : List String} (h : ∀ n ∈ names, getAttr v n ≠ .pyNone) :
    presentValues v names = names.map (getAttr v) := by
  induction names with
  | nil => rfl
  | cons n names ih =>
    rw [presentValues, List.map_cons, ih fun m hm => h m (List.mem_cons_of_mem _ hm)]
    have := h n List.mem_cons_self
    generalize getAttr v n = x at this ⊢
    cases x <;> first | rfl | exact absurd rfl this

theorem presentValues_full {v : Val} {names : List String} :
    (presentValues v names).length ≤ names.length ∧
      ((presentValues v names).length = names.length → ∀ n ∈ names, getAttr v n ≠ .pyNone) := by
  induction names with
  | nil => exact ⟨Nat.le_refl _, by simp⟩
  | cons n names ih =>
    rw [presentValues]
    split
    · exact ⟨by simp; omega, fun h => by have := ih.1; simp at h; omega⟩
    · rename_i hx
      refine ⟨by simp; omega, fun h => ?_⟩
      intro m hm
      rw [List.mem_cons] at hm
      rcases hm with rfl | hm
      · exact hx
      · exact ih.2 (by simpa using h) m hm

theorem packAll_joined {E : Env} {nm : String} {so : Order} {v : Val} {ms : List Defn}
    {maps : List DMap} (hmo : All2 (MapOf E nm so) ms maps) (hag : OrdersAgree E so ms)
    (hnum : ∀ d ∈ ms, NumberDefn d.target) (hpres : ∀ d ∈ ms, getAttr v d.name ≠ .pyNone) (b : Bytes) :
    (∃ cs, All2 IsPrim maps cs ∧ packAll E so cs ((ms.map Defn.name).map (getAttr v)) = some b) ↔
      Joined E nm so v ms b := by
  induction hmo generalizing b with
  | nil =>
    constructor
    · rintro ⟨cs, hcs, hp⟩
      cases hcs
      cases hp
      exact .nil
    · intro h
      cases h
      exact ⟨[], .nil, rfl⟩
  | @cons d m ms maps hm hmo ih =>
    have ih := ih (fun d hd => hag d (List.mem_cons_of_mem _ hd))
      (fun d hd => hnum d (List.mem_cons_of_mem _ hd)) (fun d hd => hpres d (List.mem_cons_of_mem _ hd))
    obtain ⟨h, k, s, u, rfl, hk, hl⟩ := number_member hm (hnum d List.mem_cons_self)
      (hag d List.mem_cons_self)
    have hp0 := hpres d List.mem_cons_self
    constructor
    · rintro ⟨cs, hcs, hp⟩
      cases hcs with
      | @cons _ c _ cs hc hcs =>
      obtain ⟨h', k', s', u', he, hpc⟩ := hc
      cases he
      simp only [List.map_cons, packAll, Option.bind_eq_some_iff, Option.map_eq_some_iff] at hp
      obtain ⟨p, hp, r, hr, rfl⟩ := hp
      refine .member hp0 hm ((fold_number hk _ _ _).mpr ⟨c, hpc, ?_⟩) ((ih r).mp ⟨cs, hcs, hr⟩)
      rw [packOne_little hl, hp]
    · intro hj
      cases hj with
      | absent ha _ => exact absurd ha hp0
      | unmapped hm' _ => exact absurd (mapOf_unique hm hm') (by simp)
      | @member _ _ m' p r _ hm' hf hj =>
        cases mapOf_unique hm hm'
        obtain ⟨c, hpc, hp⟩ := (fold_number hk _ _ _).mp hf
        obtain ⟨cs, hcs, hr⟩ := (ih r).mpr hj
        refine ⟨c :: cs, .cons ⟨_, _, _, _, rfl, hpc⟩ hcs, ?_⟩
        rw [packOne_little hl] at hp
        simp only [List.map_cons, packAll, hp, hr, Option.bind_some, Option.map_some]

/-- **C101** (all members at once, partial) A structure map that packs all members in one
go gives the bytes `b` exactly if no member is `None` and those are the bytes of the
members, one after another, when the members are numbers and declare no other byte order
than the structure. What is missing are members that are `None` or no numbers, see
`C101_none_refuted` and `C101_boolean_refuted`, and other byte orders, see
`C101_order_refuted`. -/
theorem C101_packed_partial (E : Env) (nm : String) (o : Order) (h : Hdr) (ms : List Defn)
    (hdt : DistinctTypes ms) (hag : OrdersAgree E o ms) (hnum : ∀ d ∈ ms, NumberDefn d.target)
    (hd : Hdr) (bsz : Option Int) (io : Bool) (infos : List MemInfo) (maps : List DMap)
    (hm : createAs E nm o (.struct h ms) = .ok (.struct hd bsz true io infos maps))
    (v : Val) (ns : Namespace) (b : Bytes) :
    fold E (.struct hd bsz true io infos maps) v ns = .ok (.bytes b) ↔
      (∀ d ∈ ms, getAttr v d.name ≠ .pyNone) ∧ Joined E nm o v ms b := by
  have hm0 := hm
  obtain ⟨io', infos', maps', l, hcls, hmem, hlin, heq, -⟩ := createAs_struct hm
  have hmo := createMembers_mapOf E nm o ms hdt ms (fun d hd => hd) [] (by simp) _ _ hmem
  have hinf := (createMembers_all E nm o (fun _ => True) ms
    (fun _ _ _ _ _ _ => trivial) [] (by simp) _ _ hmem).1
  simp only [DMap.struct.injEq] at heq
  obtain ⟨rfl, hbs, rfl, rfl, rfl, rfl⟩ := heq
  subst hinf
  obtain ⟨hnd, hne⟩ := createClass_nodup hcls
  have hnames : (ms.map Defn.memInfo).map (·.name) = ms.map Defn.name := by
    simp [memInfo_name]
  rw [fold]
  simp only [if_true, linearStructFold, hnames]
  constructor
  · intro hf
    split at hf
    · cases hf
    rename_i op hop
    obtain ⟨hoo, hpr⟩ := struct_op hm0 op hop
    split at hf
    · rename_i b' hb
      cases hf
      unfold Op.writeTo at hb
      have hcnt := packAll_count hb
      have hpres := presentValues_full.2 (by
        rw [hcnt, ← hpr.length_eq, ← hmo.length_eq, List.length_map])
      have hpres' : ∀ d ∈ ms, getAttr v d.name ≠ .pyNone :=
        fun d hd => hpres _ (List.mem_map_of_mem hd)
      refine ⟨hpres', (packAll_joined hmo hag hnum hpres' b).mp ⟨op.codes, hpr, ?_⟩⟩
      rw [presentValues_all hpres, hoo] at hb
      exact hb
    · cases hf
  · rintro ⟨hpres, hj⟩
    obtain ⟨cs, hcs, hp⟩ := (packAll_joined hmo hag hnum hpres b).mpr hj
    have hne' : cs ≠ [] := by
      intro he
      subst he
      cases hcs
      cases hmo
      exact hne rfl
    rw [struct_op_of_prims hcs hne']
    have : ∀ n ∈ ms.map Defn.name, getAttr v n ≠ .pyNone := by
      intro n hn
      obtain ⟨d, hd, rfl⟩ := List.mem_map.mp hn
      exact hpres d hd
    simp only [presentValues_all this, Op.writeTo, hp]

/-! ### Elements of a sequence -/

theorem packAll_strung {E : Env} {h : Hdr} {k : PrimKind} {s : Size} {u : String} {c : Code}
    (hk : k = .floatingPoint ∨ ∃ f, k = .integer f) (hc : primCode k s = some c) (n : Nat)
    (vs : List Val) (b : Bytes) :
    packAll E h.order (List.replicate n c) vs = some b ↔
      vs.length = n ∧ Strung E (.prim h k s u) vs b := by
  induction n generalizing vs b with
  | zero =>
    cases vs with
    | nil =>
      simp only [List.replicate_zero, packAll, Option.some.injEq, List.length_nil, true_and]
      constructor
      · rintro rfl; exact .nil
      · intro h; cases h; rfl
    | cons x vs => simp [packAll]
  | succ n ih =>
    cases vs with
    | nil => simp [List.replicate_succ, packAll]
    | cons x vs =>
      simp only [List.replicate_succ, packAll, Option.bind_eq_some_iff, Option.map_eq_some_iff,
        List.length_cons, Nat.add_right_cancel_iff]
      constructor
      · rintro ⟨p, hp, r, hr, rfl⟩
        obtain ⟨hl, hs⟩ := (ih vs r).mp hr
        exact ⟨hl, .cons ((fold_number hk _ _ _).mpr ⟨c, hc, hp⟩) hs⟩
      · rintro ⟨hl, hs⟩
        cases hs with
        | @cons _ _ p r hf hs =>
        obtain ⟨c', hc', hp⟩ := (fold_number hk _ _ _).mp hf
        rw [hc] at hc'
        cases hc'
        exact ⟨p, hp, r, (ih vs r).mpr ⟨hl, hs⟩, rfl⟩

/-- **C101** (sequences, partial) A sequence map of `k` numbers, at least one, gives the bytes `b` exactly
if the value is a sequence of `k` values and those are their bytes, one after another,
each folded by the map of the elements. What is missing are sequences packed value by
value, which fold to `None` (`C31_sequence_refuted`). -/
theorem C101_sequence_partial (E : Env) (nm : String) (o : Order) (h : Hdr) (info : SeqInfo) (e : Defn)
    (hk : info.kind = .sequence) (hnum : NumberDefn e) (k : Nat) (hpos : 0 < k)
    (hn : Holding info e k) (hdse : info.dataSizeExpr = none) (hne : info.numElementsExpr = none)
    (ht : info.terminator = none) (m : DMap) (hm : createAs E nm o (.seq h info e) = .ok m)
    (v : Val) (ns : Namespace) (b : Bytes) :
    ∃ en em, createAs E en (elementOrder o e) e = .ok em ∧
      (fold E m v ns = .ok (.bytes b) ↔
        ∃ vs, v.iter = some vs ∧ vs.length = k ∧ Strung E em vs b) := by
  obtain ⟨en, eo, em, he, ⟨eo', heo, heq⟩, hme, hfin⟩ := createAs_seq hm
  obtain ⟨h', k', s, u, rfl, hk'⟩ := hnum
  refine ⟨en, em, by rw [elementOrder_eq heo, ← heq]; exact he, ?_⟩
  have hem : em = .prim { h' with name := en, order := eo } k' s u := by
    simp only [createAs] at he
    split at he
    · cases he
    · cases he; rfl
  subst hem
  have hlin : seqLinear info ⟨(Defn.prim h' k' s u).byteSize, (Defn.prim h' k' s u).isComposite,
      (Defn.prim h' k' s u).terminator?⟩ = true := by
    simp [seqLinear, Defn.isComposite, hdse, hne, ht]
  have hop : m.op = (primCode k' s).map fun c => ⟨eo, List.replicate k c⟩ := by
    rw [hme]
    have hfmt : ∀ hd bsz eh, (DMap.seq hd info ⟨(Defn.prim h' k' s u).byteSize,
        (Defn.prim h' k' s u).isComposite, (Defn.prim h' k' s u).terminator?⟩ bsz (.prim eh k' s u)).fmt =
        .ok (seqFmt (some (k : Int)) ((primCode k' s).map fun c => [c.char])) := by
      intro hd bsz eh
      rcases hn with ⟨hds, hn⟩ | ⟨ds, es, hds, hes, h0, hle, hlt⟩
      · simp [DMap.fmt, hk, hds, truthyInt, hn]
      · have hne0 : ds ≠ 0 := by
          have := Nat.mul_pos hpos h0
          omega
        have hq : Int.fdiv (ds : Int) (es : Int) = (k : Int) := by
          rw [Int.fdiv_eq_ediv_of_nonneg _ (by omega)]
          have : ds / es = k := by
            apply Nat.le_antisymm
            · exact Nat.le_of_lt_succ ((Nat.div_lt_iff_lt_mul h0).mpr hlt)
            · exact (Nat.le_div_iff_mul_le h0).mpr hle
          rw [← this]; rfl
        have hes0 : es ≠ 0 := by omega
        simp [DMap.fmt, hk, hds, truthyInt, hes, hes0, hne0, hq]
    unfold DMap.op DMap.operation
    simp only [DMap.orderStr]
    rw [hfmt]
    cases hc : primCode k' s with
    | none => simp [seqFmt]
    | some c =>
      have hp := parseCodes_count (k : Int) c []
      rw [if_pos (by omega)] at hp
      simp only [parseCodes, Option.map_some, List.append_nil, Int.toNat_natCast] at hp
      have hk0 : k ≠ 0 := by omega
      simp only [seqFmt, Option.map_some]
      rw [if_neg (by simp; omega)]
      generalize decStr (k : Int) ++ [c.char] = f at hp
      cases f with
      | nil =>
        simp only [parseCodes, Option.some.injEq] at hp
        have := congrArg List.length hp
        simp at this
        omega
      | cons x f => simp [mkOp, hp]
  rw [hme] at hop ⊢
  rw [fold]
  simp only [hk, hlin, if_true, hop, linearSeqFold]
  cases hc : primCode k' s with
  | none =>
    simp only [Option.map_none]
    constructor
    · intro hf; simp at hf
    · rintro ⟨vs, -, hl, hs⟩
      cases hs with
      | nil => simp at hl; omega
      | cons hf _ =>
        obtain ⟨c, hc', -⟩ := (fold_number hk' _ _ _).mp hf
        rw [hc] at hc'; cases hc'
  | some c =>
    simp only [Option.map_some]
    cases hv : v.iter with
    | none => simp
    | some vs =>
      have := packAll_strung (E := E) (h := { h' with name := en, order := eo }) (u := u) hk' hc k vs b
      simp only [Op.writeTo, Option.some.injEq, exists_eq_left', ← this]
      generalize packAll E eo (List.replicate k c) vs = r
      cases r <;> simp

/-! ### Cases -/

/-- A flag that is true for 2, followed by padding up to four bytes and a number. -/
def exFlagged : Defn :=
  .struct { name := "T", order := .big }
    [.member { name := "flag" } (.prim { name := "bool" } (.boolean (some 0) (some 2)) (.bytes 1) "bytes") none
        (some "bool") none,
      .padding { name := "gap" } (some 4),
      .member { name := "n" } (.prim { name := "uint16" } (.integer true) (.bytes 2) "bytes") none
        (some "uint16") none]

/-- The padding makes `exFlagged` a structure folded member by member. The absent
padding gives no bytes. -/
example : ∃ ms hd bsz io infos maps, exFlagged = .struct { name := "T", order := .big } ms ∧
    DistinctTypes ms ∧ createMap exEnv exFlagged = .ok (.struct hd bsz false io infos maps) ∧
    fold exEnv (.struct hd bsz false io infos maps)
      (.struct "T" [("flag", .bool true), ("gap", .bytes [9, 9, 9]), ("n", .int 258)]) [] =
        .ok (.bytes [2, 9, 9, 9, 1, 2]) ∧
    fold exEnv (.struct hd bsz false io infos maps)
      (.struct "T" [("flag", .bool true), ("gap", .pyNone), ("n", .int 258)]) [] =
        .ok (.bytes [2, 1, 2]) := by
  refine ⟨_, _, _, _, _, _, rfl, ?_, rfl, rfl, rfl⟩
  simp [DistinctTypes, Defn.target, Defn.name, Defn.hdr]

/-- `exLin`, two numbers, is packed in one go. -/
example : ∃ h ms hd b io infos maps, exLin = .struct h ms ∧ DistinctTypes ms ∧
    OrdersAgree exEnv h.order ms ∧ (∀ d ∈ ms, NumberDefn d.target) ∧
    createMap exEnv exLin = .ok (.struct hd b true io infos maps) ∧
    fold exEnv (.struct hd b true io infos maps) (.struct "T" [("c", .int 5), ("e", .int 1)]) [] =
      .ok (.bytes [5, 1]) := by
  refine ⟨_, _, _, _, _, _, _, rfl, ?_, ?_, ?_, rfl, rfl⟩
  · simp [DistinctTypes, exU8, Defn.target, Defn.name, Defn.hdr]
  · simp [OrdersAgree, exU8, Defn.target, Defn.order?]
  · intro d hd
    simp only [List.mem_cons, List.not_mem_nil, or_false] at hd
    rcases hd with rfl | rfl <;> exact ⟨_, _, _, _, rfl, .inr ⟨_, rfl⟩⟩

/-- `exSeq`, three numbers of two bytes. -/
example : ∃ h info e m, exSeq = .seq h info e ∧ info.kind = .sequence ∧ NumberDefn e ∧
    Holding info e 3 ∧ info.dataSizeExpr = none ∧
    info.numElementsExpr = none ∧ info.terminator = none ∧ createMap exEnv exSeq = .ok m ∧
    fold exEnv m (.tuple [.int 1, .int 2, .int 3]) [] = .ok (.bytes [1, 0, 2, 0, 3, 0]) :=
  ⟨_, _, _, _, rfl, rfl, ⟨_, _, _, _, rfl, .inr ⟨_, rfl⟩⟩, .inl ⟨rfl, rfl⟩, rfl, rfl, rfl, rfl, rfl⟩

/-- Three of them fit into seven bytes. -/
example : Holding { kind := .sequence, dataSize := some 7 } exU16 3 :=
  .inr ⟨7, 2, rfl, rfl, by omega, by omega, by omega⟩

/-- **C101** (refuted, booleans) A structure that packs all members in one go does not
fold them with their own maps: a boolean that is true for 2 is folded to 2 on its own
and to 1 as a member. -/
theorem C101_boolean_refuted : ∃ ms m, exTwoBool = .struct { name := "T", order := .little } ms ∧
    createMap exEnv exTwoBool = .ok m ∧
    fold exEnv m (.struct "T" [("a", .bool true)]) [] = .ok (.bytes [1]) ∧
    Joined exEnv "T" .little (.struct "T" [("a", .bool true)]) ms [2] :=
  ⟨_, _, rfl, rfl, rfl,
    .member (p := [2]) (b := []) (fun h => nomatch h) ⟨_, _, rfl, rfl⟩ rfl .nil⟩

/-- **C101** (refuted, absent members) Nor does it leave out members that are `None`: it
cannot be folded. -/
theorem C101_none_refuted : ∃ h ms m, exLin = .struct h ms ∧ createMap exEnv exLin = .ok m ∧
    fold exEnv m (.struct "T" [("c", .int 5), ("e", .pyNone)]) [] = .error .folding ∧
    Joined exEnv "T" h.order (.struct "T" [("c", .int 5), ("e", .pyNone)]) ms [5] :=
  ⟨_, _, _, rfl, rfl, rfl,
    .member (p := [5]) (b := []) (fun h => nomatch h) ⟨_, _, rfl, rfl⟩ rfl (.absent rfl .nil)⟩

/-- A structure without byte order with a big-endian number. -/
def exBigMember : Defn :=
  .struct { name := "T" }
    [.member { name := "n" } (.prim { name := "uint16be", order := .big } (.integer true) (.bytes 2) "bytes")
      none (some "uint16be") none]

/-- **C101** (refuted, byte orders) Nor does it respect the byte order of a member when the
structure has none: the number is folded in the byte order of the machine. -/
theorem C101_order_refuted : ∃ ms m, exBigMember = .struct { name := "T" } ms ∧
    createMap exEnv exBigMember = .ok m ∧
    fold exEnv m (.struct "T" [("n", .int 1)]) [] = .ok (.bytes [1, 0]) ∧
    Joined exEnv "T" .native (.struct "T" [("n", .int 1)]) ms [0, 1] :=
  ⟨_, _, rfl, rfl, rfl,
    .member (p := [0, 1]) (b := []) (fun h => nomatch h) ⟨_, _, rfl, rfl⟩ rfl .nil⟩

end Dtf
