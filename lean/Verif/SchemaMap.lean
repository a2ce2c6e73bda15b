import Verif.ClassText
import Verif.Schema
namespace Dtf
open Spec

/-- The map reads what the type means. -/
def TyReads (E : Env) (t : Ty) (m : DMap) : Prop :=
  ∀ bs off depth ns, depth + t.height ≤ 11 →
    parse E m bs off depth ns =
      match t.read (bs.drop off) with
      | some (v, _) => .ok (v, t.size)
      | none => .error .tooSmall

theorem orderOf_inj {a b : Bool} (h : orderOf a = orderOf b) : a = b := by
  cases a <;> cases b <;> first | rfl | cases h

theorem stored_orderOf (E : Env) (big : Bool) (bs : Bytes) :
    unsignedOf (E.isLittle (orderOf big)) bs = numberIn big bs := by
  rw [← stored_eq]
  cases big <;> simp [stored, numberIn, orderOf, LeastFirst]

theorem tooSmall_rest (bs : Bytes) (off n : Nat) (hn : 0 < n) :
    tooSmall bs off (n : Int) = !decide (n ≤ (bs.drop off).length) := by
  rw [tooSmall_eq, List.length_drop]
  by_cases h : bs.length < off + n
  · simp [h]; omega
  · simp [h]; omega

theorem grab_eq {n : Nat} {f : Bytes → Val} {bs : Bytes} :
    grab n f bs = if n ≤ bs.length then some (f (bs.take n), bs.drop n) else none := rfl

/-! ### Scalars -/

theorem scalar_code {k : Atom} {s : Nat} (h : k.Size s) : ∃ c, primCode (scalarKind k) (.bytes s) = some c ∧
    c.size = s ∧ ∀ E big b, b.length = s →
      mapValue (scalarKind k) (unpackOne E (orderOf big) c b) = some (k.value big b) := by
  cases k with
  | integer signed =>
    obtain ⟨c, hc, hu, -⟩ := intCode_some (u := !signed) h
    refine ⟨c, hc, primCode_size hc, ?_⟩
    rintro E big b rfl
    rw [hu, stored_orderOf]
    cases signed
    · rfl
    · rfl
  | boolean =>
    have key : ∀ (E : Env) (big : Bool) (b : Bytes) (w : Val), w = .int (unsignedOf (E.isLittle (orderOf big)) b) →
        mapValue (.boolean (some 0) none) w = some (Atom.boolean.value big b) := by
      rintro E big b _ rfl
      rw [stored_orderOf]
      simp only [mapValue, Atom.value]
      by_cases h0 : numberIn big b = 0
      · simp [h0, pyEq, Val.num?, Lit.num?, Num.eq]
      · simp [h0, pyEq, Val.num?, Lit.num?, Num.eq]
    rcases h with rfl | rfl | rfl
    · exact ⟨_, rfl, rfl, fun E big b hb => key E big b _ rfl⟩
    · exact ⟨_, rfl, rfl, fun E big b hb => key E big b _ rfl⟩
    · exact ⟨_, rfl, rfl, fun E big b hb => key E big b _ rfl⟩
  | double =>
    cases h
    refine ⟨.d, rfl, rfl, ?_⟩
    intro E big b hb
    simp only [scalarKind, mapValue, unpackOne, stored_orderOf, Atom.value]

theorem scalar_map (E : Env) (big : Bool) (n : String) (k : Atom) (s : Nat) (h : k.Size s) :
    ∃ m, createAs E n (orderOf big) (tyDefn (.scalar n big k s)) = .ok m ∧
      m = .prim { name := n, order := orderOf big } (scalarKind k) (.bytes s) "bytes" ∧
      TyReads E (.scalar n big k s) m := by
  refine ⟨_, ?_, rfl, ?_⟩
  · rw [tyDefn, createAs]
    cases k <;> simp [scalarKind]
  · intro bs off depth ns hd
    obtain ⟨c, hc, rfl, hv⟩ := scalar_code h
    have hpos : 0 < c.size := by cases c <;> simp [Code.size]
    simp only [parse, primParse, fixedByteSize, beq_self_eq_true, if_true, Ty.read, Ty.size,
      tooSmall_rest _ _ _ hpos, grab_eq, primRead, hc]
    by_cases hl : c.size ≤ (bs.drop off).length
    · simp only [hl, decide_true, Bool.not_true, Bool.false_eq_true, if_false, if_true]
      rw [if_neg (by omega), hv E big _ (by simp at hl ⊢; omega)]
      simp
    · simp only [hl, decide_false, Bool.not_false, if_true, if_false]

/-! ### Sequences -/

theorem seqParse_times {e : Ty} (step : Nat → PRes) (bs : Bytes)
    (hpos : 0 < e.size)
    (hstep : ∀ off, step off = match e.read (bs.drop off) with
      | some (v, _) => .ok (v, e.size)
      | none => .error .tooSmall)
    (N k : Nat) (fuel off used index : Nat) (last : Val) (hi : index + k = N) (hf : k < fuel) :
    seqParse step bs.length (some (N : Int)) none none fuel off used index last =
      match times e.read k (bs.drop off) with
      | some (vs, _) => .ok (vs, used + e.size * k)
      | none => .error .tooSmall := by
  induction k generalizing fuel off used index last with
  | zero =>
    cases fuel with
    | zero => omega
    | succ fuel =>
      have : atNumber (some (N : Int)) index = true := by simp [atNumber]; omega
      rw [seqParse, this]
      simp [seqEnd, this, times]
  | succ k ih =>
    cases fuel with
    | zero => omega
    | succ fuel =>
      have h1 : atNumber (some (N : Int)) index = false := by simp [atNumber]; omega
      have ht := ty_takes e (bs.drop off)
      rw [seqParse]
      simp only [h1, atDataSize, Bool.or_false, decide_eq_true_eq, atTerm, Bool.false_eq_true, if_false]
      by_cases hl : bs.length ≤ off
      · rw [if_pos hl, seqEnd]
        rw [if_neg (by simp; omega)] at ht
        simp [h1, times, ht]
      · rw [if_neg hl, hstep off]
        unfold times
        by_cases hl' : e.size ≤ (bs.drop off).length
        · rw [if_pos hl'] at ht
          obtain ⟨v, hv⟩ := ht
          simp only [hv]
          rw [ih fuel (off + e.size) (used + e.size) (index + 1) v (by omega) (by omega), List.drop_drop]
          rcases times e.read k (bs.drop (off + e.size)) with _ | ⟨vs, r⟩
          · rfl
          · simp only [Nat.mul_succ]
            rw [show used + e.size + e.size * k = used + (e.size * k + e.size) by omega]
        · rw [if_neg hl'] at ht
          simp only [ht, wrapErr]

theorem composite_times {E : Env} {n : String} {e : Ty} {k : Nat} {ei : ElemInfo} (step : Nat → PRes)
    (bs : Bytes) (hpos : 0 < e.size) (hk : 0 < k)
    (hstep : ∀ off, step off = match e.read (bs.drop off) with
      | some (v, _) => .ok (v, e.size)
      | none => .error .tooSmall) (off depth : Nat) (hd : depth ≤ 10) (ns : Namespace) :
    compositeSeqParse E { kind := .sequence, elementDataType := some e.name, numElements := some (k : Int) } ei
        step bs.length off depth ns =
      match (Ty.sequence n e k).read (bs.drop off) with
      | some (v, _) => .ok (v, e.size * k)
      | none => .error .tooSmall := by
  have hr : (seqRules E { kind := .sequence, elementDataType := some e.name, numElements := some (k : Int) }
      ei ns).1 = .ok (none, none, some (k : Int)) := by
    have h0 : k ≠ 0 := by omega
    simp [seqRules, countable, SeqInfo.hasDataSize, SeqInfo.hasNumElements, evalNumElements, truthyInt, checkSize, h0,
      show ¬ (k : Int) < 0 by omega]
  unfold compositeSeqParse
  rw [if_neg (by omega), hr]
  simp only
  rw [seqParse_times (e := e) step bs hpos hstep k k _ off 0 0 .pyNone (by omega)
    (by simp [seqFuel]; omega)]
  rw [Ty.read]
  rcases times e.read k (bs.drop off) with _ | ⟨vs, r⟩
  · rfl
  · simp

theorem composite_scalar (t : Ty) :
    (tyDefn t).isComposite = false ↔ ∃ n b k s, t = .scalar n b k s := by
  cases t <;> simp [tyDefn, Defn.isComposite]

/-- What a sequence map keeps about the definition of its elements. -/
def elemOf (d : Defn) : ElemInfo := ⟨d.byteSize, d.isComposite, d.terminator?⟩

/-- The map of a sequence, string or stream of a schema. -/
def seqMapOf (n : String) (info : SeqInfo) (e : Ty) (em : DMap) : DMap :=
  .seq { name := n, order := orderOf e.big } info (elemOf (tyDefn e))
    (Defn.seq { name := n, order := orderOf e.big } info (tyDefn e)).byteSize em

theorem seq_createAs {E : Env} {n : String} {e : Ty} {info : SeqInfo} {em : DMap}
    (he : createAs E e.name (orderOf e.big) (tyDefn e) = .ok em) :
    createAs E n (orderOf e.big) (.seq { name := n, order := orderOf e.big } info (tyDefn e)) =
      finishSeq E info (seqMapOf n info e em) (elemOf (tyDefn e)) := by
  rw [createAs]
  simp only [tyDefn_order]
  have : decide (orderOf e.big = Order.native) = false := by simp [orderOf_ne]
  simp only [this, Bool.and_false, Bool.false_and, Bool.false_eq_true, if_false, tyDefn_name, he]
  rfl

/-- What the schema says of a sequence. -/
def sequenceInfo (e : Ty) (k : Nat) : SeqInfo :=
  { kind := .sequence, elementDataType := some e.name, numElements := some (k : Int) }

theorem sequence_linear (e : Ty) (k : Nat) :
    seqLinear (sequenceInfo e k) (elemOf (tyDefn e)) = !(tyDefn e).isComposite := by
  simp [seqLinear, sequenceInfo, elemOf]

theorem sequence_map {E : Env} {n : String} {e : Ty} {k : Nat} (hok : TyOk E (.sequence n e k))
    {em : DMap} (he : createAs E e.name (orderOf e.big) (tyDefn e) = .ok em) (hr : TyReads E e em) :
    ∃ m, createAs E n (orderOf e.big) (tyDefn (.sequence n e k)) = .ok m ∧
      TyReads E (.sequence n e k) m := by
  have hbs := ty_byteSize _ hok
  have hpos' := ty_pos _ hok
  have hok' := hok
  rw [TyOk] at hok
  obtain ⟨-, hk, hok⟩ := hok
  have hpos := ty_pos e hok
  have hcreate := seq_createAs (n := n) (info := sequenceInfo e k) he
  have hdef : tyDefn (.sequence n e k) =
      .seq { name := n, order := orderOf e.big } (sequenceInfo e k) (tyDefn e) := by rw [tyDefn]; rfl
  rw [hdef] at hbs ⊢
  have hstep : ∀ bs depth, depth + 1 + e.height ≤ 11 → ∀ off,
      parse E em bs off (depth + 1) [] = match e.read (bs.drop off) with
        | some (v, _) => .ok (v, e.size)
        | none => .error .tooSmall := fun bs depth hd off => hr bs off (depth + 1) [] hd
  have hlin := sequence_linear e k
  by_cases hcomp : (tyDefn e).isComposite = true
  · rw [hcomp] at hlin
    refine ⟨seqMapOf n (sequenceInfo e k) e em, ?_, ?_⟩
    · rw [hcreate]
      unfold finishSeq
      rw [hlin]
      rfl
    · intro bs off depth ns hd
      rw [Ty.height] at hd
      rw [seqMapOf, parse]
      simp only [sequenceInfo] at hlin
      simp only [sequenceInfo, hlin, Bool.false_eq_true, if_false, Ty.size, Bool.not_true]
      exact composite_times _ bs hpos hk (hstep bs depth (by omega)) off depth (by omega) ns
  · have hcomp : (tyDefn e).isComposite = false := by simpa using hcomp
    rw [hcomp] at hlin
    obtain ⟨en, big, ek, es, rfl⟩ := (composite_scalar e).mp hcomp
    rw [TyOk] at hok
    obtain ⟨c, hc, hcs, -⟩ := scalar_code hok.2
    obtain ⟨em', hem', rfl, -⟩ := scalar_map E big en ek es hok.2
    simp only [Ty.big] at he hbs hcreate ⊢
    rw [Ty.name, hem'] at he
    cases he
    have hk0 : k ≠ 0 := by omega
    have hop : ∃ op, (seqMapOf n (sequenceInfo (.scalar en big ek es) k) (.scalar en big ek es)
        (.prim { name := en, order := orderOf big } (scalarKind ek) (.bytes es) "bytes")).operation = .ok op := by
      have hf : (seqMapOf n (sequenceInfo (.scalar en big ek es) k) (.scalar en big ek es)
          (.prim { name := en, order := orderOf big } (scalarKind ek) (.bytes es) "bytes")).fmt =
          .ok (some (decStr k ++ [c.char])) := by
        simp only [seqMapOf, sequenceInfo, DMap.fmt, truthyInt, Bool.false_eq_true, if_false, hc, Option.map_some,
          seqFmt]
        rw [if_neg (by simp [hk0])]
      unfold DMap.operation
      rw [hf]
      simp only [seqMapOf, DMap.orderStr]
      cases hd : decStr (k : Int) ++ [c.char] with
      | nil => exact ⟨_, rfl⟩
      | cons x xs =>
        simp only
        rw [← hd]
        unfold mkOp
        rw [show decStr (k : Int) ++ [c.char] = decStr (k : Int) ++ c.char :: [] from rfl, parseCodes_count,
          if_pos (by omega)]
        exact ⟨_, rfl⟩
    have hm : createAs E n (orderOf big) (.seq { name := n, order := orderOf big }
        (sequenceInfo (.scalar en big ek es) k) (tyDefn (.scalar en big ek es))) =
        .ok (seqMapOf n (sequenceInfo (.scalar en big ek es) k) (.scalar en big ek es)
          (.prim { name := en, order := orderOf big } (scalarKind ek) (.bytes es) "bytes")) := by
      rw [hcreate]
      unfold finishSeq
      rw [hlin]
      obtain ⟨op, hop⟩ := hop
      rw [hop]
      rfl
    refine ⟨_, hm, ?_⟩
    intro bs off depth ns hd
    rw [Ty.height] at hd
    have hcomposite := composite_times (E := E) (n := n)
      (ei := elemOf (tyDefn (.scalar en big ek es))) _ bs hpos hk
      (hstep bs depth (by omega)) off depth (by omega) ns
    have hti := ty_takes (.sequence n (.scalar en big ek es) k) (bs.drop off)
    by_cases hl : (Ty.sequence n (.scalar en big ek es) k).size ≤ (bs.drop off).length
    · rw [if_pos hl] at hti
      obtain ⟨v, hv⟩ := hti
      rw [hv] at hcomposite ⊢
      obtain ⟨hd', bsz, em, hmm, -, hiff⟩ := linear_seq_iff rfl hm (by simp [tyDefn]) hlin (by simp [sequenceInfo])
        (.inl rfl) bs off depth (by omega) ns v ((Ty.scalar en big ek es).size * k)
      simp only [seqMapOf, DMap.seq.injEq, true_and] at hmm
      obtain ⟨-, -, -, rfl⟩ := hmm
      rw [show (Ty.sequence n (.scalar en big ek es) k).size = (Ty.scalar en big ek es).size * k by simp only [Ty.size]]
      exact hiff.mpr hcomposite
    · rw [if_neg hl] at hti
      rw [hti, seqMapOf, parse]
      simp only [Ty.big]
      rw [hbs]
      simp only [sequenceInfo] at hlin
      simp only [sequenceInfo, hlin, if_true, Bool.not_false, linearSeqParse]
      rw [tooSmall_rest _ _ _ hpos']
      simp only [hl, decide_false, Bool.not_false, if_true]

/-! ### Identifiers and blocks of bytes -/

theorem uuid_map (E : Env) (big : Bool) (n : String) :
    ∃ m, createAs E n (orderOf big) (tyDefn (.uuid n big)) = .ok m ∧ TyReads E (.uuid n big) m := by
  refine ⟨_, by rw [tyDefn, createAs], ?_⟩
  intro bs off depth ns _
  simp only [parse, uuidParse, fixedByteSize, beq_self_eq_true, if_true, Ty.read, Ty.size,
    tooSmall_rest _ _ _ (show 0 < 16 by omega), grab_eq]
  by_cases hl : 16 ≤ (bs.drop off).length
  · have h16 : (slice bs off (off + 16)).length = 16 := by
      rw [List.length_drop] at hl
      rw [slice, List.length_take, List.length_drop]
      omega
    have hs : slice bs off (off + 16) = (bs.drop off).take 16 := by rw [slice]; congr 1; omega
    simp only [hl, decide_true, Bool.not_true, Bool.false_eq_true, if_false, if_true, h16]
    cases big <;> simp only [orderOf, if_true, Bool.false_eq_true, if_false, hs, uuidValue] <;> rfl
  · simp only [hl, decide_false, Bool.not_false, if_true, if_false]

theorem stream_map {E : Env} {n : String} {e : Ty} {s : Nat} (hok : TyOk E (.stream n e s))
    {em : DMap} (he : createAs E e.name (orderOf e.big) (tyDefn e) = .ok em) :
    ∃ m, createAs E n (orderOf e.big) (tyDefn (.stream n e s)) = .ok m ∧ TyReads E (.stream n e s) m := by
  rw [TyOk] at hok
  obtain ⟨-, hs, hsc, -⟩ := hok
  have hcomp := (composite_scalar e).mpr hsc
  rw [tyDefn]
  refine ⟨seqMapOf n { kind := .stream, elementDataType := some e.name, dataSize := some (s : Int) } e em, ?_, ?_⟩
  · rw [seq_createAs he]
    unfold finishSeq
    simp only [exprOk, elemOf, hcomp, Bool.not_true, Bool.or_self, Bool.false_eq_true, if_false]
  · intro bs off depth ns _
    have h0 : s ≠ 0 := by omega
    have hz : streamSize E { kind := .stream, elementDataType := some e.name, dataSize := some (s : Int) }
        (elemOf (tyDefn e)) ns = .ok (some (s : Int)) := by
      simp [streamSize, SeqInfo.hasDataSize, evalDataSize, truthyInt, checkSize, h0, show ¬ (s : Int) < 0 by omega]
    simp only [seqMapOf, parse, streamParse, hz, Ty.read, Ty.size, tooSmall_rest _ _ _ hs, grab_eq]
    by_cases hl : s ≤ (bs.drop off).length
    · have hs : slice bs off (off + s) = (bs.drop off).take s := by rw [slice]; congr 1; omega
      simp only [hl, decide_true, Bool.not_true, Bool.false_eq_true, if_false, if_true, Int.toNat_natCast, hs]
    · simp only [hl, decide_false, Bool.not_false, if_true, if_false]

/-! ### Records -/

theorem set_middle (pre : List (String × Val)) (n : String) (v w : Val) (post : List (String × Val))
    (h : n ∉ pre.map (·.1)) (h' : n ∉ post.map (·.1)) :
    setAttr (pre ++ (n, v) :: post) n w = pre ++ (n, w) :: post := by
  unfold setAttr
  induction pre with
  | nil => exact nsSet_head v w post h'
  | cons p pre ih =>
    obtain ⟨k, x⟩ := p
    simp only [List.map_cons, List.mem_cons, not_or] at h
    rw [List.cons_append, nsSet_cons_ne _ _ _ (fun e => h.1 e.symm), ih h.2, List.cons_append]

theorem field_order (sname : String) (big : Bool) (t : Ty) :
    memberNameOrder sname (orderOf big) (tyDefn t) = .ok (t.name, orderOf t.big) := by
  unfold memberNameOrder
  rw [if_neg (orderOf_ne big), tyDefn_order, tyDefn_name]
  cases t.big <;> rfl

theorem fields_create {E : Env} {big : Bool} {sname : String} (fs : Fields) (cache : List (String × DMap))
    (h : ∀ t ∈ fs.types, ∃ m, createAs E t.name (orderOf t.big) (tyDefn t) = .ok m) :
    ∃ maps, createMembers E sname (orderOf big) cache (fieldDefns fs) =
      .ok ((fieldDefns fs).map Defn.memInfo, maps) := by
  match fs with
  | .nil => exact ⟨[], by rw [fieldDefns]; rfl⟩
  | .cons n t fs =>
    rw [Fields.types] at h
    obtain ⟨m, hm⟩ := h t (List.mem_cons_self ..)
    have ih := fun cache => fields_create (big := big) (sname := sname) fs cache fun u hu => h u (List.mem_cons_of_mem _ hu)
    rw [fieldDefns, createMembers_cons]
    simp only [Defn.target, field_order, hm]
    generalize cache.find? (·.1 == t.name) = q
    rcases q with _ | p
    · obtain ⟨maps, hmaps⟩ := ih ((t.name, m) :: cache)
      exact ⟨m :: maps, by simp only [hmaps, List.map_cons]⟩
    · obtain ⟨maps, hmaps⟩ := ih ((t.name, p.2) :: cache)
      exact ⟨p.2 :: maps, by simp only [hmaps, List.map_cons]⟩

theorem fields_parse {E : Env} {big : Bool} {sname cls : String} {bs : Bytes} {depth : Nat} {outer : Namespace}
    (fs : Fields) (maps : List DMap) (hmo : All2 (MapOf E sname (orderOf big)) (fieldDefns fs) maps)
    (hr : ∀ t ∈ fs.types, ∀ m, createAs E t.name (orderOf t.big) (tyDefn t) = .ok m → TyReads E t m)
    (hd : depth + 1 + fs.height ≤ 11) (pre : List (String × Val)) (hn : (pre.map (·.1) ++ fs.names).Nodup)
    (off used : Nat) :
    parseMembers E cls bs depth outer ((fieldDefns fs).map Defn.memInfo) maps off used
        (pre ++ newInstance fs.names) =
      match fs.read (bs.drop off) with
      | some (attrs, _) => .ok (pre ++ attrs, used + fs.size)
      | none => .error .tooSmall := by
  match fs with
  | .nil =>
    rw [fieldDefns] at hmo ⊢
    cases hmo
    simp [parseMembers, Fields.read, Fields.names, newInstance, Fields.size]
  | .cons n t fs =>
    rw [fieldDefns] at hmo ⊢
    rw [Fields.height] at hd
    rw [Fields.names] at hn
    cases hmo with
    | @cons a m as ms hm hms =>
    obtain ⟨n', o', hno, hcr⟩ := hm
    simp only [Defn.target, field_order, Except.ok.injEq, Prod.mk.injEq] at hno
    obtain ⟨rfl, rfl⟩ := hno
    have hm := hr t (by rw [Fields.types]; exact List.mem_cons_self ..) m hcr
    simp only [List.map_cons]
    rw [parseMembers]
    simp only [Defn.memInfo, evalCondition, truthyStr, Bool.false_eq_true, if_false, valueOk]
    rw [hm _ _ _ _ (by omega), Fields.read]
    have ht := ty_takes t (bs.drop off)
    by_cases hl : t.size ≤ (bs.drop off).length
    · rw [if_pos hl] at ht
      obtain ⟨v, hv⟩ := ht
      rw [hv]
      simp only [Bool.not_true, Bool.false_eq_true, if_false]
      rw [List.nodup_append] at hn
      have hns : (newInstance fs.names).map (·.1) = fs.names := by simp [newInstance, Function.comp_def]
      have hset : setAttr (pre ++ newInstance (Fields.cons n t fs).names) n v =
          (pre ++ [(n, v)]) ++ newInstance fs.names := by
        rw [Fields.names, show newInstance (n :: fs.names) = (n, .pyNone) :: newInstance fs.names from rfl,
          set_middle]
        · simp
        · intro hmem
          exact hn.2.2 n hmem n (List.mem_cons_self ..) rfl
        · rw [hns]
          exact (List.nodup_cons.mp hn.2.1).1
      rw [hset, fields_parse fs ms hms (fun u hu => hr u (by rw [Fields.types]; exact List.mem_cons_of_mem _ hu))
        (by omega) (pre ++ [(n, v)]) (by
          rw [List.map_append, List.append_assoc]
          exact List.nodup_append.mpr ⟨hn.1, hn.2.1, hn.2.2⟩) (off + t.size) (used + t.size), List.drop_drop]
      rcases fs.read (bs.drop (off + t.size)) with _ | ⟨attrs, r⟩
      · rfl
      · simp only [Fields.size, List.append_assoc, List.singleton_append, Nat.add_assoc]
    · rw [if_neg hl] at ht
      rw [ht]
      rfl

theorem fieldDefns_mem {d : Defn} : ∀ {fs : Fields}, d ∈ fieldDefns fs →
    ∃ n t, d = .member { name := n, order := orderOf t.big } (tyDefn t) none (some t.name) none ∧
      t ∈ fs.types ∧ n ∈ fs.names
  | .nil, h => by rw [fieldDefns] at h; cases h
  | .cons n t fs, h => by
    rw [fieldDefns, List.mem_cons] at h
    rw [Fields.types, Fields.names]
    rcases h with rfl | h
    · exact ⟨n, t, rfl, List.mem_cons_self .., List.mem_cons_self ..⟩
    · obtain ⟨n', t', he, ht, hn⟩ := fieldDefns_mem h
      exact ⟨n', t', he, List.mem_cons_of_mem _ ht, List.mem_cons_of_mem _ hn⟩

theorem fields_linear (big : Bool) : ∀ fs : Fields, ∃ b, checkLinear (orderOf big) (fieldDefns fs) = .ok b
  | .nil => ⟨true, by rw [fieldDefns]; rfl⟩
  | .cons n t fs => by
    rw [fieldDefns, checkLinear.eq_def]
    simp only [Bool.or_false]
    split
    · exact ⟨_, rfl⟩
    · rw [show (Defn.member { name := n, order := orderOf t.big } (tyDefn t) none (some t.name) none).order? =
        some (orderOf t.big) by simp [Defn.order?, tyDefn_order]]
      simp only
      split
      · exact ⟨_, rfl⟩
      · exact fields_linear t.big fs

theorem fields_smooth {big : Bool} : ∀ {fs : Fields}, Smooth (orderOf big) (fieldDefns fs) →
    ∀ t ∈ fs.types, t.big = big
  | .nil, _, t, ht => by rw [Fields.types] at ht; cases ht
  | .cons n u fs, h, t, ht => by
    rw [fieldDefns] at h
    have hu : u.big = big := by
      rcases h [] (orderOf big) (orderOf u.big) _ (by simp [Defn.target, tyDefn_order]; rfl) with h | h | h
      · exact absurd h (orderOf_ne _)
      · exact absurd h (orderOf_ne _)
      · exact (orderOf_inj h).symm
    rw [Fields.types, List.mem_cons] at ht
    rcases ht with rfl | ht
    · exact hu
    · rw [← hu]
      refine fields_smooth (fun pre a b post he => ?_) t ht
      exact h (orderOf big :: pre) a b post (by
        rw [List.cons_append, ← he]
        simp [Defn.target, tyDefn_order])

theorem fields_prims {E : Env} {big : Bool} {sname : String} : ∀ (fs : Fields) (maps : List DMap), FieldsOk E fs →
    All2 (MapOf E sname (orderOf big)) (fieldDefns fs) maps →
    (∀ t ∈ fs.types, (tyDefn t).isComposite = false) → ∃ cs, All2 IsPrim maps cs
  | .nil, maps, _, hmo, _ => by
    rw [fieldDefns] at hmo
    cases hmo
    exact ⟨[], .nil⟩
  | .cons n t fs, maps, hok, hmo, hc => by
    rw [fieldDefns] at hmo
    rw [FieldsOk] at hok
    rw [Fields.types] at hc
    cases hmo with
    | @cons a m as ms hm hms =>
    obtain ⟨cs, hcs⟩ := fields_prims fs ms hok.2 hms fun u hu => hc u (List.mem_cons_of_mem _ hu)
    obtain ⟨n', o', hno, hcr⟩ := hm
    simp only [Defn.target, field_order, Except.ok.injEq, Prod.mk.injEq] at hno
    obtain ⟨rfl, rfl⟩ := hno
    obtain ⟨en, eb, ek, es, rfl⟩ := (composite_scalar t).mp (hc t (List.mem_cons_self ..))
    rw [TyOk] at hok
    obtain ⟨m', hm', rfl, -⟩ := scalar_map E eb en ek es hok.1.2
    obtain ⟨c, hcode, -⟩ := scalar_code hok.1.2
    simp only [Defn.target, Ty.name, Ty.big] at hcr
    rw [hm'] at hcr
    cases hcr
    exact ⟨c :: cs, .cons ⟨_, _, _, _, rfl, hcode⟩ hcs⟩

theorem fieldsOk_names {E : Env} : ∀ {fs : Fields}, FieldsOk E fs → ∀ {t : Ty}, t ∈ fs.types →
    t.name.toList.head? ≠ some '_'
  | .nil, _, t, ht => by rw [Fields.types] at ht; cases ht
  | .cons _ u fs, h, t, ht => by
    rw [FieldsOk] at h
    rw [Fields.types, List.mem_cons] at ht
    rcases ht with rfl | ht
    · exact tyOk_name h.1
    · exact fieldsOk_names h.2 ht

theorem types_member {t : Ty} : ∀ {fs : Fields}, t ∈ fs.types → ∃ n,
    .member { name := n, order := orderOf t.big } (tyDefn t) none (some t.name) none ∈ fieldDefns fs
  | .nil, ht => by rw [Fields.types] at ht; cases ht
  | .cons n u fs, ht => by
    rw [Fields.types, List.mem_cons] at ht
    rw [fieldDefns]
    rcases ht with rfl | ht
    · exact ⟨n, List.mem_cons_self ..⟩
    · exact (types_member ht).imp fun _ h => List.mem_cons_of_mem _ h

theorem operation_of_prims {hd : Hdr} {bsz : Option Int} {l io : Bool} {infos : List MemInfo}
    {maps : List DMap} {cs : List Code} (h : All2 IsPrim maps cs) :
    ∃ op, (DMap.struct hd bsz l io infos maps).operation = .ok op := by
  unfold DMap.operation
  simp only [DMap.orderStr, DMap.fmt, fmts_of_prims h]
  cases cs with
  | nil => exact ⟨_, rfl⟩
  | cons c cs =>
    have := parseCodes_chars (c :: cs)
    simp only [List.map_cons] at this ⊢
    simp [mkOp, this]

theorem unquoted_plain {n : String} (h : Unquoted n) : plainText n.toList = true := by
  unfold plainText
  rw [List.all_eq_true]
  intro c hc
  obtain ⟨h1, h2, h3⟩ := h c hc
  simp [h1, h2, h3]

theorem member_type {E : Env} (n : String) {t : Ty} (h : TyOk E t) :
    ∃ x, memberTypeText (.member { name := n, order := orderOf t.big } (tyDefn t) none (some t.name) none) =
      some x ∧ plainText x = true := by
  have hn := unquoted_plain (tyOk_nameable h).2
  cases t with
  | scalar _ _ k _ => exact ⟨_, rfl, native_plain _⟩
  | uuid => exact ⟨_, rfl, rfl⟩
  | stream => exact ⟨_, rfl, rfl⟩
  | sequence n e k =>
    rw [TyOk] at h
    have he := unquoted_plain (tyOk_nameable h.2.2).2
    refine ⟨_, rfl, ?_⟩
    unfold plainText at he ⊢
    rw [List.all_append, List.all_append, he]
    rfl
  | record => exact ⟨_, rfl, hn⟩

theorem fieldsOk_mem {E : Env} : ∀ {fs : Fields}, FieldsOk E fs → ∀ {t : Ty}, t ∈ fs.types → TyOk E t
  | .nil, _, t, ht => by rw [Fields.types] at ht; cases ht
  | .cons _ u fs, h, t, ht => by
    rw [FieldsOk] at h
    rw [Fields.types, List.mem_cons] at ht
    rcases ht with rfl | ht
    · exact h.1
    · exact fieldsOk_mem h.2 ht

theorem mapM_isSome {α β : Type} {f : α → Option β} {xs : List α} (h : ∀ x ∈ xs, ∃ y, f x = some y) :
    ∃ ys, xs.mapM f = some ys := by
  induction xs with
  | nil => exact ⟨[], rfl⟩
  | cons x xs ih =>
    obtain ⟨y, hy⟩ := h x (List.mem_cons_self ..)
    obtain ⟨ys, hys⟩ := ih fun x hx => h x (List.mem_cons_of_mem _ hx)
    exact ⟨y :: ys, by rw [List.mapM_cons, hy, hys]; rfl⟩

theorem record_class {E : Env} {big : Bool} {n : String} {fs : Fields} (hok : TyOk E (.record n big fs)) :
    createClass E n none (fieldDefns fs) = .ok true := by
  rw [TyOk] at hok
  obtain ⟨hq, hv, hs, hn, -, hf⟩ := hok
  have htype : ∀ d ∈ fieldDefns fs, ∃ x, memberTypeText d = some x ∧ plainText x = true ∧
      d.hdr.description = none := by
    intro d hd
    obtain ⟨n', t, rfl, ht, -⟩ := fieldDefns_mem hd
    obtain ⟨x, hx, hp⟩ := member_type n' (fieldsOk_mem hf ht)
    exact ⟨x, hx, hp, rfl⟩
  obtain ⟨doc, hdoc⟩ : ∃ doc, classDoc n none (fieldDefns fs) = some doc := by
    obtain ⟨ls, hls⟩ := mapM_isSome (f := fun d => (memberTypeText d).map (attributeLine d))
      (xs := fieldDefns fs) fun d hd => by
        obtain ⟨x, hx, -⟩ := htype d hd
        exact ⟨_, by rw [hx]; rfl⟩
    exact ⟨_, by unfold classDoc; rw [hls]; rfl⟩
  have hplain : plainTexts n none (fieldDefns fs) = true := by
    unfold plainTexts
    simp only [Bool.and_eq_true, List.all_eq_true]
    refine ⟨⟨unquoted_plain hq.2, rfl⟩, fun d hd => ?_⟩
    obtain ⟨x, hx, hp, hds⟩ := htype d hd
    refine ⟨⟨unquoted_plain (hs d.name (List.mem_cons_of_mem _ ?_)).2.2, ?_⟩, ?_⟩
    · rw [← fieldDefns_names]; exact List.mem_map_of_mem hd
    · rw [hx]; exact hp
    · rw [hds]; rfl
  unfold createClass
  simp only [fieldDefns_names]
  rw [validateClass_iff.mpr hv]
  simp only [hdoc, hplain, if_true]
  rw [if_neg]
  · congr 1
    simp only [Bool.not_eq_true', Bool.or_eq_false_iff, List.contains_eq_mem, decide_eq_false_iff_not,
      beq_eq_false_iff_ne]
    refine ⟨⟨fun h => (hs _ (List.mem_cons_of_mem _ h)).1 rfl, fun h => (hn _ h).1 rfl⟩,
      (hs n (List.mem_cons_self ..)).1⟩
  · simp only [Bool.or_eq_true, List.contains_eq_mem, decide_eq_true_eq, Bool.not_eq_true', not_or,
      Bool.not_eq_false, List.all_eq_true]
    exact ⟨fun h => (hn _ h).2 rfl, fun x hx => (hs x hx).2.1⟩

theorem record_map {E : Env} {big : Bool} {n : String} {fs : Fields} (hok : TyOk E (.record n big fs))
    (hr : ∀ t ∈ fs.types, ∃ m, createAs E t.name (orderOf t.big) (tyDefn t) = .ok m ∧ TyReads E t m) :
    ∃ m, createAs E n (orderOf big) (tyDefn (.record n big fs)) = .ok m ∧ TyReads E (.record n big fs) m := by
  have hbs := ty_byteSize _ hok
  have hpos := ty_pos _ hok
  have hcls := record_class hok
  rw [tyDefn] at hbs ⊢
  rw [TyOk] at hok
  obtain ⟨-, hv, -, -, hdist, hfs⟩ := hok
  obtain ⟨maps, hmaps⟩ := fields_create (sname := n) fs [] fun t ht => (hr t ht).imp fun m h => h.1
  obtain ⟨linear, hlin⟩ := fields_linear big fs
  have hdt : DistinctTypes (fieldDefns fs) := by
    refine ⟨?_, ?_⟩
    · intro x hx y hy he
      obtain ⟨_, t, rfl, ht, -⟩ := fieldDefns_mem hx
      obtain ⟨_, u, rfl, hu, -⟩ := fieldDefns_mem hy
      simp only [Defn.target, tyDefn_name] at he ⊢
      rw [hdist t ht u hu he]
    · intro x hx
      obtain ⟨_, t, rfl, ht, -⟩ := fieldDefns_mem hx
      simp only [Defn.target, tyDefn_name]
      exact fieldsOk_names hfs ht
  have hmo := createMembers_mapOf E n (orderOf big) _ hdt _ (fun d hd => hd) [] (by simp) _ _ hmaps
  have hread : ∀ t ∈ fs.types, ∀ m, createAs E t.name (orderOf t.big) (tyDefn t) = .ok m → TyReads E t m := by
    intro t ht m hm
    obtain ⟨m', hm', h⟩ := hr t ht
    rw [hm'] at hm
    cases hm
    exact h
  have hm : createAs E n (orderOf big) (.struct { name := n, order := orderOf big } (fieldDefns fs)) =
      .ok (.struct { name := n, order := orderOf big } (some ((Ty.record n big fs).size : Int)) linear true
        ((fieldDefns fs).map Defn.memInfo) maps) := by
    rw [createAs, hcls]
    simp only [hmaps, hlin, hbs, finishStruct]
    cases linear with
    | false => rfl
    | true =>
      simp only [if_true]
      obtain ⟨cs, hcs⟩ := fields_prims fs maps hfs hmo fun t ht => by
        obtain ⟨k, hk⟩ := types_member ht
        exact (checkLinear_true hlin _ hk).2.1
      have hop := operation_of_prims (hd := { name := n, order := orderOf big })
        (bsz := some ((Ty.record n big fs).size : Int)) (l := true) (io := true)
        (infos := (fieldDefns fs).map Defn.memInfo) hcs
      obtain ⟨op, hop⟩ := hop
      rw [hop]
  refine ⟨_, hm, ?_⟩
  intro bs off depth ns hd
  rw [Ty.height] at hd
  have hpm : ∀ maps, All2 (MapOf E n (orderOf big)) (fieldDefns fs) maps →
      parseMembers E n bs depth ns ((fieldDefns fs).map Defn.memInfo) maps off 0 (newInstance fs.names) =
        match fs.read (bs.drop off) with
        | some (attrs, _) => .ok (attrs, fs.size)
        | none => .error .tooSmall := by
    intro maps hmo
    have := fields_parse (cls := n) (bs := bs) (outer := ns) fs maps hmo hread (depth := depth) (by omega) []
      (by simpa using hv.distinct) off 0
    simpa using this
  have ht := fields_takes fs (bs.drop off)
  rw [Ty.read, Ty.size]
  by_cases hl : fs.size ≤ (bs.drop off).length
  · rw [if_pos hl] at ht
    obtain ⟨attrs, ha⟩ := ht
    obtain ⟨maps', io, hmo', hio, hiff⟩ := struct_parse_iff hdt (by
      intro _ hsm
      refine ⟨?_, ?_⟩
      · intro d hd o ho _
        obtain ⟨_, t, rfl, ht, -⟩ := fieldDefns_mem hd
        simp only [Defn.target, tyDefn_order, Option.some.injEq] at ho
        rw [← ho, fields_smooth hsm t ht]
      · intro d hd
        obtain ⟨_, t, rfl, -, -⟩ := fieldDefns_mem hd
        intro h a
        cases t <;> simp [Defn.target, tyDefn]) hm
    rw [hcls] at hio
    cases hio
    have h := hpm maps' hmo'
    rw [ha] at h ⊢
    simp only at h ⊢
    rw [← Ty.size.eq_5 n big fs]
    refine (hiff bs off depth ns _ _).2 rfl (by omega) attrs ?_ rfl
    rw [fieldDefns_names, h, Ty.size]
  · rw [if_neg hl] at ht
    have h := hpm maps hmo
    rw [ht] at h ⊢
    simp only at h ⊢
    rw [parse]
    cases linear with
    | true =>
      simp only [if_true, linearStructParse]
      rw [Ty.size] at hpos
      rw [tooSmall_rest _ _ _ hpos, if_pos (by simp only [hl, decide_false, Bool.not_false])]
    | false =>
      have hne : ((fieldDefns fs).map Defn.memInfo).length ≠ 0 := by
        intro he
        rw [List.length_map] at he
        have h0 := List.length_eq_zero_iff.mp he
        have := fieldDefns_names fs
        rw [h0] at this
        exact hv.nonempty this.symm
      simp only [Bool.false_eq_true, if_false, Bool.not_true]
      rw [if_neg (by omega), if_neg hne,
        show ((fieldDefns fs).map Defn.memInfo).map (·.name) = fs.names from ?_, h]
      rw [List.map_map, ← fieldDefns_names fs]
      refine List.map_congr_left fun d hd => ?_
      obtain ⟨_, t, rfl, -, -⟩ := fieldDefns_mem hd
      rfl

mutual
/-- The map of a type exists and reads what the type means. -/
theorem ty_map {E : Env} (t : Ty) (hok : TyOk E t) :
    ∃ m, createAs E t.name (orderOf t.big) (tyDefn t) = .ok m ∧ TyReads E t m := by
  cases t with
  | scalar n big k s =>
    rw [TyOk] at hok
    obtain ⟨m, hm, -, hr⟩ := scalar_map E big n k s hok.2
    exact ⟨m, hm, hr⟩
  | uuid n big => exact uuid_map E big n
  | stream n e s =>
    have hok' := hok
    rw [TyOk] at hok'
    obtain ⟨em, hem, -⟩ := ty_map e hok'.2.2.2
    exact stream_map hok hem
  | sequence n e k =>
    have hok' := hok
    rw [TyOk] at hok'
    obtain ⟨em, hem, hr⟩ := ty_map e hok'.2.2
    exact sequence_map hok hem hr
  | record n big fs =>
    have hok' := hok
    rw [TyOk] at hok'
    exact record_map hok (fields_map fs hok'.2.2.2.2.2)
termination_by structural t
theorem fields_map {E : Env} (fs : Fields) (hok : FieldsOk E fs) :
    ∀ t ∈ fs.types, ∃ m, createAs E t.name (orderOf t.big) (tyDefn t) = .ok m ∧ TyReads E t m := by
  cases fs with
  | nil => intro t ht; rw [Fields.types] at ht; cases ht
  | cons n t fs =>
    rw [FieldsOk] at hok
    intro u hu
    rw [Fields.types, List.mem_cons] at hu
    rcases hu with he | hu
    · rw [he]
      exact ty_map t hok.1
    · exact fields_map fs hok.2 u hu
termination_by structural fs
end

end Dtf
