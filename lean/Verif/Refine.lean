import Verif.Parse
/-!
MapByteStream called with a context without unfinished state computes `parse`.
-/
namespace Dtf

/-- A context without unfinished state. -/
def Ctx.Clean (c : Ctx) : Prop := c.clear = c

theorem Ctx.clean_iff (c : Ctx) : c.Clean ↔
    c.attributeIndex = none ∧ c.sub = none ∧ c.elementIndex = none ∧ c.elementsDataOffset = none ∧
    c.elementsDataSize = none ∧ c.mappedTuple = none ∧ c.mappedStruct = none ∧
    c.numberOfElements = none ∧ c.membersDataSize = none ∧ c.memberIdentifier = none := by
  cases c; simp [Ctx.Clean, Ctx.clear]; grind

theorem Ctx.clean_clear (c : Ctx) : c.clear.Clean := rfl

theorem Ctx.clean_fresh (ns : Namespace) : ({ values := ns } : Ctx).Clean := rfl

def DMap.isSeq : DMap → Bool
  | .seq _ _ _ _ _ => true
  | _ => false

/-- How a call with a context `c` without state relates to the parser. -/
def Refines (m : DMap) (c : Ctx) (r : Res) (p : PRes) : Prop :=
  match p with
  | .error e => r.1 = .error e
  | .ok (v, n) => r.1 = .ok v ∧ r.2.byteSize = some n ∧ r.2.Clean ∧
      (r.2.values = c.values ∨ (m.isSeq = true ∧ r.2.values = withBuiltins c.values))

theorem nsSet_idem (ns : Namespace) (k : String) (v : Val) :
    nsSet (nsSet ns k v) k v = nsSet ns k v := by
  unfold nsSet
  split
  · rename_i h
    rw [if_pos]
    · rw [List.map_map]; apply List.map_congr_left; intro p _; simp; split <;> simp_all
    · simp only [List.any_eq_true] at h ⊢
      obtain ⟨p, hp, hk⟩ := h
      exact ⟨(k, v), by simp; exact ⟨p.1, p.2, hp, by simp_all⟩, by simp⟩
  · rename_i h
    rw [if_pos (by simp)]
    simp only [List.any_eq_true, not_exists, not_and] at h
    rw [List.map_append]
    congr 1
    · conv => rhs; rw [← List.map_id ns]
      apply List.map_congr_left
      intro p hp
      simp [h p hp]
    · simp

theorem withBuiltins_idem (ns : Namespace) : withBuiltins (withBuiltins ns) = withBuiltins ns :=
  nsSet_idem _ _ _

theorem checkSize_nonneg {k : SeqKind} {v : Option Val} {n : Int} (h : checkSize k v = .ok n) : 0 ≤ n := by
  unfold checkSize at h
  split at h
  · split at h
    · cases h
    · cases h; omega
  · cases h; unfold boolInt; split <;> omega
  · split at h
    · split at h
      · cases h
      · split at h
        · cases h
          exact Int.ediv_nonneg (by omega) (Int.pow_nonneg (by decide))
        · cases h
    all_goals cases h
  · cases h

theorem checkSize_error {k : SeqKind} {v : Option Val} {e : Err} (h : checkSize k v = .error e) :
    e = .mapping ∨ (e = .other ∧ ∃ b, v = some (.float b)) := by
  unfold checkSize at h
  split at h
  · split at h <;> cases h
    exact .inl rfl
  · cases h
  · rename_i b
    split at h
    · split at h
      · cases h; exact .inl rfl
      · split at h
        · cases h
        · cases h; exact .inr ⟨rfl, b, rfl⟩
    · cases h; exact .inl rfl
    · cases h; exact .inr ⟨rfl, b, rfl⟩
    · cases h; exact .inr ⟨rfl, b, rfl⟩
  · cases h; exact .inl rfl

theorem evalSize_builtins (E : Env) (k : SeqKind) (x : Option String) (ns : Namespace) :
    evalSize E k x (withBuiltins ns) = evalSize E k x ns := by
  unfold evalSize; rw [withBuiltins_idem]

theorem evalDataSize_builtins (E : Env) (info : SeqInfo) (ns : Namespace) :
    evalDataSize E info (withBuiltins ns) = evalDataSize E info ns := by
  unfold evalDataSize; rw [evalSize_builtins]

theorem evalNumElements_builtins (E : Env) (info : SeqInfo) (ns : Namespace) :
    evalNumElements E info (withBuiltins ns) = evalNumElements E info ns := by
  unfold evalNumElements; rw [evalSize_builtins]

theorem streamParse_builtins (E : Env) (info : SeqInfo) (ei : ElemInfo) (bs : Bytes) (off : Nat)
    (ns : Namespace) :
    streamParse E info ei bs off (withBuiltins ns) = streamParse E info ei bs off ns := by
  unfold streamParse streamSize
  rw [evalDataSize_builtins, evalNumElements_builtins]

theorem countable_ok {r : Except Err Int} {n : Int} (h : countable r = .ok n) :
    r = .ok n ∨ (r = .error .other ∧ n = -1) := by
  rcases r with x | k
  · cases x <;> cases h
    exact .inr ⟨rfl, rfl⟩
  · cases h
    exact .inl rfl

theorem countable_error {r : Except Err Int} {x : Err} (h : countable r = .error x) : r = .error x ∧ x ≠ .other := by
  rcases r with y | k
  · cases y <;> cases h <;> exact ⟨rfl, by simp⟩
  · cases h

theorem seqRules_builtins (E : Env) (info : SeqInfo) (ei : ElemInfo) (ns : Namespace) :
    (seqRules E info ei (withBuiltins ns)).1 = (seqRules E info ei ns).1 := by
  unfold seqRules
  rw [evalDataSize_builtins, evalNumElements_builtins]
  cases info.hasDataSize
  · cases info.terminator
    · cases info.hasNumElements
      · rfl
      · cases countable (evalNumElements E info ns) <;> rfl
    · rfl
  · cases evalDataSize E info ns
    · rfl
    · cases ei.byteSize
      · rcases ei.terminator with _ | _ | _ <;> rfl
      · simp only [if_true]
        split <;> rename_i h <;> split at h <;> grind

theorem parse_builtins (E : Env) (m : DMap) (hm : m.isSeq = true) (bs : Bytes) (off depth : Nat)
    (ns : Namespace) :
    parse E m bs off depth (withBuiltins ns) = parse E m bs off depth ns := by
  cases m <;> simp [DMap.isSeq] at hm
  unfold parse
  simp only [streamParse_builtins, stringParse, compositeSeqParse, seqRules_builtins]

theorem seqRules_values (E : Env) (info : SeqInfo) (ei : ElemInfo) (ns : Namespace) :
    (seqRules E info ei ns).2 = ns ∨ (seqRules E info ei ns).2 = withBuiltins ns := by
  unfold seqRules valuesAfterNum
  grind

/-- The observable part of the outcome of the sequence loop. -/
def seqOutRes (num dataSize : Option Int) (term : Option Lit) : SeqOut → Except Err (List Val × Nat)
  | .raised e _ => .error (wrapErr e)
  | .done s =>
    if num.isSome && !atNumber num s.index then .error .tooSmall
    else if termMissing term dataSize s then .error .tooSmall
    else .ok (s.values, s.dataOffset)

theorem seqOutRes_done (num dataSize : Option Int) (term : Option Lit) (s : SeqSt) :
    seqOutRes num dataSize term (.done s) =
      (match seqEnd num dataSize term s.index s.dataOffset s.last with
        | .error e => .error e
        | .ok (vs, u) => .ok (s.values ++ vs, u)) := by
  simp only [seqOutRes, seqEnd, termMissing]
  grind

theorem seqLoop_exit (step : Nat → Ctx → Res) (len : Nat) (num dataSize : Option Int)
    (term : Option Lit) (fuel : Nat) (s : SeqSt)
    (hx : (len ≤ s.off || atNumber num s.index || atDataSize dataSize s.dataOffset) = true) :
    seqLoop step len num dataSize term (fuel + 1) s = .done s := by
  simp only [Bool.or_eq_true, decide_eq_true_eq] at hx
  rw [seqLoop]
  rcases hx with (hx | hx) | hx
  · rw [if_pos hx]
  · simp only [hx, if_true]; split <;> rfl
  · simp only [hx, if_true]; split <;> (try split) <;> rfl

theorem seqLoop_refines (step : Nat → Ctx → Res) (pstep : Nat → PRes) (P : Ctx → Prop)
    (hstep : ∀ off c, P c → match pstep off with
      | .error e => (step off c).1 = .error e
      | .ok (v, n) => (step off c).1 = .ok v ∧ (step off c).2.byteSize = some n ∧ P (step off c).2)
    (len : Nat) (num dataSize : Option Int) (term : Option Lit) (fuel : Nat) (s : SeqSt)
    (hP : P s.sub) :
    seqOutRes num dataSize term (seqLoop step len num dataSize term fuel s) =
      (match seqParse pstep len num dataSize term fuel s.off s.dataOffset s.index s.last with
        | .error e => .error e
        | .ok (vs, u) => .ok (s.values ++ vs, u)) := by
  induction fuel generalizing s with
  | zero => simp [seqLoop, seqParse, seqOutRes, wrapErr]
  | succ fuel ih =>
    by_cases hx : (len ≤ s.off || atNumber num s.index || atDataSize dataSize s.dataOffset) = true
    · rw [seqLoop_exit _ _ _ _ _ _ _ hx, seqParse, if_pos hx, seqOutRes_done]
    · rw [seqParse, if_neg hx]
      simp only [Bool.or_eq_true, not_or, decide_eq_true_eq] at hx
      rw [seqLoop, if_neg hx.1.1, if_neg hx.1.2, if_neg hx.2]
      have h := hstep s.off s.sub hP
      rcases hr : step s.off s.sub with ⟨r, sub⟩
      rcases hp : pstep s.off with e | ⟨v, n⟩ <;> rw [hp, hr] at h <;> simp only at h
      · subst h; rfl
      · obtain ⟨h1, h2, h3⟩ := h
        subst h1
        simp only [h2]
        split
        · rw [seqOutRes_done]
          simp only
          split <;> simp_all
        · rw [ih _ h3]
          simp only
          split <;> simp_all

theorem calcDataSize_clean (E : Env) (info : SeqInfo) (ei : ElemInfo) (c : Ctx) (hc : c.Clean) :
    (calcDataSize E info ei c).1 = streamSize E info ei c.values ∧
    (calcDataSize E info ei c).2.Clean ∧
    ((calcDataSize E info ei c).2.values = c.values ∨
      (calcDataSize E info ei c).2.values = withBuiltins c.values) := by
  have hc' := hc
  rw [Ctx.clean_iff] at hc'
  obtain ⟨h1, h2, h3, h4, h5, h6, h7, h8, h9, h10⟩ := hc'
  unfold calcDataSize streamSize valuesAfterNum
  simp only [h5, h8, truthyInt, Bool.false_eq_true, if_false]
  refine ⟨?_, ?_, ?_⟩
  · grind
  · split
    · split <;> exact hc
    · split
      · split
        · exact hc
        · split <;> (rw [Ctx.clean_iff]; simp [*])
      · exact hc
  · grind

/-- The common part of `Refines` for the element sequence maps. -/
def SeqRefines {α : Type} (c : Ctx) (r : Except Err α × Ctx) (p : Except Err (α × Nat)) : Prop :=
  match p with
  | .error e => r.1 = .error e
  | .ok (v, n) => r.1 = .ok v ∧ r.2.byteSize = some n ∧ r.2.Clean ∧
      (r.2.values = c.values ∨ r.2.values = withBuiltins c.values)

theorem streamMap_refines (E : Env) (info : SeqInfo) (ei : ElemInfo) (bs : Bytes) (off : Nat)
    (c : Ctx) (hc : c.Clean) :
    SeqRefines c (streamMap E info ei bs off c) (streamParse E info ei bs off c.values) := by
  obtain ⟨h1, h2, h3⟩ := calcDataSize_clean E info ei c hc
  unfold streamParse streamMap
  rcases hcd : calcDataSize E info ei c with ⟨r, c'⟩
  rw [hcd] at h1 h2 h3
  simp only at h1 h2 h3
  rw [← h1]
  rcases r with e | (_ | n)
  · rfl
  · rcases info.terminator with _ | t
    · rfl
    · rcases ei.byteSize with _ | es
      · rfl
      · simp only
        rcases scanTerm (bs.drop off) es.toNat t (bs.length - off + 2) 0 es.toNat with n | n | _ | _
        · exact ⟨rfl, rfl, rfl, h3⟩
        · rfl
        · rfl
        · rfl
  · simp only
    split
    · rfl
    · exact ⟨rfl, rfl, rfl, h3⟩

theorem stringMap_refines (E : Env) (enc : String) (info : SeqInfo) (ei : ElemInfo) (bs : Bytes)
    (off : Nat) (c : Ctx) (hc : c.Clean) :
    SeqRefines c (stringMap E enc info ei bs off c) (stringParse E enc info ei bs off c.values) := by
  have h := streamMap_refines E info ei bs off c hc
  unfold stringParse stringMap
  rcases hs : streamMap E info ei bs off c with ⟨r, c'⟩
  rcases hp : streamParse E info ei bs off c.values with e | ⟨b, n⟩ <;> rw [hs, hp] at h <;>
    simp only [SeqRefines] at h
  · subst h; rfl
  · obtain ⟨h1, h2, h3, h4⟩ := h
    subst h1
    simp only
    rcases cutString info b with e | b'
    · rfl
    · simp only
      rcases E.decode enc b' with _ | cs
      · rfl
      · exact ⟨rfl, h2, h3, h4⟩

theorem compositeSeqMap_refines (E : Env) (info : SeqInfo) (ei : ElemInfo)
    (step : Nat → Ctx → Res) (pstep : Nat → PRes) (P : Ctx → Prop) (hP : P {})
    (hstep : ∀ off c, P c → match pstep off with
      | .error e => (step off c).1 = .error e
      | .ok (v, n) => (step off c).1 = .ok v ∧ (step off c).2.byteSize = some n ∧ P (step off c).2)
    (bs : Bytes) (off depth : Nat) (c : Ctx) (hc : c.Clean) :
    SeqRefines c (compositeSeqMap E info ei step bs off depth c)
      (compositeSeqParse E info ei pstep bs.length off depth c.values) := by
  have hc' := hc
  rw [Ctx.clean_iff] at hc'
  obtain ⟨h1, h2, h3, h4, h5, h6, h7, h8, h9, h10⟩ := hc'
  unfold compositeSeqParse compositeSeqMap
  by_cases hd : depth > 10
  · simp only [hd, if_true]; rfl
  · simp only [if_neg hd]
    have hv := seqRules_values E info ei c.values
    rcases hr : seqRules E info ei c.values with ⟨r, ns⟩
    rw [hr] at hv
    rcases r with e | ⟨ds, term, num⟩
    · rfl
    · simp only at hv ⊢
      simp only [h2, h3, h4, h6, Option.getD_none]
      have hl := seqLoop_refines step pstep P hstep bs.length num ds term
        (seqFuel bs.length off num 0)
        { off := off, dataOffset := 0, index := 0, last := .pyNone, values := [], sub := {} } hP
      simp only [List.nil_append] at hl
      revert hl
      generalize seqLoop step bs.length num ds term (seqFuel bs.length off num 0)
        { off := off, dataOffset := 0, index := 0, last := .pyNone, values := [], sub := {} } = out
      generalize seqParse pstep bs.length num ds term (seqFuel bs.length off num 0) off 0 0
        Val.pyNone = pr
      intro hl
      rcases out with s | ⟨e, s⟩
      · simp only [seqOutRes] at hl
        rcases pr with e | ⟨vs, n⟩ <;> simp only at hl ⊢
        · split at hl
          · simp only [SeqRefines, *]; simp_all
          · split at hl
            · simp only [SeqRefines, *]; simp_all
            · simp at hl
        · split at hl
          · simp at hl
          · split at hl
            · simp at hl
            · simp only [Except.ok.injEq, Prod.mk.injEq] at hl
              obtain ⟨hl1, hl2⟩ := hl
              subst hl1 hl2
              rw [if_neg (by assumption), if_neg (by assumption)]
              exact ⟨rfl, rfl, rfl, hv⟩
      · simp only [seqOutRes] at hl
        rcases pr with e' | ⟨vs, n⟩ <;> simp only at hl ⊢
        · simp only [Except.error.injEq] at hl
          subst hl
          cases e <;> rfl
        · simp at hl

theorem linearSeqMap_refines (E : Env) (bsz : Option Int) (op : Option Op) (e : DMap)
    (bs : Bytes) (off : Nat) (c : Ctx) :
    SeqRefines c (linearSeqMap E bsz op e bs off c) (linearSeqParse E bsz op e bs off) := by
  unfold linearSeqMap linearSeqParse
  rcases bsz with _ | n
  · rfl
  · simp only
    split
    · rfl
    · rcases (op.bind fun op => op.readFrom E (bs.drop off)) with _ | vs
      · rfl
      · cases e <;> simp only <;> (try rfl)
        rename_i k _ _
        rcases mapValues k vs with e | xs
        · rfl
        · exact ⟨rfl, rfl, rfl, .inl rfl⟩

theorem linearStructMap_refines (E : Env) (h : Hdr) (bsz : Option Int) (op : Option Op) (i : Bool)
    (infos : List MemInfo) (maps : List DMap) (bs : Bytes) (off : Nat) (c : Ctx)
    (m : DMap) :
    Refines m c (linearStructMap E h bsz op i infos maps bs off c)
      (linearStructParse E h bsz op i infos maps bs off) := by
  unfold linearStructMap linearStructParse
  rcases bsz with _ | n
  · rfl
  · simp only
    split
    · rfl
    · rcases (op.bind fun op => op.readFrom E (bs.drop off)) with _ | vs
      · rfl
      · simp only
        rcases linearValues infos maps vs with _ | xs
        · rfl
        · simp only
          generalize newInstanceArgs (infos.map (·.name)) xs = o
          rcases o with _ | attrs
          · rfl
          · cases i
            · rfl
            · exact ⟨rfl, rfl, rfl, .inl rfl⟩

/-- Induction over data type maps. -/
theorem DMap.ind {P : DMap → Prop} (missing : P .missing)
    (prim : ∀ h k s u, P (.prim h k s u)) (uuid : ∀ h s u, P (.uuid h s u))
    (padding : ∀ h a, P (.padding h a))
    (seq : ∀ h i ei b e, P e → P (.seq h i ei b e))
    (struct : ∀ h b l io infos maps, (∀ m ∈ maps, P m) → P (.struct h b l io infos maps))
    (constant : ∀ h, P (.constant h)) (enumeration : ∀ h vs, P (.enumeration h vs))
    (format : ∀ h l, P (.format h l))
    (group : ∀ h ident base dflt keys maps, P base → (∀ d, dflt = some d → P d) →
      (∀ m ∈ maps, P m) → P (.group h ident base dflt keys maps)) (m : DMap) : P m :=
  DMap.rec (motive_1 := P) (motive_2 := fun ms => ∀ m ∈ ms, P m)
    (motive_3 := fun o => ∀ d, o = some d → P d)
    missing prim uuid padding (fun h i ei b e ih => seq h i ei b e ih)
    (fun h b l io infos maps ih => struct h b l io infos maps ih) constant enumeration format
    (fun h ident base dflt keys maps i1 i2 i3 => group h ident base dflt keys maps i1 i2 i3)
    (by simp) (fun m ms h1 h2 => by simp_all) (by simp) (fun d h => by simp_all) m

/-- The statement of the refinement theorem for one map. -/
def RefinesAll (E : Env) (m : DMap) : Prop :=
  ∀ bs off depth c, Ctx.Clean c →
    Refines m c (mapStream E m bs off depth c) (parse E m bs off depth c.values)

theorem Refines.of_seq {m : DMap} {c : Ctx} {r : Res} {p : PRes} (hm : m.isSeq = true)
    (h : SeqRefines c r p) : Refines m c r p := by
  rcases p with e | ⟨v, n⟩
  · exact h
  · obtain ⟨h1, h2, h3, h4⟩ := h
    exact ⟨h1, h2, h3, h4.imp id (fun h => ⟨hm, h⟩)⟩

/-- The relation between the loop over the members and the parser. -/
def LoopRefines (o : StructOut) (p : Except Err (List (String × Val) × Nat)) : Prop :=
  match p, o with
  | .error e, .raised e' _ => e = e'
  | .error e, .tooSmall _ => e = .tooSmall
  | .ok (attrs, n), .done s => s.attrs = attrs ∧ s.size = n
  | _, _ => False

theorem structLoop_refines (E : Env) (cls : String) (bs : Bytes) (depth : Nat)
    (maps : List DMap) (hm : ∀ m ∈ maps, RefinesAll E m) (infos : List MemInfo) (s : StructSt)
    (hs : s.sub.Clean) :
    LoopRefines (structLoop E cls bs depth infos maps 0 s)
      (parseMembers E cls bs depth s.sub.values infos maps s.off s.size s.attrs) := by
  induction maps generalizing infos s with
  | nil => simp [structLoop, parseMembers, LoopRefines]
  | cons m maps ih =>
    rcases infos with _ | ⟨info, infos⟩
    · simp [structLoop, parseMembers, LoopRefines]
    · have ih := ih (fun m h => hm m (List.mem_cons_of_mem _ h))
      have hm := hm m (List.mem_cons_self)
      simp only [structLoop, parseMembers]
      rcases evalCondition E info (structNs cls s.attrs s.sub.values) with e | b
      · rfl
      · cases b
        · exact ih infos { s with index := s.index + 1 } hs
        · simp only
          have hc : Ctx.Clean { s.sub with values := structNs cls s.attrs s.sub.values } := by
            rw [Ctx.clean_iff] at hs ⊢; exact hs
          have h := hm bs s.off (depth + 1) _ hc
          simp only at h
          rcases hr : mapStream E m bs s.off (depth + 1)
            { s.sub with values := structNs cls s.attrs s.sub.values } with ⟨r, sub⟩
          rw [hr] at h
          generalize parse E m bs s.off (depth + 1) (structNs cls s.attrs s.sub.values) = p at h ⊢
          rcases p with e | ⟨v, n⟩ <;> simp only [Refines] at h ⊢
          · subst h
            cases e <;> rfl
          · obtain ⟨h1, h2, h3, h4⟩ := h
            subst h1
            simp only
            rcases hv : valueOk info v
            · simp only [Bool.not_false, if_true]; rfl
            · simp only [Bool.not_true, Bool.false_eq_true, if_false, h2]
              have := ih infos
                { off := s.off + n, size := s.size + n, index := s.index + 1,
                  attrs := setAttr s.attrs info.name v,
                  sub := { sub with values := s.sub.values } }
                (by rw [Ctx.clean_iff] at h3 ⊢; exact h3)
              simpa [h2] using this

theorem parseNth_eq (E : Env) (ms : List DMap) (i : Nat) (bs : Bytes) (off depth : Nat) :
    parseNth E ms i bs off depth =
      match ms[i]? with
      | none => .error .attribute
      | some m => parse E m bs off depth [] := by
  induction ms generalizing i with
  | nil => simp [parseNth]
  | cons m ms ih => cases i <;> simp [parseNth, ih]

theorem mapNth_eq (E : Env) (ms : List DMap) (i : Nat) (bs : Bytes) (off depth : Nat) (c : Ctx) :
    mapNth E ms i bs off depth c =
      match ms[i]? with
      | none => (.error .attribute, c)
      | some m => mapStream E m bs off depth c := by
  induction ms generalizing i with
  | nil => simp [mapNth]
  | cons m ms ih => cases i <;> simp [mapNth, ih]

theorem refines (E : Env) (m : DMap) : RefinesAll E m := by
  induction m using DMap.ind with
  | missing => intro bs off depth c hc; simp [mapStream, parse, Refines]
  | prim h k s u =>
    intro bs off depth c hc
    simp only [mapStream, parse, primMap, primParse]
    rcases fixedByteSize s u with _ | n
    · rfl
    · simp only
      split
      · rfl
      · rcases primRead E h.order k s (bs.drop off) with _ | v
        · rfl
        · refine ⟨rfl, rfl, ?_, .inl rfl⟩
          rw [Ctx.clean_iff] at hc ⊢; exact hc
  | uuid h s u =>
    intro bs off depth c hc
    simp only [mapStream, parse, uuidMap, uuidParse]
    rcases fixedByteSize s u with _ | n
    · rfl
    · simp only
      split
      · rfl
      · have hcl : ∀ x y, Ctx.Clean { c with byteSize := x, requestedSize := y } := by
          intro x y; rw [Ctx.clean_iff] at hc ⊢; exact hc
        cases h.order <;> simp only
        · split
          · exact ⟨rfl, rfl, hcl _ _, .inl rfl⟩
          · rfl
        · split
          · exact ⟨rfl, rfl, hcl _ _, .inl rfl⟩
          · rfl
        · exact ⟨rfl, rfl, hcl _ _, .inl rfl⟩
  | padding h a =>
    intro bs off depth c hc
    simp only [mapStream, parse, paddingMap, paddingParse]
    rcases calcPadding a off with _ | n
    · rfl
    · simp only
      split
      · rfl
      · refine ⟨rfl, rfl, ?_, .inl rfl⟩
        rw [Ctx.clean_iff] at hc ⊢; exact hc
  | seq h info ei b e ih =>
    intro bs off depth c hc
    apply Refines.of_seq (by rfl)
    simp only [mapStream, parse]
    rcases info.kind with _ | _ | enc <;> simp only
    · cases seqLinear info ei
      · simp only [Bool.false_eq_true, if_false]
        apply compositeSeqMap_refines E info ei _ _
          (fun c => c.Clean ∧ (c.values = [] ∨ (e.isSeq = true ∧ c.values = withBuiltins [])))
          ⟨rfl, .inl rfl⟩ _ _ _ _ _ hc
        intro off' c' ⟨hc', hv⟩
        have h := ih bs off' (depth + 1) c' hc'
        have hp : parse E e bs off' (depth + 1) c'.values = parse E e bs off' (depth + 1) [] := by
          rcases hv with hv | ⟨he, hv⟩
          · rw [hv]
          · rw [hv, parse_builtins E e he]
        rw [hp] at h
        generalize parse E e bs off' (depth + 1) [] = p at h ⊢
        rcases p with e' | ⟨v, n⟩
        · exact h
        · obtain ⟨h1, h2, h3, h4⟩ := h
          refine ⟨h1, h2, h3, ?_⟩
          rcases h4 with h4 | ⟨he, h4⟩
          · rw [h4]; exact hv
          · right
            refine ⟨he, ?_⟩
            rw [h4]
            rcases hv with hv | ⟨_, hv⟩
            · rw [hv]
            · rw [hv, withBuiltins_idem]
      · simp only [if_true]
        exact linearSeqMap_refines ..
    · have h := streamMap_refines E info ei bs off c hc
      rcases hs : streamMap E info ei bs off c with ⟨r, c'⟩
      rw [hs] at h
      generalize streamParse E info ei bs off c.values = p at h ⊢
      rcases p with e' | ⟨x, n⟩ <;>
        simp only [SeqRefines] at h ⊢
      · subst h; rfl
      · obtain ⟨h1, h2, h3, h4⟩ := h
        subst h1
        exact ⟨rfl, h2, h3, h4⟩
    · exact stringMap_refines E enc info ei bs off c hc
  | struct h b l io infos maps ih =>
    intro bs off depth c hc
    simp only [mapStream, parse]
    cases l
    · simp only [Bool.false_eq_true, if_false]
      have hc' := hc
      rw [Ctx.clean_iff] at hc'
      obtain ⟨h1, h2, h3, h4, h5, h6, h7, h8, h9, h10⟩ := hc'
      by_cases hd : depth > 10
      · simp only [if_pos hd]; rfl
      · simp only [if_neg hd, h1, h2, h7, Option.isNone_none, Bool.true_and, Option.getD_none]
        cases io
        · rfl
        · simp only [Bool.not_true, Bool.false_eq_true, if_false]
          have hl := structLoop_refines E h.name bs depth maps ih infos
            { off := off, size := 0, index := 0, attrs := newInstance (infos.map (·.name)),
              sub := { values := c.values } } rfl
          simp only at hl
          by_cases hi : infos.length = 0
          · rw [if_pos hi]
            have : infos = [] := by cases infos <;> simp_all
            subst this
            cases maps <;> simp [structLoop, Refines]
          · rw [if_neg hi]
            revert hl
            generalize structLoop E h.name bs depth infos maps 0
              { off := off, size := 0, index := 0, attrs := newInstance (infos.map (·.name)),
                sub := { values := c.values } } = out
            generalize parseMembers E h.name bs depth c.values infos maps off 0
              (newInstance (infos.map (·.name))) = p
            intro hl
            rcases p with e | ⟨attrs, n⟩ <;> rcases out with s | s | ⟨e', s⟩ <;>
              simp only [LoopRefines] at hl
            · subst hl; rfl
            · subst hl; rfl
            · have hi' : ¬ (0 ≥ infos.length) := by omega
              simp only [if_neg hi']
              obtain ⟨hl1, hl2⟩ := hl
              subst hl1 hl2
              exact ⟨rfl, rfl, rfl, .inl rfl⟩
    · simp only [if_true]
      exact linearStructMap_refines ..
  | constant h => intro bs off depth c hc; simp [mapStream, parse, Refines]
  | enumeration h vs => intro bs off depth c hc; simp [mapStream, parse, Refines]
  | format h l => intro bs off depth c hc; simp [mapStream, parse, Refines]
  | group h ident base dflt keys maps ih1 ih2 ih3 =>
    intro bs off depth c hc
    have hc' := hc
    rw [Ctx.clean_iff] at hc'
    obtain ⟨h1, h2, h3, h4, h5, h6, h7, h8, h9, h10⟩ := hc'
    have hb := ih1 bs off depth {} rfl
    simp only [mapStream, parse, h2, h10, Option.getD_none, Option.map_none]
    rcases hr : mapStream E base bs off depth {} with ⟨r, sub⟩
    rw [hr] at hb
    generalize parse E base bs off depth [] = p at hb ⊢
    rcases p with e | ⟨v, n⟩ <;> simp only [Refines] at hb
    · subst hb
      cases e <;> rfl
    · obtain ⟨b1, -⟩ := hb
      subst b1
      simp only
      generalize getAttr v ident = id
      have key : ∀ id : Val, id ≠ .pyNone → Refines (.group h ident base dflt keys maps) c
        (match groupIndex keys id with
          | some i =>
            if groupMapMissing maps[i]? = true then
              (.error .mapping, { c with sub := none, memberIdentifier := some id })
            else
              match mapNth E maps i bs off depth {} with
              | (.error .tooSmall, sub) =>
                (.error .tooSmall,
                  { c with byteSize := none, sub := some sub, memberIdentifier := some id })
              | (.error e, _) =>
                (.error (wrapErr e),
                  { c with byteSize := none, sub := none, memberIdentifier := some id })
              | (.ok v, sub) =>
                (.ok v, Ctx.clear
                  { c with byteSize := sub.byteSize, sub := none, memberIdentifier := some id })
          | none =>
            if groupMapMissing dflt = true then
              (.error .mapping, { c with sub := none, memberIdentifier := some id })
            else
              match mapOpt E dflt bs off depth {} with
              | (.error .tooSmall, sub) =>
                (.error .tooSmall,
                  { c with byteSize := none, sub := some sub, memberIdentifier := some id })
              | (.error e, _) =>
                (.error (wrapErr e),
                  { c with byteSize := none, sub := none, memberIdentifier := some id })
              | (.ok v, sub) =>
                (.ok v, Ctx.clear
                  { c with byteSize := sub.byteSize, sub := none, memberIdentifier := some id }))
        (match groupIndex keys id with
        | some i =>
          if groupMapMissing maps[i]? then .error .mapping
          else
            match parseNth E maps i bs off depth with
            | .error e => .error (wrapErr e)
            | .ok r => .ok r
        | none =>
          if groupMapMissing dflt then .error .mapping
          else
            match parseOpt E dflt bs off depth with
            | .error e => .error (wrapErr e)
            | .ok r => .ok r) := by
        intro id _
        rcases groupIndex keys id with _ | i <;> simp only
        · cases groupMapMissing dflt
          · simp only [Bool.false_eq_true, if_false]
            rcases dflt with _ | d
            · simp only [mapOpt, parseOpt]; rfl
            · have hd := ih2 d rfl bs off depth {} rfl
              simp only [mapOpt, parseOpt]
              rcases hr : mapStream E d bs off depth {} with ⟨r, sub⟩
              rw [hr] at hd
              generalize parse E d bs off depth [] = p at hd ⊢
              rcases p with e | ⟨v, n⟩ <;> simp only [Refines] at hd
              · subst hd; cases e <;> rfl
              · obtain ⟨b1, b2, b3, b4⟩ := hd
                subst b1
                exact ⟨rfl, b2, rfl, .inl rfl⟩
          · rfl
        · cases groupMapMissing maps[i]?
          · simp only [Bool.false_eq_true, if_false]
            rw [mapNth_eq, parseNth_eq]
            rcases hm : maps[i]? with _ | m
            · rfl
            · have hd := ih3 m (List.mem_of_getElem? hm) bs off depth {} rfl
              simp only
              rcases hr : mapStream E m bs off depth {} with ⟨r, sub⟩
              rw [hr] at hd
              generalize parse E m bs off depth [] = p at hd ⊢
              rcases p with e | ⟨v, n⟩ <;> simp only [Refines] at hd
              · subst hd; cases e <;> rfl
              · obtain ⟨b1, b2, b3, b4⟩ := hd
                subst b1
                exact ⟨rfl, b2, rfl, .inl rfl⟩
          · rfl
      cases id
      case pyNone => rfl
      all_goals exact key _ (by simp)

/-- A number of elements that no index equals is not reached. -/
theorem seqParse_reached {step : Nat → PRes} {len : Nat} {ds : Option Int} {term : Option Lit}
    {fuel off used index : Nat} {last : Val} {r : List Val × Nat}
    (h : seqParse step len (some (-1)) ds term fuel off used index last = .ok r) : False := by
  have hend : ∀ index used last r, seqEnd (some (-1)) ds term index used last ≠ .ok r := by
    intro index used last r h
    unfold seqEnd at h
    rw [if_pos (by simp [atNumber])] at h
    cases h
  induction fuel generalizing off used index last r with
  | zero => cases h
  | succ fuel ih =>
    rw [seqParse] at h
    split at h
    · exact hend _ _ _ _ h
    · split at h
      · cases h
      · split at h
        · cases h
        · rename_i hr
          split at hr
          · exact hend _ _ _ _ hr
          · exact ih hr

end Dtf
