import Verif.Props.Folding
/-!
# Property C58: folding streams and strings
-/
namespace Dtf

namespace Spec

/-- No size is declared, only the terminator `t`. -/
def OnlyTerminator (info : SeqInfo) (t : Bytes) : Prop :=
  info.dataSize = none ∧ info.dataSizeExpr = none ∧ info.numElements = none ∧
  info.numElementsExpr = none ∧ info.terminator = some (.bytes t) ∧ t ≠ []

/-- The value of a stream before folding and the bytes it is folded to: the terminator
is added unless it is there already. -/
def Closed (t b r : Bytes) : Prop :=
  (t <:+ b ∧ r = b) ∨ (¬ t <:+ b ∧ r = b ++ t)

/-- `b` is a whole number of elements and none of them is `t`. -/
def NoTerminatorIn (t b : Bytes) : Prop :=
  t.length ∣ b.length ∧ ∀ k, ¬ TerminatorAt b 0 t k

end Spec
open Spec

theorem streamSize_of {E : Env} {info : SeqInfo} {ei : ElemInfo} {ns : Namespace} {n : Int}
    (h : Sized E info ei.byteSize ns n) : streamSize E info ei ns = .ok (some n) := by
  rcases h with hs | ⟨h1, h2, k, s, h3, h4, rfl⟩
  · obtain ⟨h1, h2⟩ := evalData_of hs
    simp [streamSize, h1, h2]
  · obtain ⟨h5, h6⟩ := evalNum_of h3
    simp [streamSize, SeqInfo.hasDataSize, h1, h2, h6, h4, h5]

theorem streamSize_unsizable {E : Env} {info : SeqInfo} {ei : ElemInfo} {ns : Namespace}
    (hu : Unsizable E info ei.byteSize ns) : streamSize E info ei ns = .error .mapping := by
  rcases hu with ⟨h1, h2⟩ | ⟨h1, h2, h3, h4, h5⟩
  · have hh : info.hasDataSize = true := by
      simp only [SeqInfo.hasDataSize, Bool.or_eq_true, Option.isSome_iff_ne_none]; exact h1
    have := evalSize_none (kd := info.kind) h2
    simp only [streamSize, hh, if_true, evalDataSize, this]
  · have hh : info.hasDataSize = false := by simp [SeqInfo.hasDataSize, h1, h2]
    have hn : info.hasNumElements = true := by
      simp only [SeqInfo.hasNumElements, Bool.or_eq_true, Option.isSome_iff_ne_none]; exact h3
    have := evalSize_none (kd := info.kind) h5
    cases hes : ei.byteSize with
    | none => exact absurd hes h4
    | some es => simp [streamSize, hh, hn, evalNumElements, this, hes]

theorem streamFold_size (E : Env) (info : SeqInfo) (ei : ElemInfo) (ns : Namespace) :
    (calcDataSize E info ei { values := ns }).1 = streamSize E info ei ns :=
  (calcDataSize_clean E info ei { values := ns } (Ctx.clean_fresh _)).1

theorem lastN_iff (t b : Bytes) (ht : t ≠ []) : (lastN t.length b == t) = true ↔ t <:+ b := by
  have hpos : 0 < t.length := List.length_pos_iff.mpr ht
  simp only [lastN, beq_iff_eq]
  rw [if_neg (by omega)]
  constructor
  · intro h; rw [← h]; exact List.drop_suffix _ _
  · intro h; exact (List.suffix_iff_eq_drop.mp h).symm

theorem streamFold_sized {E : Env} {info : SeqInfo} {ei : ElemInfo} {ns : Namespace} {n : Int} (b : Bytes)
    (h : streamSize E info ei ns = .ok (some n)) :
    streamFold E info ei (.bytes b) ns = if (b.length : Int) = n then .ok (.bytes b) else .error .folding := by
  unfold streamFold
  rw [streamFold_size, h]
  simp only [Val.len]
  by_cases hn : (b.length : Int) = n
  · rw [if_pos hn, if_neg (by omega)]
  · rw [if_neg hn, if_pos (by omega)]

theorem onlyTerminator_size {E : Env} {info : SeqInfo} {ei : ElemInfo} {ns : Namespace} {t : Bytes}
    (h : OnlyTerminator info t) : streamSize E info ei ns = .ok none := by
  obtain ⟨h1, h2, h3, h4, -, -⟩ := h
  simp [streamSize, SeqInfo.hasDataSize, SeqInfo.hasNumElements, h1, h2, h3, h4]

theorem streamFold_closed {E : Env} {info : SeqInfo} {ei : ElemInfo} {ns : Namespace} {t : Bytes} (b : Bytes)
    (h : OnlyTerminator info t) :
    ∃ r, Closed t b r ∧ streamFold E info ei (.bytes b) ns = .ok (.bytes r) := by
  have hs := onlyTerminator_size (E := E) (ei := ei) (ns := ns) h
  obtain ⟨-, -, -, -, h5, h6⟩ := h
  unfold streamFold
  rw [streamFold_size, hs]
  simp only [h5]
  by_cases hb : t <:+ b
  · exact ⟨b, .inl ⟨hb, rfl⟩, by rw [(lastN_iff t b h6).mpr hb]; rfl⟩
  · refine ⟨b ++ t, .inr ⟨hb, rfl⟩, ?_⟩
    rw [if_neg (fun h => hb ((lastN_iff t b h6).mp h))]

/-- **C58** Folding `b` to a stream whose declared size is `n` gives `b` itself if `b` has
`n` bytes and raises FoldingError otherwise; a declared size that is negative or cannot
be evaluated raises MappingError. -/
theorem C58_sized (E : Env) (nm : String) (o : Order) (h : Hdr) (info : SeqInfo)
    (hk : info.kind = .stream) (e : Defn) (m : DMap) (hm : createAs E nm o (.seq h info e) = .ok m)
    (b : Bytes) (ns : Namespace) :
    (∀ n : Int, Sized E info e.byteSize ns n →
      ((b.length : Int) = n → fold E m (.bytes b) ns = .ok (.bytes b)) ∧
      ((b.length : Int) ≠ n → fold E m (.bytes b) ns = .error .folding)) ∧
    (Unsizable E info e.byteSize ns → fold E m (.bytes b) ns = .error .mapping) := by
  obtain ⟨n', eo, em, -, -, rfl, -⟩ := createAs_seq hm
  rw [fold]
  simp only [hk]
  refine ⟨fun n hn => ?_, fun hu => ?_⟩
  · have hn := streamSize_of (ei := ⟨e.byteSize, e.isComposite, e.terminator?⟩) hn
    rw [streamFold_sized b hn]
    exact ⟨fun h => if_pos h, fun h => if_neg h⟩
  · have hu := streamSize_unsizable (ei := ⟨e.byteSize, e.isComposite, e.terminator?⟩) hu
    unfold streamFold
    rw [streamFold_size, hu]

/-- **C58** Folding `b` to a stream that has only a terminator gives `b`, with the
terminator added unless `b` ends with it. -/
theorem C58_terminated (E : Env) (nm : String) (o : Order) (h : Hdr) (info : SeqInfo)
    (hk : info.kind = .stream) (t : Bytes) (ht : OnlyTerminator info t) (e : Defn) (m : DMap)
    (hm : createAs E nm o (.seq h info e) = .ok m) (b : Bytes) (ns : Namespace) :
    ∃ r, Closed t b r ∧ fold E m (.bytes b) ns = .ok (.bytes r) := by
  obtain ⟨n', eo, em, -, -, rfl, -⟩ := createAs_seq hm
  rw [fold]
  simp only [hk]
  exact streamFold_closed b ht

/-- **C58** A string folds to what the stream with the same attributes makes of its
encoding; text that cannot be encoded and values that are no text raise FoldingError. -/
theorem C58_string (E : Env) (nm : String) (o : Order) (h : Hdr) (info : SeqInfo) (enc : String)
    (e : Defn) (ms mt : DMap)
    (hs : createAs E nm o (.seq h { info with kind := .stream } e) = .ok ms)
    (hm : createAs E nm o (.seq h { info with kind := .string enc } e) = .ok mt) (ns : Namespace) :
    (∀ cs b, E.encode enc cs = some b → fold E mt (.str cs) ns = fold E ms (.bytes b) ns) ∧
    (∀ cs, E.encode enc cs = none → fold E mt (.str cs) ns = .error .folding) ∧
    (∀ v, (∀ cs, v ≠ .str cs) → fold E mt v ns = .error .folding) := by
  obtain ⟨n1, eo1, em1, -, -, rfl, -⟩ := createAs_seq hs
  obtain ⟨n2, eo2, em2, -, -, rfl, -⟩ := createAs_seq hm
  refine ⟨?_, ?_, ?_⟩
  · intro cs b hb
    simp only [fold, stringFold, hb]
    rfl
  · intro cs hb
    simp only [fold, stringFold, hb]
  · intro v hv
    simp only [fold]
    unfold stringFold
    split
    · exact absurd rfl (hv _)
    · rfl

/-- Folding to streams and strings. -/
example : ∃ m m' m'', createMap exEnv (exStream none (some 2)) = .ok m ∧
    createMap exEnv (exZ [0, 0]) = .ok m' ∧
    createMap exEnv (exStr none (some (.bytes [0]))) = .ok m'' ∧
    fold exEnv m (.bytes [1, 2, 3, 4]) [] = .ok (.bytes [1, 2, 3, 4]) ∧
    fold exEnv m (.bytes [1, 2, 3]) [] = .error .folding ∧
    fold exEnv m' (.bytes [1, 2]) [] = .ok (.bytes [1, 2, 0, 0]) ∧
    fold exEnv m' (.bytes [1, 2, 0, 0]) [] = .ok (.bytes [1, 2, 0, 0]) ∧
    fold exEnv m'' (.str [65, 66]) [] = .ok (.bytes [65, 66, 0]) :=
  ⟨_, _, _, rfl, rfl, rfl, rfl, rfl, rfl, rfl, rfl⟩

/-! ### Mapping what was folded -/

theorem window_mid (pre r post : Bytes) : window (pre ++ r ++ post) pre.length r.length = r := by
  simp [window]

theorem terminatorAt_mid {pre r post t : Bytes} {k : Nat} (h : k * t.length + t.length ≤ r.length) :
    TerminatorAt (pre ++ r ++ post) pre.length t k ↔ TerminatorAt r 0 t k := by
  unfold TerminatorAt window
  rw [List.append_assoc, List.drop_append, List.drop_of_length_le (by omega), List.nil_append,
    show pre.length + k * t.length - pre.length = k * t.length by omega, List.drop_append_of_le_length (by omega),
    List.take_append_of_le_length (by rw [List.length_drop]; omega), Nat.zero_add]

theorem firstTerminator_mid {t b : Bytes} {k : Nat} (hlen : b.length = k * t.length)
    (hno : ∀ k, ¬ TerminatorAt b 0 t k) (pre post : Bytes) :
    FirstTerminator (pre ++ (b ++ t) ++ post) pre.length t k := by
  constructor
  · rw [terminatorAt_mid (by simp [hlen])]
    unfold TerminatorAt window
    rw [Nat.zero_add, ← hlen]; simp
  · intro j hj
    have hjk : j * t.length + t.length ≤ k * t.length := by
      have := Nat.mul_le_mul_right t.length (Nat.succ_le_of_lt hj)
      simp only [Nat.succ_eq_add_one, Nat.add_mul, Nat.one_mul] at this; omega
    rw [terminatorAt_mid (by simp [hlen]; omega)]
    intro hj'
    refine hno j ?_
    unfold TerminatorAt window at hj' ⊢
    rw [Nat.zero_add] at hj' ⊢
    rw [List.drop_append_of_le_length (by omega), List.take_append_of_le_length (by rw [List.length_drop]; omega)]
      at hj'
    exact hj'

/-- **C58** What was folded to a stream of a declared size maps back to the same bytes,
wherever it is put, when the call that maps sees the same size. -/
theorem C58_sized_back (E : Env) (nm : String) (o : Order) (h : Hdr) (info : SeqInfo)
    (hk : info.kind = .stream) (e : Defn) (m : DMap) (hm : createAs E nm o (.seq h info e) = .ok m)
    (c : Ctx) (hc : c.Clean) (n : Int) (hn : Sized E info e.byteSize c.values n) (b r : Bytes)
    (hf : fold E m (.bytes b) c.values = .ok (.bytes r)) (pre post : Bytes) (depth : Nat) :
    (mapStream E m (pre ++ r ++ post) pre.length depth c).1 = .ok (.bytes b) ∧
    (mapStream E m (pre ++ r ++ post) pre.length depth c).2.byteSize = some b.length := by
  have hsz := ((C58_sized E nm o h info hk e m hm b c.values).1 n hn)
  by_cases hl : (b.length : Int) = n
  · rw [hsz.1 hl] at hf
    cases hf
    have := (((C20_sized_stream E nm o h info hk e m hm (pre ++ b ++ post) pre.length depth c hc).1 n (by omega) hn).1
      (by simp only [List.length_append]; omega))
    rw [← hl, Int.toNat_natCast, window_mid] at this
    exact this
  · rw [hsz.2 hl] at hf
    cases hf

/-- **C58** What was folded to a stream with a terminator of the size of an element maps
back to the folded bytes when the value is made of whole elements and none of them,
except possibly the last, is the terminator. -/
theorem C58_terminated_back (E : Env) (nm : String) (o : Order) (h : Hdr) (info : SeqInfo)
    (hk : info.kind = .stream) (t : Bytes) (ht : OnlyTerminator info t) (e : Defn)
    (hes : e.byteSize = some (t.length : Int)) (m : DMap)
    (hm : createAs E nm o (.seq h info e) = .ok m) (c : Ctx) (hc : c.Clean) (b r : Bytes)
    (hb : NoTerminatorIn t b ∨ ∃ b', NoTerminatorIn t b' ∧ b = b' ++ t)
    (hf : fold E m (.bytes b) c.values = .ok (.bytes r)) (pre post : Bytes) (depth : Nat) :
    (mapStream E m (pre ++ r ++ post) pre.length depth c).1 = .ok (.bytes r) ∧
    (mapStream E m (pre ++ r ++ post) pre.length depth c).2.byteSize = some r.length := by
  obtain ⟨r', hr', hf'⟩ := C58_terminated E nm o h info hk t ht e m hm b c.values
  rw [hf] at hf'
  cases hf'
  obtain ⟨h1, h2, h3, h4, h5, h6⟩ := ht
  have hpos : 0 < t.length := List.length_pos_iff.mpr h6
  obtain ⟨b', ⟨⟨k, hk'⟩, hno⟩, rfl⟩ : ∃ b', NoTerminatorIn t b' ∧ r = b' ++ t := by
    rcases hb with hb | ⟨b', hb', rfl⟩
    · rcases hr' with ⟨⟨p, rfl⟩, -⟩ | ⟨-, rfl⟩
      · exfalso
        obtain ⟨⟨k, hk⟩, hno⟩ := hb
        rw [List.length_append] at hk
        cases k with
        | zero => omega
        | succ k =>
          refine hno k ?_
          unfold TerminatorAt window
          have : p.length = k * t.length := by rw [Nat.mul_add, Nat.mul_comm] at hk; omega
          rw [Nat.zero_add, ← this]; simp
      · exact ⟨b, hb, rfl⟩
    · refine ⟨b', hb', ?_⟩
      rcases hr' with ⟨-, rfl⟩ | ⟨hn, -⟩
      · rfl
      · exact absurd (List.suffix_append _ _) hn
  have hfirst := firstTerminator_mid (by rw [hk', Nat.mul_comm]) hno pre post
  have hres := (C21_terminated_stream E nm o h info hk ⟨h1, h2⟩ ⟨h3, h4⟩ t h6 h5 e hes m hm
    (pre ++ (b' ++ t) ++ post) pre.length depth c hc).1 k hfirst
  have hlen : (k + 1) * t.length = (b' ++ t).length := by
    rw [List.length_append, hk', Nat.add_mul, Nat.mul_comm]; omega
  rw [hlen, window_mid] at hres
  exact hres

theorem stream_of_string {E : Env} {nm : String} {o : Order} {h : Hdr} {info : SeqInfo} {enc : String} {e : Defn}
    {m : DMap} (hm : createAs E nm o (.seq h { info with kind := .string enc } e) = .ok m) :
    ∃ ms, createAs E nm o (.seq h { info with kind := .stream } e) = .ok ms := by
  rw [createAs] at hm ⊢
  split at hm
  · cases hm
  simp only at hm ⊢
  split at hm
  · cases hm
  simp only [finishSeq] at hm ⊢
  split at hm
  · cases hm
  rename_i h1
  split at hm
  · cases hm
  rename_i h2
  exact ⟨_, by rw [if_neg h1, if_neg h2]⟩

theorem cutAt_end {t b r : Bytes} (ht : t ≠ []) (hb : NoTerminatorIn t b) (h : CutAt t (b ++ t) r) : r = b := by
  obtain ⟨⟨k, hk⟩, hno⟩ := hb
  have hpos : 0 < t.length := List.length_pos_iff.mpr ht
  have hlen : b.length = k * t.length := by rw [hk, Nat.mul_comm]
  have hend : TerminatorAt (b ++ t) 0 t k := by
    unfold TerminatorAt window
    rw [Nat.zero_add, ← hlen]; simp
  rcases h with ⟨j, ⟨hj1, hj2⟩, rfl⟩ | ⟨h1, -⟩
  · have : j = k := by
      rcases Nat.lt_trichotomy j k with h | h | h
      · exfalso
        have hjk : j * t.length + t.length ≤ k * t.length := by
          have := Nat.mul_le_mul_right t.length (Nat.succ_le_of_lt h)
          simp only [Nat.succ_eq_add_one, Nat.add_mul, Nat.one_mul] at this; omega
        refine hno j ?_
        unfold TerminatorAt window at hj1 ⊢
        rw [Nat.zero_add] at hj1 ⊢
        rw [List.drop_append_of_le_length (by omega), List.take_append_of_le_length (by rw [List.length_drop]; omega)]
          at hj1
        exact hj1
      · exact h
      · exact absurd hend (hj2 k h)
    subst this
    rw [← hlen]; simp
  · exact absurd hend (h1 k)

/-- **C58** Text folded to a string with a terminator of the size of an element maps back
to the same text, wherever it is put, when its encoding decodes to it, is made of whole
elements and none of them is the terminator. -/
theorem C58_string_back (E : Env) (nm : String) (o : Order) (h : Hdr) (info : SeqInfo) (enc : String)
    (t : Bytes) (ht : OnlyTerminator info t) (e : Defn)
    (hes : e.byteSize = some (t.length : Int)) (m : DMap)
    (hm : createAs E nm o (.seq h { info with kind := .string enc } e) = .ok m) (c : Ctx) (hc : c.Clean)
    (cs : List Nat) (b : Bytes) (henc : E.encode enc cs = some b) (hdec : E.decode enc b = some cs)
    (hb : NoTerminatorIn t b) (pre post : Bytes) (depth : Nat) :
    fold E m (.str cs) c.values = .ok (.bytes (b ++ t)) ∧
    (mapStream E m (pre ++ (b ++ t) ++ post) pre.length depth c).1 = .ok (.str cs) ∧
    (mapStream E m (pre ++ (b ++ t) ++ post) pre.length depth c).2.byteSize = some (b.length + t.length) := by
  obtain ⟨ms, hms⟩ := stream_of_string hm
  have ht' : OnlyTerminator { info with kind := .stream } t := ht
  have hf := (C58_string E nm o h info enc e ms m hms hm c.values).1 cs b henc
  obtain ⟨r, hr, hf'⟩ := C58_terminated E nm o h { info with kind := .stream } rfl t ht' e ms hms b c.values
  obtain ⟨h1, h2, h3, h4, h5, h6⟩ := ht
  have hrb : r = b ++ t := by
    rcases hr with ⟨⟨p, rfl⟩, -⟩ | ⟨-, rfl⟩
    · exfalso
      obtain ⟨⟨k, hk⟩, hno⟩ := hb
      have hpos : 0 < t.length := List.length_pos_iff.mpr h6
      rw [List.length_append] at hk
      cases k with
      | zero => omega
      | succ k =>
        refine hno k ?_
        unfold TerminatorAt window
        have : p.length = k * t.length := by rw [Nat.mul_add, Nat.mul_comm] at hk; omega
        rw [Nat.zero_add, ← this]; simp
    · rfl
  subst hrb
  refine ⟨by rw [hf, hf'], ?_⟩
  obtain ⟨hv, hn⟩ := C58_terminated_back E nm o h { info with kind := .stream } rfl t ht' e hes ms hms c hc b
    (b ++ t) (.inl hb) hf' pre post depth
  obtain ⟨b1, r1, he, -, hcut, hok, -⟩ := (C22_string E nm o h info enc e ms m (.inr ⟨t, h6, h5⟩) hms hm
    (pre ++ (b ++ t) ++ post) pre.length depth c hc).2 _ _ hv hn
  cases he
  rw [cutAt_end h6 hb (hcut t h5)] at hok
  obtain ⟨g1, g2⟩ := hok cs hdec
  exact ⟨g1, by rw [g2, List.length_append]⟩

/-- **C58** Text folded to a string of a declared size without terminator maps back to
the same text, wherever it is put, when its encoding decodes to it. -/
theorem C58_sized_string_back (E : Env) (nm : String) (o : Order) (h : Hdr) (info : SeqInfo) (enc : String)
    (ht : info.terminator = none) (e : Defn) (m : DMap)
    (hm : createAs E nm o (.seq h { info with kind := .string enc } e) = .ok m) (c : Ctx) (hc : c.Clean)
    (n : Int) (hn : Sized E info e.byteSize c.values n) (cs : List Nat) (b : Bytes)
    (henc : E.encode enc cs = some b) (hdec : E.decode enc b = some cs) (r : Bytes)
    (hf : fold E m (.str cs) c.values = .ok (.bytes r)) (pre post : Bytes) (depth : Nat) :
    (mapStream E m (pre ++ r ++ post) pre.length depth c).1 = .ok (.str cs) ∧
    (mapStream E m (pre ++ r ++ post) pre.length depth c).2.byteSize = some r.length := by
  obtain ⟨ms, hms⟩ := stream_of_string hm
  have hn' : Sized E { info with kind := .stream } e.byteSize c.values n := hn
  have hfs := (C58_string E nm o h info enc e ms m hms hm c.values).1 cs b henc
  rw [hf] at hfs
  obtain ⟨hv, hs⟩ := C58_sized_back E nm o h { info with kind := .stream } rfl e ms hms c hc n hn' b r hfs.symm
    pre post depth
  have hrb : r = b := by
    have := (C58_sized E nm o h { info with kind := .stream } rfl e ms hms b c.values).1 n hn'
    by_cases hl : (b.length : Int) = n
    · rw [this.1 hl] at hfs; cases hfs; rfl
    · rw [this.2 hl] at hfs; cases hfs
  subst hrb
  obtain ⟨b1, r1, he, heq, -, hok, -⟩ := (C22_string E nm o h info enc e ms m (.inl ht) hms hm
    (pre ++ r ++ post) pre.length depth c hc).2 _ _ hv hs
  cases he
  rw [heq ht] at hok
  exact hok cs hdec

/-- A string that is folded and mapped, and the two elements of its encoding. -/
example : ∃ m, createMap exEnv (exStr none (some (.bytes [0]))) = .ok m ∧
    NoTerminatorIn [0] [65, 66] ∧ exEnv.encode "ascii" [65, 66] = some [65, 66] ∧
    exEnv.decode "ascii" [65, 66] = some [65, 66] ∧
    (mapStream exEnv m [9, 65, 66, 0, 7] 1 0 {}).1 = .ok (.str [65, 66]) := by
  refine ⟨_, rfl, ⟨by decide, ?_⟩, rfl, rfl, rfl⟩
  intro k hk
  match k with
  | 0 => exact absurd hk (by unfold TerminatorAt; decide)
  | 1 => exact absurd hk (by unfold TerminatorAt; decide)
  | k + 2 =>
    have := window_full (by simp) hk
    simp at this

/-- A stream whose value is folded without the terminator because its last bytes happen
to be those of the terminator: the folded bytes cannot be mapped. The hypothesis that
the value is made of whole elements is needed. -/
example : ∃ m, createMap exEnv (exZ [0, 0]) = .ok m ∧
    fold exEnv m (.bytes [1, 0, 0]) [] = .ok (.bytes [1, 0, 0]) ∧
    (mapStream exEnv m [1, 0, 0] 0 0 {}).1 = .error .tooSmall :=
  ⟨_, rfl, rfl, rfl⟩

end Dtf
