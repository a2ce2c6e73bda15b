import Verif.Props.Structures
/-!
# C80: the requested size

After a call of MapByteStream the attribute `requested_size` of the context holds the
number of bytes the type needs.
-/
namespace Dtf
namespace Spec

/-- Types read at once whose size is known before: padding, streams and strings with a
length, sequences of scalars with a length given as a number, and structures of scalars
in which no two neighbours declare different byte orders. -/
inductive ReadAtOnce (o : Order) : Defn → Prop
  | padding (h : Hdr) (a : Option Nat) : ReadAtOnce o (.padding h a)
  | stream (h : Hdr) (i : SeqInfo) (e : Defn) (hk : i.kind ≠ .sequence)
      (hl : i.dataSize ≠ none ∨ i.dataSizeExpr ≠ none ∨ i.numElements ≠ none ∨ i.numElementsExpr ≠ none)
      (he : ∀ n, e.byteSize = some n → 0 ≤ n) : ReadAtOnce o (.seq h i e)
  | sequence (h : Hdr) (i : SeqInfo) (e : Defn) (hk : i.kind = .sequence) (he : e.isComposite = false)
      (hi : i.dataSizeExpr = none ∧ i.terminator = none ∧ i.numElementsExpr = none)
      (hn : ∀ n, (Defn.seq h i e).byteSize = some n → 0 ≤ n) : ReadAtOnce o (.seq h i e)
  | struct (h : Hdr) (ms : List Defn) (hm : ∀ d ∈ ms, d.isComposite = false ∧ ∀ h a, d ≠ .padding h a)
      (ho : Smooth o ms) (hn : ∀ n, (Defn.struct h ms).byteSize = some n → 0 ≤ n) : ReadAtOnce o (.struct h ms)

/-- Types read part by part: structures and sequences that are not read at once, and
groups. -/
inductive ReadByParts (o : Order) : Defn → Prop
  | sequence (h : Hdr) (i : SeqInfo) (e : Defn) (hk : i.kind = .sequence)
      (hi : e.isComposite = true ∨ i.dataSizeExpr ≠ none ∨ i.terminator ≠ none ∨ i.numElementsExpr ≠ none) :
      ReadByParts o (.seq h i e)
  | struct (h : Hdr) (ms : List Defn)
      (hm : ¬ ((∀ d ∈ ms, d.isComposite = false ∧ ∀ h a, d ≠ .padding h a) ∧ Smooth o ms)) : ReadByParts o (.struct h ms)
  | group (h : Hdr) (base : Defn) (ident : String) (dflt : Option Defn) (ms : List Defn) :
      ReadByParts o (.group h base ident dflt ms)

/-- Scalars and UUIDs. -/
inductive ReadAlone : Defn → Prop
  | prim (h : Hdr) (k : PrimKind) (s : Size) (u : String) : ReadAlone (.prim h k s u)
  | uuid (h : Hdr) (s : Size) (u : String) : ReadAlone (.uuid h s u)

end Spec
open Spec

theorem smooth_tail {o o' : Order} {d : Defn} {ds : List Defn} (h : Smooth o (d :: ds))
    (hd : d.target.order?.getD .native = o') : Smooth o' ds ∧ (o = .native ∨ o' = .native ∨ o = o') := by
  refine ⟨fun pre a b post he => h (o :: pre) a b post ?_, h [] o o' (ds.map fun d => d.target.order?.getD .native) ?_⟩
  · rw [List.map_cons, hd, he]; rfl
  · rw [List.map_cons, hd]; rfl

theorem linear_of_smooth {o : Order} {ms : List Defn} {b : Bool} (h : checkLinear o ms = .ok b)
    (hm : ∀ d ∈ ms, d.isComposite = false ∧ ∀ h a, d ≠ .padding h a) (ho : Smooth o ms) : b = true := by
  induction ms generalizing o with
  | nil => rw [checkLinear] at h; cases h; rfl
  | cons d ds ih =>
    rw [checkLinear.eq_def] at h
    simp only at h
    obtain ⟨h1, h2⟩ := hm d (by simp)
    split at h
    · rename_i hd a
      exact absurd rfl (h2 hd a)
    · simp only [h1, Bool.or_false, Bool.false_eq_true, if_false] at h
      split at h
      · cases h
      · rename_i o' ho'
        have hod : d.target.order?.getD .native = o' := by
          cases d <;> simp_all [Defn.order?, Defn.target]
        obtain ⟨h3, h4⟩ := smooth_tail ho hod
        split at h
        · rename_i hx
          rcases h4 with h4 | h4 | h4
          · exact absurd h4 hx.1
          · exact absurd h4 hx.2.1
          · exact absurd h4 hx.2.2
        · exact ih h (fun d hd => hm d (List.mem_cons_of_mem _ hd)) h3

theorem atOnce_iff {i : SeqInfo} {ei : ElemInfo} : seqLinear i ei = true ↔
    ei.composite = false ∧ i.dataSizeExpr = none ∧ i.terminator = none ∧ i.numElementsExpr = none := by
  simp [seqLinear, and_assoc]

theorem stream_requested {E : Env} {i : SeqInfo} {e : Defn} {c : Ctx} (hc : c.elementsDataSize = none ∧ c.numberOfElements = none)
    (hl : i.dataSize ≠ none ∨ i.dataSizeExpr ≠ none ∨ i.numElements ≠ none ∨ i.numElementsExpr ≠ none)
    (he : ∀ n, e.byteSize = some n → 0 ≤ n) {s : Option Int} {c' : Ctx}
    (h : calcDataSize E i ⟨e.byteSize, e.isComposite, e.terminator?⟩ c = (.ok s, c')) :
    (∃ n, s = some n ∧ 0 ≤ n) ∨ (s = none ∧ e.byteSize = none) := by
  have eval : ∀ {kd : SeqKind} {x : Option String} {ns : Namespace} {n : Int}, evalSize E kd x ns = .ok n → 0 ≤ n := by
    intro kd x ns n h
    unfold evalSize at h
    split at h
    · split at h
      · cases h
      · split at h
        · cases h
        · exact checkSize_nonneg h
    · cases h
  unfold calcDataSize at h
  rw [hc.1, hc.2] at h
  simp only [truthyInt, Bool.false_eq_true, if_false] at h
  split at h
  · split at h
    · cases h
    · rename_i n hn
      cases h
      refine .inl ⟨n, rfl, ?_⟩
      unfold evalDataSize at hn
      split at hn
      · exact checkSize_nonneg hn
      · exact eval hn
  · rename_i hd
    split at h
    · split at h
      · rename_i hb
        cases h
        exact .inr ⟨rfl, hb⟩
      · rename_i es hes
        split at h
        · cases h
        · rename_i n hn
          cases h
          refine .inl ⟨_, rfl, Int.mul_nonneg ?_ (he _ hes)⟩
          unfold evalNumElements at hn
          split at hn
          · exact checkSize_nonneg hn
          · exact eval hn
    · rename_i hn
      simp [SeqInfo.hasDataSize] at hd
      simp [SeqInfo.hasNumElements] at hn
      simp [hd, hn] at hl

theorem calcDataSize_error {E : Env} {i : SeqInfo} {ei : ElemInfo} {c c' : Ctx}
    (h : calcDataSize E i ei c = (.error .tooSmall, c')) : False := by
  have size : ∀ {kd : SeqKind} {v : Option Val}, checkSize kd v ≠ .error .tooSmall := by
    intro kd v h
    rcases checkSize_error h with h | ⟨h, -⟩ <;> cases h
  have eval : ∀ {kd : SeqKind} {x : Option String} {ns : Namespace}, evalSize E kd x ns ≠ .error .tooSmall := by
    intro kd x ns
    unfold evalSize
    split
    · split
      · simp
      · split
        · simp
        · exact size
    · simp
  unfold calcDataSize at h
  split at h
  · cases h
  split at h
  · split at h
    · rename_i hx
      cases h
      unfold evalDataSize at hx
      split at hx
      · exact size hx
      · exact eval hx
    · cases h
  split at h
  · split at h
    · cases h
    · split at h
      · cases h
      · simp only at h
        split at h
        · rename_i hx
          cases h
          unfold evalNumElements at hx
          split at hx
          · exact size hx
          · exact eval hx
        · cases h
  · cases h

theorem mapValues_error {k : PrimKind} {vs : List Val} (h : mapValues k vs = .error .tooSmall) : False := by
  induction vs with
  | nil => cases h
  | cons v vs ih =>
    rw [mapValues] at h
    split at h
    · cases h
    · split at h
      · rename_i hx
        cases h
        exact ih hx
      · cases h

/-- What a type read at once leaves: the number of bytes it needs, if it can be told. -/
theorem atOnce_requested {E : Env} {nm : String} {o : Order} {d : Defn} {m : DMap} (hd : ReadAtOnce o d)
    (hm : createAs E nm o d = .ok m) (off depth : Nat) (c : Ctx) (hc : c.Clean) :
    (∃ n : Nat, ∀ bs : Bytes,
      (off + n ≤ bs.length → (mapStream E m bs off depth c).1 ≠ .error .tooSmall ∧
        ∀ v, (mapStream E m bs off depth c).1 = .ok v → (mapStream E m bs off depth c).2.byteSize = some n ∧
          (mapStream E m bs off depth c).2.requestedSize = some n) ∧
      (bs.length < off + n → (mapStream E m bs off depth c).1 = .error .tooSmall ∧
        (mapStream E m bs off depth c).2.requestedSize = some n)) ∨
    (∀ bs : Bytes, (mapStream E m bs off depth c).1 ≠ .error .tooSmall ∧ ∀ v, (mapStream E m bs off depth c).1 ≠ .ok v) := by
  have small : ∀ (bs : Bytes) (n : Nat), tooSmall bs off (n : Int) = decide (bs.length < off + n) := by
    intro bs n
    unfold tooSmall
    congr 1
    exact propext ⟨fun h => by omega, fun h => by omega⟩
  cases hd with
  | padding h a =>
    rw [createAs] at hm
    cases hm
    simp only [mapStream, paddingMap]
    rcases a with _ | a | a
    · exact .inr fun bs => ⟨by simp [calcPadding], by simp [calcPadding]⟩
    · exact .inr fun bs => ⟨by simp [calcPadding], by simp [calcPadding]⟩
    · obtain ⟨n, hn⟩ : ∃ n : Nat, paddingSize (off : Int) ((a : Int) + 1) = n := by
        have h1 := Int.emod_nonneg (off : Int) (show (a : Int) + 1 ≠ 0 by omega)
        have h2 := Int.emod_lt_of_pos (off : Int) (show 0 < (a : Int) + 1 by omega)
        refine ⟨(paddingSize (off : Int) ((a : Int) + 1)).toNat, ?_⟩
        rw [Int.toNat_of_nonneg]
        unfold paddingSize
        simp only
        split <;> omega
      refine .inl ⟨n, fun bs => ⟨fun hle => ?_, fun hlt => ?_⟩⟩
      · have : ¬ bs.length < off + n := by omega
        simp [calcPadding, hn, small, this]
      · simp [calcPadding, hn, small, hlt]
  | stream h i e hk hl he =>
    obtain ⟨-, -, em, -, -, hmm, -⟩ := createAs_seq hm
    have key : (∃ n : Nat, ∀ bs : Bytes,
        (off + n ≤ bs.length →
          (streamMap E i ⟨e.byteSize, e.isComposite, e.terminator?⟩ bs off c).1 ≠ .error .tooSmall ∧
          ∀ v, (streamMap E i ⟨e.byteSize, e.isComposite, e.terminator?⟩ bs off c).1 = .ok v →
            (streamMap E i ⟨e.byteSize, e.isComposite, e.terminator?⟩ bs off c).2.byteSize = some n ∧
            (streamMap E i ⟨e.byteSize, e.isComposite, e.terminator?⟩ bs off c).2.requestedSize = some n) ∧
        (bs.length < off + n →
          (streamMap E i ⟨e.byteSize, e.isComposite, e.terminator?⟩ bs off c).1 = .error .tooSmall ∧
          (streamMap E i ⟨e.byteSize, e.isComposite, e.terminator?⟩ bs off c).2.requestedSize = some n)) ∨
        (∀ bs : Bytes, (streamMap E i ⟨e.byteSize, e.isComposite, e.terminator?⟩ bs off c).1 ≠ .error .tooSmall ∧
          ∀ v, (streamMap E i ⟨e.byteSize, e.isComposite, e.terminator?⟩ bs off c).1 ≠ .ok v) := by
      obtain ⟨-, -, -, -, h5, -, -, h8, -⟩ := (Ctx.clean_iff c).1 hc
      unfold streamMap
      rcases hcalc : calcDataSize E i ⟨e.byteSize, e.isComposite, e.terminator?⟩ c with ⟨x | s, c'⟩
      · refine .inr fun bs => ⟨?_, fun v h => nomatch h⟩
        simp only
        intro hx
        cases x <;> first | exact calcDataSize_error hcalc | cases hx
      · rcases stream_requested ⟨h5, h8⟩ hl he hcalc with ⟨n, rfl, hn⟩ | ⟨rfl, hb⟩
        · obtain ⟨n, rfl⟩ := Int.eq_ofNat_of_zero_le hn
          refine .inl ⟨n, fun bs => ⟨fun hle => ?_, fun hlt => ?_⟩⟩
          · have : ¬ bs.length < off + n := by omega
            simp [small, this, Ctx.clear]
          · simp [small, hlt]
        · refine .inr fun bs => ?_
          simp only [hb]
          rcases i.terminator with _ | t <;> simp
    rw [hmm]
    cases hke : i.kind with
    | sequence => exact absurd hke hk
    | stream =>
      simp only [mapStream, hke]
      rcases key with ⟨n, key⟩ | key
      · refine .inl ⟨n, fun bs => ?_⟩
        have := key bs
        generalize streamMap E i _ bs off c = r at this ⊢
        rcases r with ⟨x | b, c'⟩ <;> simp_all
      · refine .inr fun bs => ?_
        have := key bs
        generalize streamMap E i _ bs off c = r at this ⊢
        rcases r with ⟨x | b, c'⟩ <;> simp_all
    | string enc =>
      simp only [mapStream, hke, stringMap]
      have cut : ∀ b, cutString i b ≠ .error .tooSmall := by
        intro b
        unfold cutString
        split <;> simp
      rcases key with ⟨n, key⟩ | key
      · refine .inl ⟨n, fun bs => ?_⟩
        have := key bs
        generalize streamMap E i _ bs off c = r at this ⊢
        rcases r with ⟨x | b, c'⟩
        · simp_all
        · have hcut := cut b
          simp only
          generalize cutString i b = r at hcut ⊢
          rcases r with x | b
          · simp_all
          · simp only
            cases E.decode enc b <;> simp_all
      · refine .inr fun bs => ?_
        have := key bs
        generalize streamMap E i _ bs off c = r at this ⊢
        rcases r with ⟨x | b, c'⟩ <;> simp_all
  | sequence h i e hk he hi hn =>
    obtain ⟨-, -, em, -, -, hmm, -⟩ := createAs_seq hm
    rw [hmm]
    have hlin : seqLinear i ⟨e.byteSize, e.isComposite, e.terminator?⟩ = true := atOnce_iff.2 ⟨he, hi⟩
    simp only [mapStream, hk, hlin, if_true, linearSeqMap]
    rcases hb : (Defn.seq h i e).byteSize with _ | n
    · exact .inr fun bs => ⟨by simp, by simp⟩
    · obtain ⟨n, rfl⟩ := Int.eq_ofNat_of_zero_le (hn n hb)
      refine .inl ⟨n, fun bs => ⟨fun hle => ?_, fun hlt => ?_⟩⟩
      · have : ¬ bs.length < off + n := by omega
        simp only [small, this, decide_false, Bool.false_eq_true, if_false]
        generalize (Option.bind _ _ : Option (List Val)) = r
        rcases r with _ | vs
        · simp
        · cases em with
          | prim ph pk ps pu =>
            simp only
            rcases hv : mapValues pk vs with x | xs
            · refine ⟨?_, fun v h => nomatch h⟩
              rintro hx
              cases hx
              exact mapValues_error hv
            · simp [Ctx.clear]
          | _ => simp
      · simp [small, hlt]
  | struct h ms hms ho hn =>
    obtain ⟨io, infos, maps, l, -, -, hlin, hmm, -⟩ := createAs_struct hm
    obtain rfl := linear_of_smooth hlin hms ho
    rw [hmm]
    simp only [mapStream, if_true, linearStructMap]
    rcases hb : (Defn.struct h ms).byteSize with _ | n
    · exact .inr fun bs => ⟨by simp, by simp⟩
    · obtain ⟨n, rfl⟩ := Int.eq_ofNat_of_zero_le (hn n hb)
      refine .inl ⟨n, fun bs => ⟨fun hle => ?_, fun hlt => ?_⟩⟩
      · have : ¬ bs.length < off + n := by omega
        simp only [small, this, decide_false, Bool.false_eq_true, if_false]
        generalize (Option.bind _ _ : Option (List Val)) = r
        rcases r with _ | vs
        · simp
        · simp only
          rcases linearValues infos maps vs with _ | xs
          · simp
          · simp only
            rcases newInstanceArgs _ xs with _ | attrs
            · simp
            · cases io <;> simp [Ctx.clear]
      · simp [small, hlt]

/-- If a type read at once needs more bytes than there are, the requested size is the
number of bytes it needs: with that many bytes it does not need more. -/
theorem C80_small_partial {E : Env} {nm : String} {o : Order} {d : Defn} {m : DMap} (hd : ReadAtOnce o d)
    (hm : createAs E nm o d = .ok m) (bs : Bytes) (off depth : Nat) (c : Ctx) (hc : c.Clean)
    (he : (mapStream E m bs off depth c).1 = .error .tooSmall) :
    ∃ n : Nat, (mapStream E m bs off depth c).2.requestedSize = some n ∧ bs.length < off + n ∧
      ∀ bs', (mapStream E m bs' off depth c).1 = .error .tooSmall ↔ bs'.length < off + n := by
  rcases atOnce_requested hd hm off depth c hc with ⟨n, h⟩ | h
  · refine ⟨n, ?_, ?_, fun bs' => ⟨fun h' => ?_, fun h' => ((h bs').2 h').1⟩⟩
    · rcases Nat.lt_or_ge bs.length (off + n) with hlt | hle
      · exact ((h bs).2 hlt).2
      · exact absurd he ((h bs).1 hle).1
    · rcases Nat.lt_or_ge bs.length (off + n) with hlt | hle
      · exact hlt
      · exact absurd he ((h bs).1 hle).1
    · rcases Nat.lt_or_ge bs'.length (off + n) with hlt | hle
      · exact hlt
      · exact absurd h' ((h bs').1 hle).1
  · exact absurd he (h bs).1

/-- If a type read at once, a scalar or a UUID gives a value, the requested size is the
number of bytes taken. -/
theorem C80_value_partial {E : Env} {nm : String} {o : Order} {d : Defn} {m : DMap} (hd : ReadAtOnce o d ∨ ReadAlone d)
    (hm : createAs E nm o d = .ok m) (bs : Bytes) (off depth : Nat) (c : Ctx) (hc : c.Clean) (v : Val)
    (hv : (mapStream E m bs off depth c).1 = .ok v) :
    ∃ n : Nat, (mapStream E m bs off depth c).2.requestedSize = some n ∧
      (mapStream E m bs off depth c).2.byteSize = some n := by
  rcases hd with hd | hd
  · rcases atOnce_requested hd hm off depth c hc with ⟨n, h⟩ | h
    · rcases Nat.lt_or_ge bs.length (off + n) with hlt | hle
      · rw [((h bs).2 hlt).1] at hv
        cases hv
      · obtain ⟨h1, h2⟩ := ((h bs).1 hle).2 v hv
        exact ⟨n, h2, h1⟩
    · exact absurd hv ((h bs).2 v)
  · have size : ∀ {s u n}, fixedByteSize s u = some n → 0 ≤ n := by
      intro s u n h
      unfold fixedByteSize at h
      split at h
      · cases h
      · split at h
        · cases h; omega
        · cases h
    cases hd with
    | prim h k s u =>
      have hm' : m = .prim { h with name := nm, order := o } k s u := by
        rw [createAs.eq_def] at hm
        simp only at hm
        split at hm
        · cases hm
        · cases hm; rfl
      subst hm'
      simp only [mapStream, primMap] at hv ⊢
      rcases hs : fixedByteSize s u with _ | n
      · rw [hs] at hv; cases hv
      · obtain ⟨n, rfl⟩ := Int.eq_ofNat_of_zero_le (size hs)
        rw [hs] at hv
        simp only at hv ⊢
        by_cases ht : tooSmall bs off n = true
        · rw [if_pos ht] at hv; cases hv
        · rw [if_neg ht] at hv ⊢
          generalize primRead E _ k s (bs.drop off) = r at hv ⊢
          rcases r with _ | w
          · cases hv
          · exact ⟨n, rfl, rfl⟩
    | uuid h s u =>
      have hm' : m = .uuid { h with name := nm, order := o } s u := by
        rw [createAs] at hm
        cases hm
        rfl
      subst hm'
      simp only [mapStream, uuidMap] at hv ⊢
      rcases hs : fixedByteSize s u with _ | n
      · rw [hs] at hv; cases hv
      · obtain ⟨n, rfl⟩ := Int.eq_ofNat_of_zero_le (size hs)
        rw [hs] at hv
        simp only at hv ⊢
        by_cases ht : tooSmall bs off n = true
        · rw [if_pos ht] at hv; cases hv
        · rw [if_neg ht] at hv ⊢
          cases o with
          | native => exact ⟨n, rfl, rfl⟩
          | big =>
            simp only at hv ⊢
            by_cases hl : (slice bs off (off + 16)).length = 16
            · rw [if_pos hl]; exact ⟨n, rfl, rfl⟩
            · rw [if_neg hl] at hv; cases hv
          | little =>
            simp only at hv ⊢
            by_cases hl : (slice bs off (off + 16)).length = 16
            · rw [if_pos hl]; exact ⟨n, rfl, rfl⟩
            · rw [if_neg hl] at hv; cases hv

/-- Types read part by part leave the requested size alone, and so do scalars and UUIDs
if there are not enough bytes: it is that of an earlier call, if any. -/
theorem C80_left {E : Env} {nm : String} {o : Order} {d : Defn} {m : DMap} (hm : createAs E nm o d = .ok m) (bs : Bytes)
    (off depth : Nat) (c : Ctx) (hd : ReadByParts o d ∨
      (ReadAlone d ∧ (mapStream E m bs off depth c).1 = .error .tooSmall)) :
    (mapStream E m bs off depth c).2.requestedSize = c.requestedSize := by
  rcases hd with hd | ⟨hd, he⟩
  · cases hd with
    | sequence h i e hk hi =>
      obtain ⟨-, -, em, -, -, hmm, -⟩ := createAs_seq hm
      have hlin : ¬ seqLinear i ⟨e.byteSize, e.isComposite, e.terminator?⟩ = true := by
        rw [atOnce_iff]
        rintro ⟨h1, h2, h3, h4⟩
        rcases hi with hi | hi | hi | hi
        · rw [hi] at h1; cases h1
        · exact hi h2
        · exact hi h3
        · exact hi h4
      rw [hmm]
      simp only [mapStream, hk, hlin, Bool.false_eq_true, if_false]
      generalize (fun off c => mapStream E em bs off (depth + 1) c) = step
      unfold compositeSeqMap
      split
      · rfl
      · split
        · rfl
        · simp only
          split
          · rfl
          · rfl
          · split
            · rfl
            · split
              · rfl
              · rfl
    | struct h ms hms =>
      obtain ⟨io, infos, maps, l, -, -, hlin, hmm, -⟩ := createAs_struct hm
      cases l with
      | true => exact absurd ⟨noncomposite_of_linear hlin, smooth_of_linear hlin⟩ hms
      | false =>
        rw [hmm, mapStream]
        simp only [Bool.false_eq_true, if_false]
        split
        · rfl
        · split
          · rfl
          · split
            · rfl
            · rfl
            · split
              · rfl
              · rfl
    | group h base ident dflt ms =>
      obtain ⟨dm, bm, keys, maps, -, -, -, -, rfl⟩ := createAs_group hm
      rw [mapStream]
      simp only
      have first : ∀ r : Except Err Val × Ctx, r = (match c.memberIdentifier with
          | some id => (.ok id, c)
          | none =>
            match mapStream E bm bs off depth (c.sub.getD {}) with
            | (.error .tooSmall, sub) => (.error .tooSmall, { c with sub := some sub })
            | (.error e, sub) => (.error (wrapErr e), { c with sub := c.sub.map fun _ => sub })
            | (.ok v, sub) =>
              let ctx := { c with sub := c.sub.map fun _ => sub }
              match getAttr v ident with
              | .pyNone => (.error .mapping, ctx)
              | id => (.ok id, { ctx with memberIdentifier := some id })) → r.2.requestedSize = c.requestedSize := by
        rintro r rfl
        split
        · rfl
        · split
          · rfl
          · rfl
          · simp only
            split
            · rfl
            · rfl
      split
      · rename_i hr
        exact first _ hr.symm
      · rename_i id c' hr
        have h1 := first _ hr.symm
        simp only at h1
        split
        · split
          · exact h1
          · generalize mapNth E maps _ bs off depth _ = r
            rcases r with ⟨x | v, sub⟩
            · cases x <;> exact h1
            · exact h1
        · split
          · exact h1
          · generalize mapOpt E dm bs off depth _ = r
            rcases r with ⟨x | v, sub⟩
            · cases x <;> exact h1
            · exact h1
  · cases hd with
    | prim h k s u =>
      rw [createAs.eq_def] at hm
      simp only at hm
      split at hm
      · cases hm
      cases hm
      simp only [mapStream, primMap] at he ⊢
      split
      · rfl
      · rename_i n hn
        rw [hn] at he
        simp only at he
        split
        · rfl
        · rename_i ht
          rw [if_neg ht] at he
          generalize primRead E _ k s (bs.drop off) = r at he
          cases r <;> cases he
    | uuid h s u =>
      rw [createAs] at hm
      cases hm
      simp only [mapStream, uuidMap] at he ⊢
      split
      · rfl
      · rename_i n hn
        rw [hn] at he
        simp only at he
        split
        · rfl
        · rename_i ht
          rw [if_neg ht] at he
          cases o with
          | native => cases he
          | big | little =>
            simp only at he
            split at he <;> cases he

/-- A structure of two scalars that needs three bytes of which there are two, and a
stream of four bytes. -/
example : ReadAtOnce .native (.struct { name := "T" } [.member { name := "a" } exU8 none (some "uint8") none,
      .member { name := "b" } exU16 none (some "uint16") none]) ∧
    ∃ m, createMap exEnv (.struct { name := "T" } [.member { name := "a" } exU8 none (some "uint8") none,
      .member { name := "b" } exU16 none (some "uint16") none]) = .ok m ∧
    (mapStream exEnv m [1, 2] 0 0 {}).1 = .error .tooSmall ∧
    (mapStream exEnv m [1, 2] 0 0 {}).2.requestedSize = some 3 ∧
    ReadAtOnce .native (.seq { name := "s" } { kind := .stream, numElements := some 4 } exU8) := by
  refine ⟨.struct _ _ ?_ ?_ ?_, _, rfl, rfl, rfl, .stream _ _ _ (by simp) (by simp) ?_⟩
  · simp [Defn.isComposite, exU8, exU16, truthyStr]
  · rintro pre a b post h
    simp only [List.map_cons, List.map_nil, Defn.target, exU8, exU16, Defn.order?, Option.getD_some] at h
    rcases pre with _ | ⟨x, _ | ⟨y, pre⟩⟩
    · cases h; exact .inl rfl
    · cases h; exact .inl rfl
    · have := congrArg List.length h
      simp at this
      omega
  · rintro n h
    cases h
    decide
  · rintro n h
    cases h
    decide

/-- The claim is false for scalars: after `uint8` was mapped, `uint16` finds one byte, and
the requested size is still one. -/
theorem C80_scalar_refuted : ∃ m m' c, createMap exEnv exU8 = .ok m ∧ createMap exEnv exU16 = .ok m' ∧
    c = (mapStream exEnv m [1, 2] 0 0 {}).2 ∧ (mapStream exEnv m' [1, 2] 1 0 c).1 = .error .tooSmall ∧
    (mapStream exEnv m' [1, 2] 1 0 c).2.requestedSize = some 1 ∧
    (mapStream exEnv m' [1, 2] 1 0 {}).2.requestedSize = none :=
  ⟨_, _, _, rfl, rfl, rfl, rfl, rfl, rfl⟩

/-- It is false for structures that are not read at once: 23 bytes are taken, none are
requested. -/
theorem C80_structure_refuted : ∃ m v, createMap exEnv exStruct = .ok m ∧
    (mapStream exEnv m (List.replicate 23 1) 0 0 {}).1 = .ok v ∧
    (mapStream exEnv m (List.replicate 23 1) 0 0 {}).2.byteSize = some 23 ∧
    (mapStream exEnv m (List.replicate 23 1) 0 0 {}).2.requestedSize = none ∧
    (mapStream exEnv m (List.replicate 22 1) 0 0 {}).1 = .error .tooSmall ∧
    (mapStream exEnv m (List.replicate 22 1) 0 0 {}).2.requestedSize = none :=
  ⟨_, _, rfl, rfl, rfl, rfl, rfl, rfl⟩

/-- And for streams that end with a terminator: two bytes are taken, none are requested. -/
theorem C80_terminator_refuted : ∃ m, createMap exEnv
      (.seq { name := "s" } { kind := .stream, terminator := some (.bytes [0]) } exU8) = .ok m ∧
    (mapStream exEnv m [7, 0, 1] 0 0 {}).1 = .ok (.bytes [7, 0]) ∧
    (mapStream exEnv m [7, 0, 1] 0 0 {}).2.byteSize = some 2 ∧
    (mapStream exEnv m [7, 0, 1] 0 0 {}).2.requestedSize = none ∧
    (mapStream exEnv m [7, 7] 0 0 {}).1 = .error .tooSmall ∧
    (mapStream exEnv m [7, 7] 0 0 {}).2.requestedSize = none :=
  ⟨_, rfl, rfl, rfl, rfl, rfl, rfl⟩

end Dtf
