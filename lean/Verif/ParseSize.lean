import Verif.ParseFacts
/-!
The number of bytes parsed by definitions of fixed size.
-/
namespace Dtf

namespace Spec

/-- Definitions whose GetByteSize is the number of bytes MapByteStream takes: no
padding; declared sizes are positive and not given twice; a sequence with a data
size has elements whose size divides it; a sequence with a number of elements has
no terminator; structure members with the same type name have the same type. -/
def Plain : Defn → Prop
  | .padding _ _ => False
  | .seq _ info e =>
    (∀ k, info.dataSize = some k → 0 < k) ∧ (∀ k, info.numElements = some k → 0 < k) ∧
    (info.numElements.isSome → info.dataSize = none ∧ info.dataSizeExpr = none) ∧
    (info.kind = .sequence →
      (∀ k, info.dataSize = some k → ∃ s, e.byteSize = some s ∧ 0 < s ∧ s ∣ k) ∧
      (info.numElements.isSome → info.terminator = none))
  | .struct _ ms => DistinctTypes ms
  | _ => True

/-- The same for definitions that can have padding. -/
def PlainPadded (d : Defn) : Prop := (∃ h a, d = .padding h a) ∨ Plain d

mutual
/-- At the offset `off`, every structure that has padding, also as a member or an element,
starts at a multiple of the alignment sizes of its padding. -/
def Aligned (off : Int) (d : Defn) : Prop :=
  match d with
  | .struct _ ms => alignedFrom off off ms
  | .member _ d _ _ _ => Aligned off d
  | .seq _ _ e => ∀ i : Nat, Aligned (off + i * e.byteSize.getD 0) e
  | _ => True
termination_by structural d
/-- The members from the offset `pos` on of a structure that starts at `start`. -/
def alignedFrom (start pos : Int) (ds : List Defn) : Prop :=
  match ds with
  | [] => True
  | d :: ds =>
    match d with
    | .padding _ (some (a + 1)) =>
      ((a + 1 : Nat) : Int) ∣ start ∧ alignedFrom start (pos + paddingSize pos (a + 1)) ds
    | d => Aligned pos d ∧ alignedFrom start (pos + d.byteSize.getD 0) ds
termination_by structural ds
end

end Spec
open Spec

theorem paddingSize_nonneg (pos : Int) (a : Nat) : 0 ≤ paddingSize pos (a + 1) := by
  unfold paddingSize
  have := Int.emod_nonneg pos (b := (a + 1 : Int)) (by omega)
  have := Int.emod_lt_of_pos pos (b := (a + 1 : Int)) (by omega)
  simp only
  split <;> omega

theorem paddingSize_aligned {start pos : Int} {a : Nat} (h : ((a + 1 : Nat) : Int) ∣ start) :
    paddingSize (start + pos) (a + 1) = paddingSize pos (a + 1) := by
  obtain ⟨q, rfl⟩ := h
  have : (((a + 1 : Nat) : Int) * q + pos) % ((a : Int) + 1) = pos % ((a : Int) + 1) := by
    push_cast
    rw [Int.add_comm, Int.add_mul_emod_self_left]
  unfold paddingSize
  rw [this]

/-- A result that takes exactly `n` bytes at `off` of `len`. -/
def Exact {α : Type} (r : Except Err (α × Nat)) (len off : Nat) (n : Int) : Prop :=
  match r with
  | .ok (_, k) => (k : Int) = n ∧ (off : Int) + n ≤ len
  | .error e => e = .tooSmall → (len : Int) < off + n

theorem Exact.ne_tooSmall {α : Type} {len off : Nat} {n : Int} {e : Err} (h : e ≠ .tooSmall) :
    Exact (.error e : Except Err (α × Nat)) len off n := fun h' => absurd h' h

theorem tooSmall_exact {α : Type} (bs : Bytes) (off : Nat) (n : Int) (hn : 0 ≤ n)
    (r : Except Err (α × Nat)) (hr : ∀ v k, r = .ok (v, k) → k = n.toNat) (he : r ≠ .error .tooSmall) :
    Exact (if tooSmall bs off n then .error .tooSmall else r) bs.length off n := by
  cases hts : tooSmall bs off n
  · simp only [Bool.false_eq_true, if_false]
    unfold tooSmall at hts
    simp only [decide_eq_false_iff_not] at hts
    unfold Exact
    split
    · rename_i v k
      have := hr v k rfl
      omega
    · rename_i e
      intro h
      subst h
      exact absurd rfl he
  · unfold tooSmall at hts
    simp only [decide_eq_true_eq] at hts
    simp only [if_true]
    intro _
    omega

/-- A sequence of `N` elements of `es` bytes. -/
theorem seqParse_exact (step : Nat → PRes) (len : Nat) (es : Int) (hes : 0 < es) (N : Nat)
    (ds : Option Int) (hds : ds = none ∨ ds = some (N * es))
    (Q : Int → Prop) (hQ : ∀ off, Q off → Q (off + es)) (hstep : ∀ off, Q (off : Nat) → Exact (step off) len off es)
    (fuel off used index : Nat) (last : Val) (hi : index ≤ N) (hu : (used : Int) = index * es) (hq : Q off) :
    match seqParse step len (some (N : Int)) ds none fuel off used index last with
    | .ok (_, u) => (u : Int) = N * es ∧ (off ≤ len → (off : Int) + ((N : Int) - index) * es ≤ len) ∧
        (index < N → off ≤ len)
    | .error e => e = .tooSmall → (len : Int) < off + ((N : Int) - index) * es := by
  induction fuel generalizing off used index last with
  | zero => simp [seqParse]
  | succ fuel ih =>
    rw [seqParse]
    by_cases hN : index = N
    · subst hN
      simp only [atNumber, beq_self_eq_true, Bool.or_true, Bool.true_or, if_true, seqEnd, Bool.not_true,
        Bool.and_false, Bool.false_eq_true, if_false]
      refine ⟨hu, ?_, by omega⟩
      intro h
      rw [Int.sub_self, Int.zero_mul]
      omega
    · have hlt : index < N := by omega
      have hn : atNumber (some (N : Int)) index = false := by
        simp [atNumber]; omega
      have hmul : es ≤ ((N : Int) - index) * es := by
        have : (1 : Int) * es ≤ ((N : Int) - index) * es :=
          Int.mul_le_mul_of_nonneg_right (by omega) (by omega)
        omega
      have hd : atDataSize ds used = false := by
        rcases hds with rfl | rfl
        · rfl
        · simp only [atDataSize, decide_eq_false_iff_not]
          rw [Int.sub_mul] at hmul
          omega
      simp only [hn, hd, Bool.or_false, decide_eq_true_eq]
      by_cases hl : len ≤ off
      · rw [if_pos hl]
        simp only [seqEnd, Option.isSome_some, hn, Bool.not_false, Bool.and_self, if_true]
        intro _
        omega
      · rw [if_neg hl]
        have hs := hstep off hq
        rcases hv : step off with e | ⟨v, n⟩
        · rw [hv] at hs
          intro h
          have := hs (by cases e <;> simp_all [wrapErr])
          omega
        · rw [hv] at hs
          simp only
          obtain ⟨h1, h2⟩ := hs
          simp only [atTerm, Bool.false_eq_true, if_false]
          have hi' := ih (off + n) (used + n) (index + 1) v (by omega)
            (by push_cast; rw [hu, h1, Int.add_mul]; omega)
            (by have := hQ _ hq; rw [← h1] at this; exact_mod_cast this)
          have harith : ((N : Int) - index) * es = es + ((N : Int) - (index + 1 : Nat)) * es := by
            push_cast
            rw [Int.sub_mul, Int.sub_mul, Int.add_mul]
            omega
          generalize ((N : Int) - (index + 1 : Nat)) * es = r at *
          rcases hr : seqParse step len (some (N : Int)) ds none fuel (off + n) (used + n)
            (index + 1) v with e | ⟨vs, u⟩
          · rw [hr] at hi'
            intro h
            have := hi' h
            omega
          · rw [hr] at hi'
            simp only at hi' ⊢
            omega

theorem structSize_cons {d : Defn} (h : ∀ h a, d ≠ .padding h (some (a + 1))) (tot : Int) (ms : List Defn) :
    structSize tot (d :: ms) = (match d.byteSize with
      | none => none
      | some s => structSize (tot + s) ms) := by
  conv => lhs; unfold structSize
  split
  · exact absurd rfl (h _ _)
  · rfl

theorem alignedFrom_cons {d : Defn} (h : ∀ h a, d ≠ .padding h (some (a + 1))) (start pos : Int)
    (ms : List Defn) : alignedFrom start pos (d :: ms) =
      (Aligned pos d ∧ alignedFrom start (pos + d.byteSize.getD 0) ms) := by
  conv => lhs; unfold alignedFrom
  split
  · exact absurd rfl (h _ _)
  · rfl

theorem target_byteSize {d : Defn} {s : Int} (hs : d.byteSize = some s) :
    d.target.byteSize = some s ∧ truthyStr d.memInfo.condition = false := by
  cases d <;> simp only [Defn.target, Defn.memInfo] <;> try exact ⟨hs, rfl⟩
  simp only [Defn.byteSize] at hs
  split at hs
  · cases hs
  · rename_i hc; exact ⟨hs, by simpa using hc⟩

theorem aligned_target {off : Int} {d : Defn} (h : Aligned off d) : Aligned off d.target := by
  cases d <;> exact h

theorem structSize_le (ms : List Defn) (hms : ∀ d ∈ ms, ∀ s, d.target.byteSize = some s → 0 ≤ s)
    (tot n : Int) (h : structSize tot ms = some n) : tot ≤ n := by
  induction ms generalizing tot with
  | nil => simp [structSize] at h; omega
  | cons d ms ih =>
    have ih := ih fun d hd => hms d (List.mem_cons_of_mem _ hd)
    by_cases hpad : ∃ h a, d = .padding h (some (a + 1))
    · obtain ⟨h', a, rfl⟩ := hpad
      simp only [structSize] at h
      have := ih _ h
      have := paddingSize_nonneg tot a
      omega
    · rw [structSize_cons (fun h a e => hpad ⟨h, a, e⟩)] at h
      split at h
      · cases h
      rename_i s hs
      have := hms d List.mem_cons_self s (target_byteSize hs).1
      have := ih _ h
      omega

/-- The members of a structure. -/
theorem parseMembers_exact (E : Env) (cls : String) (so : Order) (bs : Bytes) (depth : Nat)
    (outer : Namespace) (ms : List Defn)
    (hms : ∀ d ∈ ms, ∀ s, d.target.byteSize = some s → 0 ≤ s ∧
      ∀ n o m, createAs E n o d.target = .ok m → ∀ off depth ns, Aligned (off : Nat) d.target →
        Exact (parse E m bs off depth ns) bs.length off s)
    (maps : List DMap) (hmo : All2 (MapOf E cls so) ms maps) (tot n : Int)
    (hsz : structSize tot ms = some n) (start : Int) (off used : Nat) (attrs : List (String × Val))
    (hpos : start + tot = off) (ha : alignedFrom start off ms) :
    match parseMembers E cls bs depth outer (ms.map Defn.memInfo) maps off used attrs with
    | .ok (_, u) => (u : Int) = used + (n - tot) ∧ (off ≤ bs.length → (off : Int) + (n - tot) ≤ bs.length) ∧
        (ms ≠ [] → off ≤ bs.length)
    | .error e => e = .tooSmall → (bs.length : Int) < off + (n - tot) := by
  induction hmo generalizing tot off used attrs with
  | nil =>
    simp [structSize] at hsz
    subst hsz
    simp [parseMembers]
  | @cons d m ms maps hm hmo ih =>
    have ih := ih (fun d hd => hms d (List.mem_cons_of_mem _ hd))
    have hgo : ∀ s : Int, structSize (tot + s) ms = some n → 0 ≤ s → tot + s ≤ n →
        truthyStr d.memInfo.condition = false →
        alignedFrom start (off + s) ms →
        Exact (parse E m bs off (depth + 1) (structNs cls attrs outer)) bs.length off s →
        match parseMembers E cls bs depth outer ((d :: ms).map Defn.memInfo) (m :: maps) off used attrs with
        | .ok (_, u) => (u : Int) = used + (n - tot) ∧
            (off ≤ bs.length → (off : Int) + (n - tot) ≤ bs.length) ∧ (d :: ms ≠ [] → off ≤ bs.length)
        | .error e => e = .tooSmall → (bs.length : Int) < off + (n - tot) := by
      intro s hsz hs0 hle hcond ha hx
      rw [List.map_cons, parseMembers]
      have hc : ∀ ns, evalCondition E d.memInfo ns = .ok true := by
        intro ns; unfold evalCondition; rw [hcond]; rfl
      simp only [hc]
      rcases hv : parse E m bs off (depth + 1) (structNs cls attrs outer) with e | ⟨v, k⟩
      · rw [hv] at hx
        intro h
        have := hx (by cases e <;> simp_all [wrapErr])
        omega
      · rw [hv] at hx
        obtain ⟨h1, h2⟩ := hx
        simp only
        by_cases hvo : (!valueOk d.memInfo v) = true
        · rw [if_pos hvo]; intro h; cases h
        · rw [if_neg hvo]
          have := ih (tot + s) hsz (off + k) (used + k) (setAttr attrs d.memInfo.name v) (by omega)
            (by rw [← h1] at ha; exact_mod_cast ha)
          split
          · rename_i hr
            rw [hr] at this
            simp only at this ⊢
            obtain ⟨h3, h4, -⟩ := this
            refine ⟨by omega, fun _ => ?_, fun _ => by omega⟩
            have := h4 (by omega)
            omega
          · rename_i hr
            rw [hr] at this
            intro h
            have := this h
            omega
    have hms0 : ∀ x ∈ d :: ms, ∀ s, x.target.byteSize = some s → 0 ≤ s :=
      fun d hd s hs => (hms d hd s hs).1
    by_cases hpad : ∃ h a, d = .padding h (some (a + 1))
    · obtain ⟨h, a, rfl⟩ := hpad
      obtain ⟨n', o', -, hcr⟩ := hm
      simp only [Defn.target, createAs, Except.ok.injEq] at hcr
      subst hcr
      simp only [structSize] at hsz
      simp only [alignedFrom] at ha
      have heq : paddingSize tot (a + 1) = paddingSize off (a + 1) := by
        rw [← hpos, paddingSize_aligned ha.1]
      have hle := structSize_le ms (fun d hd => hms0 d (List.mem_cons_of_mem _ hd)) _ n hsz
      refine hgo (paddingSize tot (a + 1)) hsz (paddingSize_nonneg _ _) hle rfl (heq ▸ ha.2) ?_
      simp only [parse, paddingParse, calcPadding, ← heq]
      exact tooSmall_exact _ _ _ (paddingSize_nonneg _ _) _ (by intro v k h; cases h; rfl) (by simp)
    · have hpad : ∀ h a, d ≠ .padding h (some (a + 1)) := fun h a e => hpad ⟨h, a, e⟩
      rw [structSize_cons hpad] at hsz
      rw [alignedFrom_cons hpad] at ha
      split at hsz
      · cases hsz
      rename_i s hs
      have htgt := target_byteSize hs
      obtain ⟨hs0, hex⟩ := hms d List.mem_cons_self s htgt.1
      obtain ⟨n', o', -, hcr⟩ := hm
      have hle := structSize_le ms (fun d hd => hms0 d (List.mem_cons_of_mem _ hd)) _ n hsz
      exact hgo s hsz hs0 hle htgt.2 (by have := ha.2; rw [hs] at this; exact this)
        (hex _ _ _ hcr off (depth + 1) (structNs cls attrs outer) (aligned_target ha.1))

theorem checkSize_pos (kd : SeqKind) (k : Int) (h : 0 < k) : checkSize kd (some (.int k)) = .ok k := by
  simp [checkSize]; omega

theorem evalDataSize_pos (E : Env) (info : SeqInfo) (ns : Namespace) (k : Int) (hk : 0 < k)
    (h : info.dataSize = some k) : evalDataSize E info ns = .ok k := by
  have : k ≠ 0 := by omega
  simp [evalDataSize, h, truthyInt, this, checkSize_pos _ k hk]

theorem evalNumElements_pos (E : Env) (info : SeqInfo) (ns : Namespace) (k : Int) (hk : 0 < k)
    (h : info.numElements = some k) : evalNumElements E info ns = .ok k := by
  have : k ≠ 0 := by omega
  simp [evalNumElements, h, truthyInt, this, checkSize_pos _ k hk]

/-- The sizes a plain sequence definition of known size can have. -/
theorem seq_byteSize {h : Hdr} {info : SeqInfo} {e : Defn} {n : Int} (hp : Plain (.seq h info e))
    (hs : (Defn.seq h info e).byteSize = some n) :
    (info.dataSize = some n ∧ 0 < n) ∨
    (∃ k s, info.dataSize = none ∧ info.dataSizeExpr = none ∧ info.numElements = some k ∧ 0 < k ∧
      e.byteSize = some s ∧ s ≠ 0 ∧ n = s * k) := by
  obtain ⟨h1, h2, h3, -⟩ := hp
  simp only [Defn.byteSize] at hs
  split at hs
  · exact .inl ⟨hs, h1 n hs⟩
  · split at hs
    · split at hs
      · split at hs
        · cases hs
        · rename_i hnum s hes hs0
          simp only [Option.map_eq_some_iff] at hs
          obtain ⟨k, hk, rfl⟩ := hs
          have := h3 (by rw [hk]; rfl)
          exact .inr ⟨k, s, this.1, this.2, hk, h2 k hk, hes, hs0, rfl⟩
      · cases hs
    · cases hs

/-- A definition of size `n` takes exactly `n` bytes where it is aligned. -/
theorem parse_aligned (E : Env) (bs : Bytes) (d : Defn) (hd : d.Every PlainPadded) (n : Int)
    (hn : d.byteSize = some n) : 0 ≤ n ∧ ∀ nm o m, createAs E nm o d = .ok m →
      ∀ off depth ns, Aligned (off : Nat) d → Exact (parse E m bs off depth ns) bs.length off n := by
  revert n
  suffices h : (∀ n, d.byteSize = some n → 0 ≤ n ∧ ∀ nm o m, createAs E nm o d = .ok m →
      ∀ off depth ns, Aligned (off : Nat) d → Exact (parse E m bs off depth ns) bs.length off n) ∧
    (∀ n, d.target.byteSize = some n → 0 ≤ n ∧ ∀ nm o m, createAs E nm o d.target = .ok m →
      ∀ off depth ns, Aligned (off : Nat) d.target → Exact (parse E m bs off depth ns) bs.length off n) from h.1
  induction d using Defn.ind with
  | prim h k s u =>
    refine and_self_iff.mpr ?_
    intro n hn
    simp only [Defn.byteSize] at hn
    obtain ⟨N, hN⟩ := fixedByteSize_nat hn
    refine ⟨by omega, ?_⟩
    intro nm o m hm off depth ns hal
    simp only [createAs] at hm
    split at hm
    · cases hm
    cases hm
    simp only [parse, primParse, hn]
    apply tooSmall_exact _ _ _ (by omega)
    · intro v k' hv
      split at hv <;> cases hv
      rfl
    · split <;> simp
  | uuid h s u =>
    refine and_self_iff.mpr ?_
    intro n hn
    simp only [Defn.byteSize] at hn
    obtain ⟨N, hN⟩ := fixedByteSize_nat hn
    refine ⟨by omega, ?_⟩
    intro nm o m hm off depth ns hal
    simp only [createAs, Except.ok.injEq] at hm
    subst hm
    simp only [parse, uuidParse, hn]
    apply tooSmall_exact _ _ _ (by omega)
    · intro v k' hv
      split at hv
      · cases hv; rfl
      · split at hv <;> cases hv; rfl
      · split at hv <;> cases hv; rfl
    · split
      · simp
      · split <;> simp
      · split <;> simp
  | padding h a =>
    refine and_self_iff.mpr ?_
    intro n hn
    simp [Defn.byteSize] at hn
  | seq h info e ih =>
    refine and_self_iff.mpr ?_
    intro n hn
    have hp := hd.self.resolve_left (by rintro ⟨_, _, h⟩; cases h)
    simp only [Defn.Every] at hd
    have ih := (ih hd.2).1
    have hcases := seq_byteSize hp hn
    obtain ⟨hp1, hp2, hp3, hp4⟩ := hp
    have hn0 : 0 < n := by
      rcases hcases with ⟨-, h⟩ | ⟨k, s, -, -, -, hk, hs, hs0, rfl⟩
      · exact h
      · exact Int.mul_pos (by have := (ih s hs).1; omega) hk
    refine ⟨by omega, ?_⟩
    intro nm o m hm off depth ns hal
    obtain ⟨n', eo, em, hem, -, rfl, -⟩ := createAs_seq hm
    have hstream : streamSize E info ⟨e.byteSize, e.isComposite, e.terminator?⟩ ns = .ok (some n) := by
      rcases hcases with ⟨h1, -⟩ | ⟨k, s, h1, h2, h3, hk, hs, hs0, rfl⟩
      · simp [streamSize, SeqInfo.hasDataSize, h1, evalDataSize_pos E info ns n hn0 h1]
      · simp [streamSize, SeqInfo.hasDataSize, SeqInfo.hasNumElements, h1, h2, h3, hs,
          evalNumElements_pos E info ns k hk h3, Int.mul_comm s k]
    have hsp : streamParse E info ⟨e.byteSize, e.isComposite, e.terminator?⟩ bs off ns =
        if tooSmall bs off n then .error .tooSmall else .ok (slice bs off (off + n.toNat), n.toNat) := by
      simp only [streamParse, hstream]
    simp only [parse]
    split
    · rw [hsp]
      cases hts : tooSmall bs off n
      · have := tooSmall_exact bs off n (by omega)
          (.ok (Val.bytes (slice bs off (off + n.toNat)), n.toNat)) (by intro v k h; cases h; rfl) (by simp)
        rw [hts] at this
        exact this
      · have := tooSmall_exact (α := Val) bs off n (by omega) (.error .mapping) (by simp) (by simp)
        rw [hts] at this
        exact this
    · rename_i enc hk
      unfold stringParse
      rw [hsp]
      cases hts : tooSmall bs off n
      · have := tooSmall_exact (α := Val) bs off n (by omega) 
          (match cutString info (slice bs off (off + n.toNat)) with
            | .error e => .error e
            | .ok b =>
              match E.decode enc b with
              | none => .error .mapping
              | some cs => .ok (.str cs, n.toNat)) ?_ ?_
        · rw [hts] at this
          exact this
        · intro v k h
          split at h
          · cases h
          · split at h <;> cases h; rfl
        · split
          · rename_i er her
            unfold cutString at her
            split at her <;> cases her
            simp
          · split <;> simp
      · have := tooSmall_exact (α := Val) bs off n (by omega) (.error .mapping) (by simp) (by simp)
        rw [hts] at this
        exact this
    · rename_i hk
      split
      · unfold linearSeqParse
        rw [hn]
        apply tooSmall_exact _ _ _ (by omega)
        · intro v k h
          split at h
          · cases h
          · split at h
            · split at h <;> cases h; rfl
            · cases h
        · have hmv : ∀ k vs er, mapValues k vs = .error er → er = .value := by
            intro k vs
            induction vs with
            | nil => intro er h; cases h
            | cons v vs ih =>
              intro er h
              rw [mapValues] at h
              split at h
              · cases h; rfl
              · split at h
                · rename_i hh; cases h; exact ih _ hh
                · cases h
          split
          · simp
          · split
            · split
              · rename_i hh; rw [hmv _ _ _ hh]; simp
              · simp
            · simp
      · rename_i hl
        unfold compositeSeqParse
        split
        · exact Exact.ne_tooSmall (by simp)
        have hrule : ∃ ds, ∃ N : Nat, ∃ es, (seqRules E info ⟨e.byteSize, e.isComposite, e.terminator?⟩ ns).1 =
            .ok (ds, none, some (N : Int)) ∧ 0 < es ∧ e.byteSize = some es ∧ 0 < N ∧ (N : Int) * es = n ∧
            (ds = none ∨ ds = some (N * es)) := by
          rcases hcases with ⟨h1, -⟩ | ⟨k, s, h1, h2, h3, hk', hs, hs0, rfl⟩
          · obtain ⟨es, hes, hespos, q, rfl⟩ := (hp4 hk).1 n h1
            have hq : 0 < q := by
              apply Classical.byContradiction
              intro hq
              have : es * q ≤ es * 0 := Int.mul_le_mul_of_nonneg_left (by omega) (by omega)
              omega
            have hqq : Int.fdiv (es * q) es = q := Int.mul_fdiv_cancel_left q (by omega)
            have hcast : ((q.toNat : Nat) : Int) = q := by omega
            refine ⟨some (es * q), q.toNat, es, ?_, hespos, hes, by omega, ?_, ?_⟩
            · have hne : es ≠ 0 := by omega
              simp [seqRules, SeqInfo.hasDataSize, h1, evalDataSize_pos E info ns _ hn0 h1, hes, hne, hqq,
                hcast]
            · rw [hcast, Int.mul_comm]
            · right; rw [hcast, Int.mul_comm]
          · have ht := (hp4 hk).2 (by rw [h3]; rfl)
            have hcast : ((k.toNat : Nat) : Int) = k := by omega
            refine ⟨none, k.toNat, s, ?_, ?_, hs, by omega, ?_, .inl rfl⟩
            · simp [seqRules, countable, SeqInfo.hasDataSize, SeqInfo.hasNumElements, h1, h2, h3, ht,
                evalNumElements_pos E info ns k hk' h3, hcast]
            · have := (ih s hs).1; omega
            · rw [hcast, Int.mul_comm]
        obtain ⟨ds, N, es, hr, hespos, hes, hN, hNn, hdsz⟩ := hrule
        rw [hr]
        simp only
        have := seqParse_exact (fun off => parse E em bs off (depth + 1) []) bs.length es hespos N ds hdsz
          (fun p => ∀ i : Nat, Aligned (p + i * es) e)
          (fun p hp i => by
            have := hp (i + 1)
            rw [show p + ((i + 1 : Nat) : Int) * es = p + es + i * es by push_cast; rw [Int.add_mul]; omega] at this
            exact this)
          (fun off hq => (ih es hes).2 _ _ _ hem off _ _ (by simpa using hq 0)) (seqFuel bs.length off (some (N : Int)) 0) off 0 0
          .pyNone (by omega) (by simp) (by simpa only [Aligned, hes, Option.getD_some] using hal)
        split
        · rename_i hh
          rw [hh] at this
          intro h
          have := this h
          simp only [Int.natCast_zero, Int.sub_zero] at this
          omega
        · rename_i hh
          rw [hh] at this
          simp only [Int.natCast_zero, Int.sub_zero] at this
          exact ⟨by omega, by have := this.2.1 (this.2.2 hN); omega⟩
  | struct h ms ih =>
    refine and_self_iff.mpr ?_
    intro n hn
    have hp := hd.self.resolve_left (by rintro ⟨_, _, h⟩; cases h)
    simp only [Defn.Every, everyDefn_iff] at hd
    have ih := fun d hdm => (ih d hdm (hd.2 d hdm)).2
    have hsz : ms ≠ [] ∧ structSize 0 ms = some n := by
      cases ms with
      | nil => simp [Defn.byteSize] at hn
      | cons d ms => exact ⟨by simp, by simpa only [Defn.byteSize] using hn⟩
    have hn0 : 0 ≤ n := structSize_le ms (fun d hdm s hs => (ih d hdm s hs).1) 0 n hsz.2
    refine ⟨hn0, ?_⟩
    intro nm o m hm off depth ns hal
    obtain ⟨io, infos, maps, l, -, hmem, -, rfl, -⟩ := createAs_struct hm
    have hinf := (createMembers_all E nm o (fun _ => True) ms (by simp) [] (by simp) infos maps hmem).1
    have hmo := createMembers_mapOf E nm o ms hp ms (fun d hd => hd) [] (by simp) _ _ hmem
    simp only [parse]
    split
    · unfold linearStructParse
      rw [hn]
      apply tooSmall_exact _ _ _ hn0
      · intro v k h
        split at h
        · cases h
        split at h
        · cases h
        split at h
        · cases h
        split at h <;> cases h
        rfl
      · split
        · simp
        split
        · simp
        split
        · simp
        split <;> simp
    · split
      · exact Exact.ne_tooSmall (by simp)
      split
      · exact Exact.ne_tooSmall (by simp)
      split
      · rename_i hlen
        rw [hinf, List.length_map] at hlen
        exact absurd (List.eq_nil_of_length_eq_zero hlen) hsz.1
      · have := parseMembers_exact E nm o bs depth ns ms ih maps hmo 0 n hsz.2 off off 0
          (newInstance (infos.map (·.name))) (by omega) (by simpa only [Aligned] using hal)
        rw [← hinf] at this
        split
        · rename_i hh
          rw [hh] at this
          intro h
          have := this h
          omega
        · rename_i hh
          rw [hh] at this
          simp only [Int.natCast_zero, Int.sub_zero] at this
          exact ⟨by omega, by have := this.2.1 (this.2.2 hsz.1); omega⟩
  | union h ms ih =>
    refine and_self_iff.mpr ?_
    intro n hn
    refine ⟨?_, ?_⟩
    · have hp : ∀ (ms : List Defn) (tot : Int), 0 ≤ tot → unionSize tot ms = some n → 0 ≤ n := by
        intro ms
        induction ms with
        | nil => intro tot h1 h2; simp [unionSize] at h2; omega
        | cons d ms ih' =>
          intro tot h1 h2
          rw [unionSize] at h2
          split at h2
          · cases h2
          · exact ih' _ (by omega) h2
      cases ms with
      | nil => simp [Defn.byteSize] at hn
      | cons d ms => simp only [Defn.byteSize] at hn; exact hp _ 0 (by omega) hn
    · intro nm o m hm off depth ns hal
      simp only [createAs, Except.ok.injEq] at hm
      subst hm
      simp only [parse]
      exact Exact.ne_tooSmall (by simp)
  | member h d c dt vs ih =>
    simp only [Defn.Every] at hd
    have ih := ih hd.2
    refine ⟨?_, ih.1⟩
    intro n hn
    simp only [Defn.byteSize] at hn
    split at hn
    · cases hn
    refine ⟨(ih.1 n hn).1, ?_⟩
    intro nm o m hm off depth ns hal
    simp only [createAs, Except.ok.injEq] at hm
    subst hm
    simp only [parse]
    exact Exact.ne_tooSmall (by simp)
  | _ =>
    refine and_self_iff.mpr ?_
    intro n hn
    simp [Defn.byteSize] at hn

theorem Spec.Plain.padded {d : Defn} (h : Plain d) : PlainPadded d := .inr h

/-- Without padding every offset is aligned. -/
theorem aligned_plain (d : Defn) (hd : d.Every Plain) : (∀ off, Aligned off d) ∧ ∀ off, Aligned off d.target := by
  induction d using Defn.ind with
  | seq h info e ih =>
    simp only [Defn.Every] at hd
    refine and_self_iff.mpr ?_
    intro off
    simp only [Aligned]
    exact fun i => (ih hd.2).1 _
  | struct h ms ih =>
    simp only [Defn.Every, everyDefn_iff] at hd
    refine and_self_iff.mpr ?_
    intro off
    simp only [Aligned]
    have : ∀ (ms : List Defn), (∀ d ∈ ms, d.Every Plain ∧ ∀ off, Aligned off d) →
        ∀ start pos, alignedFrom start pos ms := by
      intro ms
      induction ms with
      | nil => intro _ _ _; simp only [alignedFrom]
      | cons d ms ih =>
        intro h start pos
        rw [alignedFrom_cons]
        · exact ⟨(h d List.mem_cons_self).2 _, ih (fun d hd => h d (List.mem_cons_of_mem _ hd)) _ _⟩
        · rintro h' a rfl
          exact (h _ List.mem_cons_self).1.self
    exact this ms (fun d hdm => ⟨hd.2 d hdm, (ih d hdm (hd.2 d hdm)).1⟩) _ _
  | member h d c dt vs ih =>
    simp only [Defn.Every] at hd
    refine ⟨fun off => ?_, (ih hd.2).1⟩
    simp only [Aligned]
    exact (ih hd.2).1 off
  | _ =>
    refine and_self_iff.mpr ?_
    intro off
    simp only [Aligned]

/-- A plain definition of size `n` takes exactly `n` bytes. -/
theorem parse_exact (E : Env) (bs : Bytes) (d : Defn) (hd : d.Every Plain) (n : Int)
    (hn : d.byteSize = some n) : 0 ≤ n ∧ ∀ nm o m, createAs E nm o d = .ok m →
      ∀ off depth ns, Exact (parse E m bs off depth ns) bs.length off n := by
  have h := parse_aligned E bs d (Defn.Every.imp (fun _ h => h.padded) d hd) n hn
  exact ⟨h.1, fun nm o m hm off depth ns => h.2 nm o m hm off depth ns ((aligned_plain d hd).1 off)⟩

end Dtf
