import Verif.ParseLocal
import Verif.Linear
/-!
The least and the greatest number of bytes the values of a data type take, from
its declared sizes alone.
-/
namespace Dtf

namespace Spec

/-- The smaller of two numbers, where `none` stands for no number. -/
def optMin : Option Nat → Option Nat → Option Nat
  | some a, some b => some (min a b)
  | some a, none => some a
  | none, b => b

/-- Sum of two numbers, if both are known. -/
def optAdd : Option Nat → Option Nat → Option Nat
  | some a, some b => some (a + b)
  | _, _ => none

/-- The larger of two numbers, if both are known. -/
def optMax : Option Nat → Option Nat → Option Nat
  | some a, some b => some (max a b)
  | _, _ => none

/-- A sequence of primitive values without expressions and terminator. -/
def oneRead (info : SeqInfo) (e : Defn) : Bool :=
  !(e.isComposite || info.dataSizeExpr.isSome || info.terminator.isSome ||
    info.numElementsExpr.isSome)

mutual
/-- The least number of bytes a data type takes: fixed sizes count in full,
expressions, members with a condition and padding count nothing, a terminated
stream or sequence has one element, and a group is as small as its smallest
member. -/
def fewest : Defn → Nat
  | .prim _ _ s u => ((fixedByteSize s u).getD 0).toNat
  | .uuid _ s u => ((fixedByteSize s u).getD 0).toNat
  | .seq h info e =>
    match info.kind with
    | .sequence =>
      if oneRead info e then ((Defn.seq h info e).byteSize.getD 0).toNat
      else if info.dataSize.isSome || info.dataSizeExpr.isSome then 0
      else if info.terminator.isSome then fewest e
      else (info.numElements.getD 0).toNat * fewest e
    | _ =>
      if info.dataSize.isSome then (info.dataSize.getD 0).toNat
      else if info.dataSizeExpr.isSome then 0
      else if info.numElements.isSome then (info.numElements.getD 0 * e.byteSize.getD 0).toNat
      else if info.numElementsExpr.isSome then 0
      else (e.byteSize.getD 0).toNat
  | .struct _ ms => fewestSum ms
  | .group _ _ _ dflt ms => (optMin (fewestDefault dflt) (fewestAny ms)).getD 0
  | .member _ d c _ _ => if truthyStr c then 0 else fewest d
  | _ => 0
termination_by structural d => d
def fewestSum : List Defn → Nat
  | [] => 0
  | d :: ds => fewest d + fewestSum ds
termination_by structural ds => ds
def fewestDefault : Option Defn → Option Nat
  | none => none
  | some d => some (fewest d)
termination_by structural d => d
def fewestAny : List Defn → Option Nat
  | [] => none
  | d :: ds => optMin (some (fewest d)) (fewestAny ds)
termination_by structural ds => ds
end

mutual
/-- The greatest number of bytes a data type takes, if there is one: fixed sizes
count in full, members with a condition as if they were there, padding at most
one byte less than its alignment; expressions and terminators leave it open; a
group is as large as its largest member. -/
def greatest : Defn → Option Nat
  | .prim _ _ s u => (fixedByteSize s u).map Int.toNat
  | .uuid _ s u => (fixedByteSize s u).map Int.toNat
  | .padding _ a => a.map (· - 1)
  | .seq h info e =>
    match info.kind with
    | .sequence =>
      if oneRead info e then (Defn.seq h info e).byteSize.map Int.toNat
      else if info.dataSize.isSome || info.dataSizeExpr.isSome || info.terminator.isSome then none
      else
        match info.numElements with
        | none => none
        | some k => if k = 0 then none else (greatest e).map (k.toNat * ·)
    | _ =>
      match info.dataSize with
      | some k => if k = 0 then none else some k.toNat
      | none =>
        if info.dataSizeExpr.isSome then none
        else
          match info.numElements, e.byteSize with
          | some k, some es => if k = 0 then none else some (k * es).toNat
          | _, _ => none
  | .struct _ ms => greatestSum ms
  | .group _ _ _ dflt ms => optMax (greatestDefault dflt) (greatestAny ms)
  | .member _ d _ _ _ => greatest d
  | .union _ _ | .family _ _ _ | .constant _ _ | .enumeration _ _ | .format _ _ _ => none
termination_by structural d => d
def greatestSum : List Defn → Option Nat
  | [] => some 0
  | d :: ds => optAdd (greatest d) (greatestSum ds)
termination_by structural ds => ds
def greatestDefault : Option Defn → Option Nat
  | none => some 0
  | some d => greatest d
termination_by structural d => d
def greatestAny : List Defn → Option Nat
  | [] => some 0
  | d :: ds => optMax (greatest d) (greatestAny ds)
termination_by structural ds => ds
end

end Spec
open Spec

/-- `n` bytes lie between the least and the greatest size of the type. -/
def Within (d : Defn) (n : Nat) : Prop := fewest d ≤ n ∧ ∀ k, greatest d = some k → n ≤ k

/-- The map takes a number of bytes within the bounds of the type. -/
def SizeWithin (E : Env) (bs : Bytes) (d : Defn) (m : DMap) : Prop :=
  ∀ off depth ns v n, parse E m bs off depth ns = .ok (v, n) → Within d n

theorem checkSize_int {kd : SeqKind} {k n : Int} (h : checkSize kd (some (.int k)) = .ok n) : n = k ∧ 0 ≤ k := by
  simp only [checkSize] at h
  split at h
  · cases h
  · cases h; exact ⟨rfl, by omega⟩

/-- A number of elements that is not zero is what it says. -/
theorem evalNum_const {E : Env} {info : SeqInfo} {ns : Namespace} {k n : Int}
    (hk : info.numElements = some k) (h0 : k ≠ 0) (h : evalNumElements E info ns = .ok n) :
    n = k ∧ 0 ≤ k := by
  simp only [evalNumElements, hk, truthyInt, h0, ne_eq, not_false_eq_true, bne_iff_ne,
    Option.map_some, if_true] at h
  exact checkSize_int h

theorem evalData_const {E : Env} {info : SeqInfo} {ns : Namespace} {k n : Int}
    (hk : info.dataSize = some k) (h0 : k ≠ 0) (h : evalDataSize E info ns = .ok n) :
    n = k ∧ 0 ≤ k := by
  simp only [evalDataSize, hk, truthyInt, h0, ne_eq, not_false_eq_true, bne_iff_ne,
    Option.map_some, if_true] at h
  exact checkSize_int h

/-- The elements of a sequence each take between `L` and `M` bytes. -/
theorem seqParse_sizes (step : Nat → PRes) (len : Nat) (num dataSize : Option Int)
    (term : Option Lit) (L M : Nat) (hstep : ∀ off v n, step off = .ok (v, n) → L ≤ n)
    (fuel off used index : Nat) (last : Val) (vs : List Val) (u : Nat)
    (h : seqParse step len num dataSize term fuel off used index last = .ok (vs, u)) :
    used + vs.length * L ≤ u ∧
    ((∀ off v n, step off = .ok (v, n) → n ≤ M) → u ≤ used + vs.length * M) ∧
    (∀ k, num = some k → (index : Int) + vs.length = k) := by
  have hend : ∀ index used last vs u, seqEnd num dataSize term index used last = .ok (vs, u) →
      vs = [] ∧ u = used ∧ ∀ k, num = some k → (index : Int) = k := by
    intro index used last vs u h
    refine ⟨(seqEnd_used h).1, (seqEnd_used h).2, ?_⟩
    rintro k rfl
    unfold seqEnd at h
    split at h
    · cases h
    · rename_i hn
      simpa [atNumber] using hn
  induction fuel generalizing off used index last vs u with
  | zero => cases h
  | succ fuel ih =>
    rw [seqParse] at h
    split at h
    · obtain ⟨rfl, rfl, h3⟩ := hend _ _ _ _ _ h
      exact ⟨by simp, fun _ => by simp, fun k hk => by simpa using h3 k hk⟩
    · split at h
      · cases h
      rename_i v n hs
      have hL := hstep _ _ _ hs
      split at h
      · cases h
      rename_i vs' u' hr
      cases h
      split at hr
      · obtain ⟨rfl, rfl, h3⟩ := hend _ _ _ _ _ hr
        refine ⟨by simpa using hL, fun hM => ?_, fun k hk => ?_⟩
        · have := hM _ _ _ hs; simp; omega
        · have := h3 k hk; simp; omega
      · obtain ⟨h1, h2, h3⟩ := ih _ _ _ _ _ _ hr
        simp only [List.length_cons, Nat.add_mul, Nat.one_mul]
        refine ⟨by omega, fun hM => ?_, fun k hk => ?_⟩
        · have := hM _ _ _ hs
          have := h2 hM
          omega
        · have := h3 k hk; omega

theorem seqParse_one (step : Nat → PRes) (len : Nat) (t : Lit) (fuel off : Nat) (last : Val)
    (hlast : atTerm (some t) last = false) (vs : List Val) (u : Nat)
    (h : seqParse step len none none (some t) fuel off 0 0 last = .ok (vs, u)) : 1 ≤ vs.length := by
  cases fuel with
  | zero => cases h
  | succ fuel =>
    rw [seqParse] at h
    split at h
    · unfold seqEnd at h
      simp only [atTerm] at hlast
      simp [hlast, atDataSize] at h
    · split at h
      · cases h
      split at h
      · cases h
      cases h
      simp

theorem streamParse_least {E : Env} {info : SeqInfo} {ei : ElemInfo} {bs : Bytes} {off : Nat}
    {ns : Namespace} {b : Bytes} {n : Nat} (hp : streamParse E info ei bs off ns = .ok (b, n)) :
    (if info.dataSize.isSome then (info.dataSize.getD 0).toNat
      else if info.dataSizeExpr.isSome then 0
      else if info.numElements.isSome then (info.numElements.getD 0 * ei.byteSize.getD 0).toNat
      else if info.numElementsExpr.isSome then 0
      else (ei.byteSize.getD 0).toNat) ≤ n := by
  unfold streamParse at hp
  split at hp
  · cases hp
  · rename_i z hz
    split at hp
    · cases hp
    cases hp
    unfold streamSize SeqInfo.hasDataSize SeqInfo.hasNumElements at hz
    cases hd : info.dataSize with
    | some k =>
      simp only [hd, Option.isSome_some, Bool.true_or, if_true, Option.getD_some] at hz ⊢
      split at hz
      · cases hz
      rename_i y hy
      cases hz
      by_cases h0 : k = 0
      · subst h0; simp
      · have := evalData_const hd h0 hy; omega
    | none =>
      cases hde : info.dataSizeExpr with
      | some x => simp
      | none =>
        simp only [hd, hde, Option.isSome_none, Bool.or_false, Bool.false_eq_true, if_false] at hz ⊢
        cases hn : info.numElements with
        | some k =>
          simp only [hn, Option.isSome_some, Bool.true_or, if_true, Option.getD_some] at hz ⊢
          split at hz
          · cases hz
          rename_i es hes
          split at hz
          · cases hz
          rename_i y hy
          cases hz
          rw [hes]
          by_cases h0 : k = 0
          · subst h0; simp
          · have := evalNum_const hn h0 hy
            simp [this.1]
        | none =>
          cases hne : info.numElementsExpr with
          | some x => simp
          | none => simp [hn, hne] at hz
  · rename_i hz
    split at hp
    · cases hp
    split at hp
    · cases hp
    rename_i es hes
    split at hp
    · rename_i k hs
      cases hp
      have := scanTerm_found_ge _ _ _ _ _ _ _ hs
      unfold streamSize SeqInfo.hasDataSize SeqInfo.hasNumElements at hz
      rw [hes] at hz ⊢
      cases hd : info.dataSize with
      | some k =>
        simp only [hd, Option.isSome_some, Bool.true_or, if_true] at hz
        split at hz <;> cases hz
      | none =>
        cases hde : info.dataSizeExpr with
        | some x => simp
        | none =>
          simp only [hd, hde, Option.isSome_none, Bool.or_false, Bool.false_eq_true, if_false] at hz ⊢
          cases hn : info.numElements with
          | some k =>
            simp only [hn, Option.isSome_some, Bool.true_or, if_true] at hz
            split at hz <;> cases hz
          | none =>
            cases hne : info.numElementsExpr with
            | some x => simp
            | none => simpa using this
    · cases hp
    · cases hp
    · cases hp

theorem paddingSize_lt (off : Int) (a : Nat) : (paddingSize off (a + 1)).toNat ≤ a := by
  unfold paddingSize
  have h1 : 0 ≤ off % ((a : Int) + 1) := Int.emod_nonneg _ (by omega)
  have h2 : off % ((a : Int) + 1) < (a : Int) + 1 := Int.emod_lt_of_pos _ (by omega)
  simp only
  split <;> omega

theorem streamParse_most {E : Env} {info : SeqInfo} {ei : ElemInfo} {bs : Bytes} {off : Nat}
    {ns : Namespace} {b : Bytes} {n k : Nat} (hp : streamParse E info ei bs off ns = .ok (b, n))
    (hk : (match info.dataSize with
      | some k => if k = 0 then none else some k.toNat
      | none =>
        if info.dataSizeExpr.isSome then none
        else
          match info.numElements, ei.byteSize with
          | some k, some es => if k = 0 then none else some (k * es).toNat
          | _, _ => none) = some k) : n ≤ k := by
  unfold streamParse at hp
  have hz : streamSize E info ei ns = .ok (some k) ∨ ∃ z : Int, streamSize E info ei ns = .ok (some z) ∧ z.toNat = k ∨
      ∃ e, streamSize E info ei ns = .error e := by
    right
    unfold streamSize SeqInfo.hasDataSize SeqInfo.hasNumElements
    split at hk
    · rename_i z hd
      split at hk
      · cases hk
      rename_i h0
      simp only [hd, Option.isSome_some, Bool.true_or, if_true]
      cases hy : evalDataSize E info ns with
      | error e => exact ⟨0, .inr ⟨e, rfl⟩⟩
      | ok y =>
        have := (evalData_const hd h0 hy).1
        refine ⟨y, .inl ⟨rfl, ?_⟩⟩
        rw [this]
        exact Option.some.inj hk
    · rename_i hd
      split at hk
      · cases hk
      rename_i hde
      split at hk
      · rename_i z es hn hes
        split at hk
        · cases hk
        rename_i h0
        simp only [hd, hde, hn, hes, Option.isSome_none, Bool.or_self, Bool.false_eq_true, if_false,
          Option.isSome_some, Bool.true_or, if_true]
        cases hy : evalNumElements E info ns with
        | error e => exact ⟨0, .inr ⟨e, rfl⟩⟩
        | ok y =>
          have := (evalNum_const hn h0 hy).1
          refine ⟨y * es, .inl ⟨rfl, ?_⟩⟩
          rw [this]
          exact Option.some.inj hk
      · cases hk
  rcases hz with hz | ⟨z, ⟨hz, hzk⟩ | ⟨e, hz⟩⟩
  · rw [hz] at hp
    simp only at hp
    split at hp
    · cases hp
    · cases hp; simp
  · rw [hz] at hp
    simp only at hp
    split at hp
    · cases hp
    · cases hp; omega
  · rw [hz] at hp; cases hp

theorem fewestAny_le {ds : List Defn} {d : Defn} (h : d ∈ ds) :
    ∃ k, fewestAny ds = some k ∧ k ≤ fewest d := by
  induction ds with
  | nil => cases h
  | cons a ms ih =>
    rcases List.mem_cons.mp h with rfl | h
    · cases hb : fewestAny ms with
      | none => exact ⟨_, by simp [fewestAny, hb, optMin], Nat.le_refl _⟩
      | some b => exact ⟨_, by simp [fewestAny, hb, optMin]; rfl, Nat.min_le_left _ _⟩
    · obtain ⟨k, h1, h2⟩ := ih h
      exact ⟨_, by simp [fewestAny, h1, optMin]; rfl, Nat.le_trans (Nat.min_le_right _ _) h2⟩

theorem greatestAny_le {ms : List Defn} {m : Defn} (h : m ∈ ms) {k : Nat}
    (hk : greatestAny ms = some k) : ∃ j, greatest m = some j ∧ j ≤ k := by
  induction ms generalizing k with
  | nil => cases h
  | cons a ms ih =>
    simp only [greatestAny] at hk
    cases ha : greatest a with
    | none => simp [ha, optMax] at hk
    | some x =>
      cases hb : greatestAny ms with
      | none => simp [ha, hb, optMax] at hk
      | some y =>
        simp only [ha, hb, optMax, Option.some.injEq] at hk
        rcases List.mem_cons.mp h with rfl | h
        · exact ⟨x, ha, by omega⟩
        · obtain ⟨j, h1, h2⟩ := ih h hb
          exact ⟨j, h1, by omega⟩

theorem greatestSum_cons {d : Defn} {ds : List Defn} {k : Nat} (h : greatestSum (d :: ds) = some k) :
    ∃ a b, greatest d = some a ∧ greatestSum ds = some b ∧ k = a + b := by
  rw [greatestSum] at h
  cases ha : greatest d with
  | none => simp [ha, optAdd] at h
  | some a =>
    cases hb : greatestSum ds with
    | none => simp [ha, hb, optAdd] at h
    | some b => simp [ha, hb, optAdd] at h; exact ⟨a, b, rfl, rfl, h.symm⟩

theorem greatest_target (d : Defn) : greatest d.target = greatest d := by
  cases d <;> simp [Defn.target, greatest]

theorem fewest_target (d : Defn) : fewest d ≤ fewest d.target := by
  cases d <;> simp only [Defn.target, Nat.le_refl]
  rw [fewest]
  split <;> omega

/-- A member with a condition that is not met takes no byte. -/
theorem fewest_skipped {E : Env} {d : Defn} {ns : Namespace}
    (h : evalCondition E d.memInfo ns = .ok false) : fewest d = 0 := by
  cases d <;> try (simp [Defn.memInfo, evalCondition, truthyStr] at h; done)
  rename_i c _ _
  rw [fewest]
  split
  · rfl
  · rename_i hc; simp [Defn.memInfo, evalCondition, hc] at h

theorem parseMembers_within (E : Env) (cls : String) (bs : Bytes) (depth : Nat) (outer : Namespace)
    (ds : List Defn) (maps : List DMap) (hm : All2 (SizeWithin E bs) (ds.map Defn.target) maps)
    (off used : Nat) (attrs attrs' : List (String × Val)) (u : Nat)
    (h : parseMembers E cls bs depth outer (ds.map Defn.memInfo) maps off used attrs =
      .ok (attrs', u)) :
    used + fewestSum ds ≤ u ∧ ∀ k, greatestSum ds = some k → u ≤ used + k := by
  induction ds generalizing maps off used attrs with
  | nil =>
    cases hm
    simp only [parseMembers, Except.ok.injEq, Prod.mk.injEq] at h
    simp [fewestSum, greatestSum]; omega
  | cons d ds ih =>
    simp only [List.map_cons] at hm h
    cases hm with
    | @cons _ m _ maps hd hds =>
    rw [parseMembers] at h
    rw [fewestSum]
    split at h
    · cases h
    · rename_i hc
      obtain ⟨h1, h2⟩ := ih _ hds _ _ _ h
      have := fewest_skipped hc
      refine ⟨by omega, fun k hk => ?_⟩
      obtain ⟨a, b, ha, hb, rfl⟩ := greatestSum_cons hk
      have := h2 _ hb
      omega
    · split at h
      · cases h
      · rename_i v n hp
        obtain ⟨h3, h4⟩ := hd _ _ _ _ _ hp
        have := fewest_target d
        split at h
        · cases h
        · obtain ⟨h1, h2⟩ := ih _ hds _ _ _ h
          refine ⟨by omega, fun k hk => ?_⟩
          obtain ⟨a, b, ha, hb, rfl⟩ := greatestSum_cons hk
          have := h2 _ hb
          have := h4 a (by rw [greatest_target]; exact ha)
          omega

/-- The members of a linear structure are as long as their format characters. -/
theorem linear_within {E : Env} {nm : String} {o : Order} {ms : List Defn} {maps : List DMap}
    {cs : List Code} (hnc : ∀ d ∈ ms, d.target.isComposite = false)
    (h1 : All2 (MapOf E nm o) ms maps) (h2 : All2 IsPrim maps cs) :
    fewestSum ms ≤ codesSize cs ∧ ∀ k, greatestSum ms = some k → codesSize cs ≤ k := by
  induction ms generalizing maps cs with
  | nil => cases h1; cases h2; simp [fewestSum, codesSize]
  | cons d ms ih =>
    cases h1 with
    | @cons _ m _ maps hd' hds =>
    cases h2 with
    | @cons _ c _ cs hc hcs =>
    obtain ⟨ih1, ih2⟩ := ih (fun d hd => hnc d (List.mem_cons_of_mem _ hd)) hds hcs
    have key : fewest d.target ≤ c.size ∧ (∀ a, greatest d.target = some a → c.size ≤ a) := by
      obtain ⟨n', o', -, hcr⟩ := hd'
      obtain ⟨h', k, sz, u, rfl, hpc⟩ := hc
      rcases noncomposite_map (hnc d List.mem_cons_self) hcr with ⟨h1, k1, s1, u1, e1, e2⟩ | hno
      · cases e2
        rw [e1, fewest, greatest]
        cases sz with
        | native => cases k <;> simp [primCode] at hpc
        | bytes sz =>
          have := primCode_size hpc
          unfold fixedByteSize
          simp only
          split <;> simp [this]
      · exact absurd (by simp [DMap.fmt, hpc]) (hno [c.char])
    have := fewest_target d
    rw [fewestSum, codesSize]
    refine ⟨by omega, fun k hk => ?_⟩
    obtain ⟨a, b, ha, hb, rfl⟩ := greatestSum_cons hk
    have := ih2 _ hb
    have := key.2 a (by rw [greatest_target]; exact ha)
    omega

theorem within_size {x : Option Int} {z : Int} (hz : x = some z) :
    (x.getD 0).toNat ≤ z.toNat ∧ ∀ k, x.map Int.toNat = some k → z.toNat ≤ k := by
  subst hz
  exact ⟨Nat.le_refl _, fun k hk => Nat.le_of_eq (Option.some.inj hk)⟩

/-- **Size bounds** A created map takes a number of bytes between the least and
the greatest size of the type. -/
theorem parse_within (E : Env) (d : Defn)
    (hd : d.Every fun d => (∀ h i e, d = .seq h i e → i.terminator ≠ some .null) ∧
      (∀ h ms, d = .struct h ms → DistinctTypes ms)) (bs : Bytes) :
    ∀ nm o m, createAs E nm o d = .ok m → SizeWithin E bs d m := by
  suffices h : (∀ nm o m, createAs E nm o d = .ok m → SizeWithin E bs d m) ∧
      (∀ nm o m, createAs E nm o d.target = .ok m → SizeWithin E bs d.target m) from h.1
  induction d using Defn.ind with
  | prim h k s u =>
    refine ⟨?d, ?d⟩
    intro nm o m hm off depth ns v n hp
    simp only [createAs] at hm
    split at hm
    · cases hm
    cases hm
    simp only [parse, primParse] at hp
    split at hp
    · cases hp
    rename_i z hz
    split at hp
    · cases hp
    split at hp
    · cases hp
    · cases hp; simp only [Within, fewest, greatest]; exact within_size hz
  | uuid h s u =>
    refine ⟨?e, ?e⟩
    intro nm o m hm off depth ns v n hp
    simp only [createAs, Except.ok.injEq] at hm
    subst hm
    simp only [parse, uuidParse] at hp
    split at hp
    · cases hp
    rename_i z hz
    split at hp
    · cases hp
    split at hp
    · cases hp; simp only [Within, fewest, greatest]; exact within_size hz
    · split at hp <;> cases hp; simp only [Within, fewest, greatest]; exact within_size hz
    · split at hp <;> cases hp; simp only [Within, fewest, greatest]; exact within_size hz
  | padding h a =>
    refine ⟨?f, ?f⟩
    intro nm o m hm off depth ns v n hp
    simp only [createAs, Except.ok.injEq] at hm
    subst hm
    simp only [parse, paddingParse] at hp
    refine ⟨by simp [fewest], fun j hj => ?_⟩
    split at hp
    · cases hp
    rename_i z hz
    split at hp
    · cases hp
    cases hp
    rcases a with _ | _ | a
    · cases hj
    · cases hz
    · simp only [calcPadding, Except.ok.injEq] at hz
      simp only [greatest, Option.map_some, Option.some.injEq] at hj
      have := paddingSize_lt off a
      subst hz
      omega
  | seq h info e ih =>
    refine ⟨?a, ?a⟩
    intro nm o m hm off depth ns v n hp
    have hself := hd.self.1 _ _ _ rfl
    have hself2 : e.terminator? ≠ some (some .null) := by
      simp only [Defn.Every] at hd
      cases e <;> simp only [Defn.terminator?, ne_eq, reduceCtorEq, not_false_eq_true]
      have := hd.2.self.1 _ _ _ rfl
      simpa using this
    simp only [Defn.Every] at hd
    obtain ⟨n', eo, em, hem, -, rfl, -⟩ := createAs_seq hm
    have ih := (ih hd.2).1 _ _ _ hem
    simp only [parse] at hp
    unfold Within
    rw [fewest, greatest]
    split at hp
    · rename_i hk
      split at hp
      · cases hp
      rename_i b k hst
      cases hp
      simp only [hk]
      exact ⟨streamParse_least hst, fun j hj => streamParse_most hst hj⟩
    · rename_i hk
      unfold stringParse at hp
      split at hp
      · cases hp
      rename_i b k hst
      split at hp
      · cases hp
      split at hp
      · cases hp
      cases hp
      simp only [hk]
      exact ⟨streamParse_least hst, fun j hj => streamParse_most hst hj⟩
    · rename_i hk
      simp only [hk]
      have hone : oneRead info e = seqLinear info ⟨e.byteSize, e.isComposite, e.terminator?⟩ := rfl
      split at hp
      · rename_i hl
        rw [hone, if_pos hl, if_pos hl]
        unfold linearSeqParse at hp
        split at hp
        · cases hp
        rename_i z hz
        split at hp
        · cases hp
        split at hp
        · cases hp
        split at hp
        · split at hp
          · cases hp
          · cases hp
            rw [hz]
            exact ⟨Nat.le_refl _, fun k hk => Nat.le_of_eq (Option.some.inj hk)⟩
        · cases hp
      · rename_i hl
        rw [hone, if_neg hl, if_neg hl]
        unfold compositeSeqParse at hp
        split at hp
        · cases hp
        split at hp
        · cases hp
        rename_i ds term num hr
        obtain ⟨-, h2⟩ := seqRules_ok (h := h) (bsz := none) (e := em) hr ⟨hself, hself2⟩
        split at hp
        · cases hp
        rename_i vs k hsp
        cases hp
        obtain ⟨h3, -, h4⟩ := seqParse_sizes _ _ _ _ _ (fewest e) 0
          (fun off v n h => (ih off _ _ v n h).1) _ _ _ _ _ _ _ hsp
        refine ⟨?_, fun j hj => ?_⟩
        · split
          · omega
          rename_i hds
          unfold seqRules SeqInfo.hasDataSize at hr
          simp only [hds, Bool.false_eq_true, if_false] at hr
          split
          · rename_i ht
            simp only [ht, if_true] at hr
            cases hte : info.terminator with
            | none => simp [hte] at ht
            | some t =>
              simp only [hte] at hr
              cases hr
              have := seqParse_one _ _ _ _ _ _ h2 _ _ hsp
              have := Nat.mul_le_mul_right (fewest e) this
              omega
          · rename_i ht
            simp only [ht, Bool.false_eq_true, if_false] at hr
            cases hn : info.hasNumElements with
            | false => simp [hn] at hr
            | true =>
              simp only [hn, if_true] at hr
              cases hev : countable (evalNumElements E info ns) with
              | error x => simp [hev] at hr
              | ok y =>
                simp only [hev] at hr
                cases hr
                rcases countable_ok hev with hev | ⟨-, rfl⟩
                case inr => have := h4 _ rfl; omega
                cases hnum : info.numElements with
                | none => simp
                | some z =>
                  by_cases h0 : z = 0
                  · simp [h0]
                  · have := evalNum_const hnum h0 hev
                    have h5 := h4 _ rfl
                    have : z.toNat = vs.length := by omega
                    simp only [Option.getD_some, this]
                    omega
        · split at hj
          · cases hj
          rename_i hds
          simp only [Bool.or_eq_true, not_or, Bool.not_eq_true] at hds
          split at hj
          · cases hj
          rename_i z hz
          split at hj
          · cases hj
          rename_i h0
          simp only [Option.map_eq_some_iff] at hj
          obtain ⟨M, hM, hj⟩ := hj
          obtain ⟨-, h3, h4⟩ := seqParse_sizes _ _ _ _ _ 0 M
            (fun off v n h => Nat.zero_le _) _ _ _ _ _ _ _ hsp
          have h3 := h3 fun off v n h => (ih _ _ _ _ _ h).2 _ hM
          unfold seqRules SeqInfo.hasDataSize SeqInfo.hasNumElements at hr
          simp only [hds, hz, Bool.or_self, Bool.false_eq_true, if_false, Option.isSome_some,
            Bool.true_or, if_true] at hr
          cases hev : countable (evalNumElements E info ns) with
          | error x => simp [hev] at hr
          | ok y =>
            simp only [hev] at hr
            cases hr
            rcases countable_ok hev with hev | ⟨-, rfl⟩
            case inr => have := h4 _ rfl; omega
            have := evalNum_const hz h0 hev
            have h5 := h4 _ rfl
            have : z.toNat = vs.length := by omega
            rw [this] at hj
            omega
  | struct h ms ih =>
    refine ⟨?b, ?b⟩
    intro nm o m hm off depth ns v n hp
    have hdt := hd.self.2 _ _ rfl
    simp only [Defn.Every, everyDefn_iff] at hd
    have hm' := hm
    obtain ⟨io, infos, maps, l, -, hmem, hlin, rfl, -⟩ := createAs_struct hm
    have hinf := (createMembers_all E nm o (fun _ => True) ms (by simp) [] (by simp) _ _ hmem).1
    have hmo := createMembers_mapOf E nm o ms hdt ms (fun d hd => hd) [] (by simp) _ _ hmem
    simp only [parse] at hp
    unfold Within
    rw [fewest, greatest]
    split at hp
    · rename_i hl
      subst hl
      unfold linearStructParse at hp
      split at hp
      · cases hp
      rename_i z hz
      split at hp
      · cases hp
      split at hp
      · cases hp
      rename_i vs hop
      split at hp
      · cases hp
      split at hp
      · cases hp
      split at hp
      · cases hp
        rw [hz] at hm' hop
        cases hopn : (DMap.struct { h with name := nm, order := o } (some z) true io infos maps).op with
        | none => rw [hopn] at hop; cases hop
        | some op =>
          have h1 := struct_op_size hdt hm' op hopn
          have h2 := (struct_op hm' op hopn).2
          have h3 := linear_within (fun d hd => (checkLinear_true hlin d hd).2.1) hmo h2
          have : z.toNat = codesSize op.codes := by omega
          rw [this]
          exact h3
      · cases hp
    · split at hp
      · cases hp
      split at hp
      · cases hp
      split at hp
      · cases hp
      split at hp
      · cases hp
      rename_i hs
      cases hp
      rw [hinf] at hs
      have hfit : All2 (SizeWithin E bs) (ms.map Defn.target) maps := by
        replace hd := hd.2
        clear hs hinf hmem hlin hm hm' hdt
        induction hmo with
        | nil => exact .nil
        | @cons d m ds maps hdm _ ih' =>
          obtain ⟨n', o', -, hc⟩ := hdm
          refine .cons ((ih d List.mem_cons_self (hd d List.mem_cons_self)).2 _ _ _ hc) ?_
          exact ih' (fun d hd' => ih d (List.mem_cons_of_mem _ hd'))
            (fun d hd' => hd d (List.mem_cons_of_mem _ hd'))
      have := parseMembers_within E _ bs _ _ ms maps hfit _ _ _ _ _ hs
      simpa using this
  | group h base ident dflt ms ih1 ih2 ih3 =>
    refine ⟨?c, ?c⟩
    intro nm o m hm off depth ns v n hp
    simp only [Defn.Every, everyDefn_iff, everyOptDefn_iff] at hd
    obtain ⟨dm, bm, keys, maps, hdm, hbm, -, hg, rfl⟩ := createAs_group hm
    have hmaps := createGroup_all E ident (fun m => ∃ d ∈ ms, SizeWithin E bs d m) ms
      (fun d hdm n o m hm => ⟨d, hdm, (ih3 d hdm (hd.2.2.2 d hdm)).1 _ _ _ hm⟩) _ _ _ hg
    simp only [parse] at hp
    unfold Within
    rw [fewest, greatest]
    split at hp
    · cases hp
    split at hp
    · cases hp
    split at hp
    · split at hp
      · cases hp
      rw [parseNth_eq] at hp
      split at hp
      · cases hp
      · rename_i i _ _ r hr
        cases hp
        split at hr
        · cases hr
        · rename_i m hm
          obtain ⟨d, hdm', hfit⟩ := hmaps m (List.mem_of_getElem? hm)
          obtain ⟨h1, h2⟩ := hfit _ _ _ _ _ hr
          refine ⟨?_, fun k hk => ?_⟩
          · obtain ⟨j, h3, h4⟩ := fewestAny_le hdm'
            rw [h3]
            cases fewestDefault dflt with
            | none => simp [optMin]; omega
            | some x => simp [optMin]; omega
          · cases hx : greatestDefault dflt with
            | none => simp [hx, optMax] at hk
            | some x =>
              cases ha : greatestAny ms with
              | none => simp [hx, ha, optMax] at hk
              | some y =>
                simp only [hx, ha, optMax, Option.some.injEq] at hk
                obtain ⟨j, h3, h4⟩ := greatestAny_le hdm' ha
                have := h2 _ h3
                omega
    · split at hp
      · cases hp
      split at hp
      · cases hp
      · rename_i r hr
        cases hp
        cases dflt with
        | none => simp [createOpt] at hdm; subst hdm; cases hr
        | some d =>
          simp only [createOpt] at hdm
          split at hdm
          · cases hdm
          rename_i x hx
          cases hdm
          obtain ⟨h1, h2⟩ := (ih2 d rfl (hd.2.2.1 d rfl)).1 _ _ _ hx _ _ _ _ _ hr
          refine ⟨?_, fun k hk => ?_⟩
          · cases hy : fewestAny ms with
            | none => simp [fewestDefault, optMin]; omega
            | some y => simp [fewestDefault, optMin]; omega
          · simp only [greatestDefault] at hk
            cases hx : greatest d with
            | none => simp [hx, optMax] at hk
            | some x =>
              cases ha : greatestAny ms with
              | none => simp [hx, ha, optMax] at hk
              | some y =>
                simp only [hx, ha, optMax, Option.some.injEq] at hk
                have := h2 _ hx
                omega
  | member h d c dt vs ih =>
    simp only [Defn.Every] at hd
    refine ⟨?_, (ih hd.2).1⟩
    intro nm o m hm off depth ns v n hp
    simp only [createAs, Except.ok.injEq] at hm
    subst hm
    simp [parse] at hp
  | _ =>
    refine and_self_iff.mpr ?_
    intro nm o m hm off depth ns v n hp
    simp only [createAs, Except.ok.injEq] at hm
    subst hm
    simp [parse] at hp

end Dtf
