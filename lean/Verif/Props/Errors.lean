import Verif.Props.Termination
import Verif.Props.ReaderErrors
import Verif.Props.Streams
/-!
# Property C26: errors of MapByteStream
-/
namespace Dtf

namespace Spec

/-- Floating-point numbers that an expression for a size gives are negative or, for the data
size of a sequence, whole. -/
def FloatSizes (E : Env) (info : SeqInfo) : Prop :=
  ∀ x ns b, info.dataSizeExpr = some x ∨ (info.kind ≠ .sequence ∧ info.numElementsExpr = some x) →
    E.evalExpr x ns = some (.float b) →
    ∃ q, Counts (.float b) q ∧
      (Negative q ∨ (info.kind = .sequence ∧ ∃ n : Int, q = .finite (n * 2 ^ 1074)))

/-- No data size of a sequence is a fraction, infinite or NaN: such data sizes of sequences are
not modelled. -/
def WholeSizes (E : Env) : Defn → Prop
  | .seq _ info _ => info.kind = .sequence → FloatSizes E info
  | _ => True

/-- Whether every value read for a primitive type can be converted: not for
characters, which are code points, and not for booleans that declare both
values. -/
def Converts : PrimKind → Prop
  | .boolean f t => f = none ∨ t = none
  | .character => False
  | .floatingPoint | .integer _ => True

/-- What a definition must satisfy so that only the documented errors are raised.
Only the definition itself counts: errors of nested maps are converted. -/
def Reliable (E : Env) : Defn → Prop
  | .prim _ _ s u | .uuid _ s u => u = "bytes" ∧ ∃ n, s = .bytes n
  | .padding _ a => ∃ n, a = some n ∧ n ≠ 0
  | .seq h info e =>
    -- bytes cannot be sliced with a floating-point number
    FloatSizes E info ∧
    match info.kind with
    | .stream =>
      info.terminator = none ∨ (e.byteSize ≠ none ∧ info.terminator ≠ some (.bytes []))
    | .string _ =>
      info.terminator = none ∨ (e.byteSize ≠ none ∧ ∃ t, info.terminator = some (.bytes t) ∧ t ≠ [])
    | .sequence =>
      -- elements with a size, which is not zero, or that are sequences themselves
      (e.byteSize ≠ some 0 ∧ (e.byteSize = none → ∃ eh ei ee, e = .seq eh ei ee)) ∧
      -- primitive elements that are read in one go
      (e.isComposite = false → info.dataSizeExpr = none → info.terminator = none →
        info.numElementsExpr = none →
        (Defn.seq h info e).byteSize ≠ none ∧ ∀ eh k s u, e = .prim eh k s u → Converts k)
  | .struct h ms =>
    -- members that are read in one go have a size
    ((∀ m ∈ ms, m.isComposite = false) → (Defn.struct h ms).byteSize ≠ none) ∧
    -- the names do not hide those the generated class uses
    h.name ≠ "super" ∧ ∀ m ∈ ms, m.name ≠ "super" ∧ m.name ≠ h.name
  | _ => True

end Spec
open Spec

theorem evalSize_errors {E : Env} {info : SeqInfo} (hE : FloatSizes E info) {x : Option String}
    (hx : ∀ s, x = some s →
      info.dataSizeExpr = some s ∨ (info.kind ≠ .sequence ∧ info.numElementsExpr = some s))
    {ns : Namespace} {e : Err} (h : evalSize E info.kind x ns = .error e) : e = .mapping := by
  unfold evalSize at h
  split at h
  · split at h
    · cases h; rfl
    · split at h
      · cases h; rfl
      · rename_i s _ _ v hv
        rcases checkSize_error h with h1 | ⟨-, b, h1⟩
        · exact h1
        · cases h1
          obtain ⟨q, hq, hn⟩ := hE s _ b (hx s rfl) hv
          rcases hn with hn | ⟨hk, n, rfl⟩
          · rw [checkSize_negative hq hn] at h
            cases h
            rfl
          · by_cases h0 : 0 ≤ n
            · rw [hk, checkSize_counts h0 hq] at h
              cases h
            · have : Negative (.finite (n * 2 ^ 1074)) :=
                Int.mul_neg_of_neg_of_pos (by omega) (Int.pow_pos (by decide))
              rw [checkSize_negative hq this] at h
              cases h
              rfl
  · cases h; rfl

theorem checkSize_given {kd : SeqKind} {n : Option Int} {e : Err}
    (h : checkSize kd (n.map .int) = .error e) : e = .mapping := by
  rcases checkSize_error h with h | ⟨-, b, h⟩
  · exact h
  · cases n <;> cases h

theorem evalDataSize_errors {E : Env} {info : SeqInfo} (hE : FloatSizes E info) {ns : Namespace} {e : Err}
    (h : evalDataSize E info ns = .error e) : e = .mapping := by
  unfold evalDataSize at h
  split at h
  · exact checkSize_given h
  · exact evalSize_errors hE (fun s h => .inl h) h

theorem evalNumElements_errors {E : Env} {info : SeqInfo} (hE : FloatSizes E info)
    (hk : info.kind ≠ .sequence) {ns : Namespace}
    {e : Err} (h : evalNumElements E info ns = .error e) : e = .mapping := by
  unfold evalNumElements at h
  split at h
  · exact checkSize_given h
  · exact evalSize_errors hE (fun s h => .inr ⟨hk, h⟩) h

theorem countable_errors {E : Env} {info : SeqInfo} {ns : Namespace} {e : Err}
    (h : countable (evalNumElements E info ns) = .error e) : e = .mapping := by
  obtain ⟨h, hne⟩ := countable_error h
  unfold evalNumElements at h
  split at h
  · exact checkSize_given h
  · unfold evalSize at h
    split at h
    · split at h
      · cases h; rfl
      · split at h
        · cases h; rfl
        · exact (checkSize_error h).resolve_right fun h => hne h.1
    · cases h; rfl

theorem calcDataSize_errors {E : Env} {info : SeqInfo} (hE : FloatSizes E info)
    (hk : info.kind ≠ .sequence) {ei : ElemInfo} {c : Ctx}
    {e : Err} (h : (calcDataSize E info ei c).1 = .error e) : e = .mapping := by
  unfold calcDataSize at h
  split at h
  · cases h
  split at h
  · split at h
    · rename_i x hx
      cases h
      exact evalDataSize_errors hE hx
    · cases h
  split at h
  · split at h
    · cases h
    · split at h
      · cases h
      · simp only at h
        split at h
        · rename_i x hx
          cases h
          exact evalNumElements_errors hE hk hx
        · cases h
  · cases h

theorem evalCondition_errors {E : Env} {info : MemInfo} {ns : Namespace} {e : Err}
    (h : evalCondition E info ns = .error e) : e = .mapping := by
  unfold evalCondition at h
  split at h
  · split at h
    · cases h
    · cases h; rfl
  · cases h

theorem seqRules_errors {E : Env} {info : SeqInfo} (hE : FloatSizes E info) {ei : ElemInfo}
    {ns : Namespace} {e : Err} (h : (seqRules E info ei ns).1 = .error e) :
    e = .mapping ∨ (e = .zeroDiv ∧ ei.byteSize = some 0) ∨
      (e = .attribute ∧ ei.byteSize = none ∧ ei.terminator = none) := by
  unfold seqRules at h
  generalize hr : (if info.hasDataSize = true then _ else _ :
    Except Err (Option Int × Option Lit × Option Int) × Namespace) = r at h
  have h' : r.1 = .error e ∨ e = .mapping := by
    rcases r with ⟨x | ⟨a, b, c⟩, ns'⟩
    · exact .inl h
    · rcases b with _ | b
      · rcases c with _ | c
        · cases h; exact .inr rfl
        · cases h
      · cases h
  rcases h' with h' | h'
  · split at hr
    · split at hr
      · rename_i x hx
        subst hr
        cases h'
        exact .inl (evalDataSize_errors hE hx)
      · split at hr
        · rename_i es hes
          split at hr
          · subst hr
            cases h'
            rename_i h0
            exact .inr (.inl ⟨rfl, by rw [hes, h0]⟩)
          · subst hr; cases h'
        · rename_i hes
          split at hr
          · rename_i ht
            subst hr
            cases h'
            exact .inr (.inr ⟨rfl, hes, ht⟩)
          · subst hr; cases h'
    · split at hr
      · subst hr; cases h'
      · split at hr
        · split at hr
          · rename_i x hx
            subst hr
            cases h'
            exact .inl (countable_errors hx)
          · subst hr; cases h'
        · subst hr; cases h'
  · exact .inl h'

/-- The errors StreamMap.MapByteStream raises. -/
theorem streamMap_errors {E : Env} {info : SeqInfo} (hE : FloatSizes E info)
    (hk : info.kind ≠ .sequence) {ei : ElemInfo} {bs : Bytes}
    {off : Nat} {c : Ctx} {e : Err} (h : (streamMap E info ei bs off c).1 = .error e) :
    e = .mapping ∨ e = .tooSmall ∨ e = .diverge ∨
      (e = .type ∧ info.terminator ≠ none ∧
        (ei.byteSize = none ∨ ∃ t, info.terminator = some t ∧ isTerm [] t = true)) := by
  unfold streamMap at h
  have hc := @calcDataSize_errors E info hE hk ei c
  generalize calcDataSize E info ei c = p at h hc
  rcases p with ⟨x | size, c'⟩
  · cases hc rfl
    cases h
    exact .inl rfl
  · simp only at h
    split at h
    · split at h
      · cases h; exact .inr (.inl rfl)
      · cases h
    · split at h
      · cases h; exact .inl rfl
      · rename_i t ht
        split at h
        · rename_i hes
          cases h
          exact .inr (.inr (.inr ⟨rfl, by simp [ht], .inl hes⟩))
        · rename_i es hes
          generalize hs : scanTerm _ _ _ _ _ _ = s at h
          rcases s with n | n | _ | _
          · cases h
          · cases h; exact .inr (.inl rfl)
          · cases h
            refine .inr (.inr (.inr ⟨rfl, by simp [ht], .inr ⟨t, ht, ?_⟩⟩))
            revert hs
            generalize bs.length - off + 2 = fuel
            generalize 0 = cur
            generalize es.toNat = k
            suffices ∀ next, scanTerm (bs.drop off) k t fuel cur next = .emptyMatch →
              isTerm [] t = true from this k
            induction fuel generalizing cur with
            | zero => intro next h; cases h
            | succ fuel ih =>
              intro next h
              rw [scanTerm] at h
              split at h
              · split at h
                · cases h
                · exact ih _ _ h
              · rename_i hlt
                split at h
                · rename_i h1
                  have : slice (bs.drop off) cur next = [] := by
                    unfold slice
                    rw [List.drop_eq_nil_of_le (by omega)]
                    simp
                  rwa [this] at h1
                · cases h
          · cases h; exact .inr (.inr (.inl rfl))

/-- The errors StringMap.MapByteStream raises. -/
theorem stringMap_errors {E : Env} {enc : String} {info : SeqInfo} (hE : FloatSizes E info)
    (hk : info.kind ≠ .sequence) {ei : ElemInfo}
    {bs : Bytes} {off : Nat} {c : Ctx} {e : Err}
    (h : (stringMap E enc info ei bs off c).1 = .error e) :
    e = .mapping ∨ e = .tooSmall ∨ e = .diverge ∨
      (e = .type ∧ info.terminator ≠ none ∧
        (ei.byteSize = none ∨ (∃ t, info.terminator = some t ∧ isTerm [] t = true) ∨
          ∀ t, info.terminator ≠ some (.bytes t))) := by
  unfold stringMap at h
  have hs := @streamMap_errors E info hE hk ei bs off c
  generalize streamMap E info ei bs off c = p at h hs
  rcases p with ⟨x | b, c'⟩
  · cases h
    rcases hs rfl with h | h | h | ⟨h1, h2, h3⟩
    · exact .inl h
    · exact .inr (.inl h)
    · exact .inr (.inr (.inl h))
    · exact .inr (.inr (.inr ⟨h1, h2, h3.imp id .inl⟩))
  · simp only at h
    split at h
    · rename_i x hx
      cases h
      unfold cutString at hx
      split at hx
      · cases hx
      · cases hx
      · rename_i t ht hb
        cases hx
        refine .inr (.inr (.inr ⟨rfl, by simp [hb], .inr (.inr ?_)⟩))
        intro u hu
        rw [hb] at hu
        cases hu
        exact ht _ rfl
    · split at h
      · cases h; exact .inl rfl
      · cases h

/-- The errors that remain after conversion. -/
def Documented (e : Err) : Prop := e = .mapping ∨ e = .tooSmall ∨ e = .diverge

theorem wrapErr_documented {e : Err} (h : e ≠ .other) : Documented (wrapErr e) := by
  cases e <;> simp_all [wrapErr, Documented]

/-- What holds of every map: the size of a mapped value is known, and errors are
modelled. -/
def Tame (r : Res) : Prop :=
  (∀ e, r.1 = .error e → e ≠ .other) ∧ ∀ v, r.1 = .ok v → r.2.byteSize ≠ none

theorem seqLoop_errors {step : Nat → Ctx → Res} (hs : ∀ p c, Tame (step p c)) {len : Nat}
    {num ds : Option Int} {term : Option Lit} {fuel : Nat} {s s' : SeqSt} {e : Err}
    (h : seqLoop step len num ds term fuel s = .raised e s') : e ≠ .other := by
  induction fuel generalizing s with
  | zero => cases h; simp
  | succ fuel ih =>
    rw [seqLoop] at h
    split at h
    · cases h
    split at h
    · cases h
    split at h
    · cases h
    have ht := hs s.off s.sub
    generalize step s.off s.sub = r at h ht
    rcases r with ⟨x | v, sub⟩
    · cases h
      exact ht.1 _ rfl
    · simp only at h
      split at h
      · cases h; simp
      · split at h
        · cases h
        · exact ih h

theorem compositeSeqMap_errors {E : Env} {info : SeqInfo} (hE : FloatSizes E info) {ei : ElemInfo}
    {step : Nat → Ctx → Res} (hs : ∀ p c, Tame (step p c)) {bs : Bytes} {off depth : Nat} {c : Ctx} :
    Tame (compositeSeqMap E info ei step bs off depth c) ∧
    ∀ e, (compositeSeqMap E info ei step bs off depth c).1 = .error e →
      Documented e ∨ ei.byteSize = some 0 ∨ (ei.byteSize = none ∧ ei.terminator = none) := by
  unfold compositeSeqMap
  split
  · exact ⟨⟨fun e h => by cases h; simp, fun v h => by cases h⟩,
      fun e h => by cases h; exact .inl (.inl rfl)⟩
  have hr := @seqRules_errors E info hE ei c.values
  generalize seqRules E info ei c.values = p at hr
  rcases p with ⟨x | ⟨a, b, d⟩, ns⟩
  · have hx := hr rfl
    refine ⟨⟨fun e h => ?_, fun v h => by cases h⟩, fun e h => ?_⟩
    · cases h
      rcases hx with rfl | ⟨rfl, _⟩ | ⟨rfl, _⟩ <;> simp
    · cases h
      rcases hx with rfl | ⟨-, h⟩ | ⟨-, h⟩
      · exact .inl (.inl rfl)
      · exact .inr (.inl h)
      · exact .inr (.inr h)
  · simp only
    generalize hl : seqLoop _ _ _ _ _ _ _ = out
    have ht : (∀ c' : Ctx, Tame (.error .tooSmall, c') ∧ ∀ e, ((.error .tooSmall, c') : Res).1 = .error e →
        Documented e ∨ ei.byteSize = some 0 ∨ (ei.byteSize = none ∧ ei.terminator = none)) :=
      fun c' => ⟨⟨fun e h => by cases h; simp, fun v h => by cases h⟩,
        fun e h => by cases h; exact .inl (.inr (.inl rfl))⟩
    rcases out with s | ⟨e, s⟩
    · simp only
      split
      · exact ht _
      split
      · exact ht _
      exact ⟨⟨fun e h => (by cases h), fun v h => by simp [Ctx.clear]⟩, fun e h => by cases h⟩
    · have hne := seqLoop_errors hs hl
      by_cases he : e = .tooSmall
      · subst he
        exact ht _
      · have : ∀ c' : Ctx, Tame (.error (wrapErr e), c') ∧ ∀ e', ((.error (wrapErr e), c') : Res).1 = .error e' →
            Documented e' ∨ ei.byteSize = some 0 ∨ (ei.byteSize = none ∧ ei.terminator = none) := by
          intro c'
          have hd := wrapErr_documented hne
          refine ⟨⟨fun e' h => ?_, fun v h => by cases h⟩, fun e' h => ?_⟩
          · cases h
            rcases hd with h | h | h <;> rw [h] <;> simp
          · cases h; exact .inl hd
        cases e <;> first | exact absurd rfl he | exact this _

theorem mapValues_errors {k : PrimKind} {vs : List Val} {e : Err}
    (h : mapValues k vs = .error e) : e = .value := by
  induction vs with
  | nil => cases h
  | cons v vs ih =>
    rw [mapValues] at h
    split at h
    · cases h; rfl
    · split at h
      · rename_i x hx
        cases h
        exact ih hx
      · cases h

theorem mapValues_converts {k : PrimKind} (hk : Converts k) (vs : List Val) :
    ∃ xs, mapValues k vs = .ok xs := by
  induction vs with
  | nil => exact ⟨[], rfl⟩
  | cons v vs ih =>
    obtain ⟨xs, hx⟩ := ih
    have : ∃ x, mapValue k v = some x := by
      cases k with
      | boolean f t =>
        rcases hk with rfl | rfl
        · simp only [mapValue, Option.isNone_none, if_true]
          repeat' split
          all_goals exact ⟨_, rfl⟩
        · simp only [mapValue, Option.isNone_none, if_true]
          repeat' split
          all_goals exact ⟨_, rfl⟩
      | character => exact hk.elim
      | floatingPoint => exact ⟨_, rfl⟩
      | integer _ => exact ⟨_, rfl⟩
    obtain ⟨x, h⟩ := this
    exact ⟨x :: xs, by simp [mapValues, h, hx]⟩

/-- Errors and sizes of the members of a structure. -/
theorem structLoop_errors {E : Env} {cls : String} {bs : Bytes} {depth : Nat} {maps : List DMap}
    (hm : ∀ m ∈ maps, ∀ bs off depth c, Tame (mapStream E m bs off depth c))
    {infos : List MemInfo} {skip : Nat} {s s' : StructSt} {e : Err}
    (h : structLoop E cls bs depth infos maps skip s = .raised e s') : Documented e := by
  induction maps generalizing infos skip s with
  | nil => simp [structLoop] at h
  | cons m maps ih =>
    have ih := fun {i k s} => @ih (fun x hx => hm x (List.mem_cons_of_mem _ hx)) i k s
    have hm := hm m List.mem_cons_self
    rcases infos with _ | ⟨info, infos⟩
    · simp [structLoop] at h
    rcases skip with _ | skip
    · simp only [structLoop] at h
      split at h
      · rename_i x hx
        cases h
        exact .inl (evalCondition_errors hx)
      · exact ih h
      · have ht := hm bs s.off (depth + 1) { s.sub with values := structNs cls s.attrs s.sub.values }
        generalize mapStream E m bs s.off (depth + 1)
          { s.sub with values := structNs cls s.attrs s.sub.values } = r at h ht
        rcases r with ⟨x | v, sub⟩
        · by_cases hx : x = .tooSmall
          · subst hx; cases h
          · have h1 : StructOut.raised (wrapErr x) { s with sub := { sub with values := s.sub.values } }
                = .raised e s' := by
              cases x <;> first | exact absurd rfl hx | exact h
            cases h1
            exact wrapErr_documented (ht.1 _ rfl)
        · simp only at h
          split at h
          · cases h; exact .inl rfl
          · split at h
            · rename_i hb
              exact absurd hb (ht.2 v rfl)
            · exact ih h
    · simp only [structLoop] at h
      exact ih h

theorem primMap_tame (E : Env) (h : Hdr) (k : PrimKind) (s : Size) (u : String) (bs : Bytes)
    (off : Nat) (c : Ctx) : Tame (primMap E h k s u bs off c) := by
  unfold primMap
  split
  · exact ⟨fun e h => by cases h; simp, fun v h => by cases h⟩
  split
  · exact ⟨fun e h => by cases h; simp, fun v h => by cases h⟩
  simp only
  split
  · exact ⟨fun e h => by cases h; simp, fun v h => by cases h⟩
  · exact ⟨fun e h => (by cases h), fun v h => by simp⟩

theorem uuidMap_tame (h : Hdr) (s : Size) (u : String) (bs : Bytes)
    (off : Nat) (c : Ctx) : Tame (uuidMap h s u bs off c) := by
  unfold uuidMap
  split
  · exact ⟨fun e h => by cases h; simp, fun v h => by cases h⟩
  split
  · exact ⟨fun e h => by cases h; simp, fun v h => by cases h⟩
  simp only
  split
  · exact ⟨fun e h => (by cases h), fun v h => by simp⟩
  all_goals
    split
    · exact ⟨fun e h => (by cases h), fun v h => by simp⟩
    · exact ⟨fun e h => by cases h; simp, fun v h => by cases h⟩

theorem paddingMap_tame (a : Option Nat) (bs : Bytes) (off : Nat) (c : Ctx) :
    Tame (paddingMap a bs off c) := by
  unfold paddingMap calcPadding
  rcases a with _ | _ | a
  · exact ⟨fun e h => by cases h; simp, fun v h => by cases h⟩
  · exact ⟨fun e h => by cases h; simp, fun v h => by cases h⟩
  · simp only
    split
    · exact ⟨fun e h => by cases h; simp, fun v h => by cases h⟩
    · exact ⟨fun e h => (by cases h), fun v h => by simp⟩

theorem streamMap_sized {E : Env} {info : SeqInfo} {ei : ElemInfo} {bs : Bytes} {off : Nat} {c : Ctx}
    {b : Bytes} (h : (streamMap E info ei bs off c).1 = .ok b) :
    (streamMap E info ei bs off c).2.byteSize ≠ none := by
  unfold streamMap at h ⊢
  generalize calcDataSize E info ei c = p at h ⊢
  rcases p with ⟨x | size, c'⟩
  · cases h
  · simp only at h ⊢
    split at h
    · split at h
      · cases h
      · rename_i hn
        simp [hn, Ctx.clear]
    · split at h
      · cases h
      · split at h
        · cases h
        · generalize scanTerm _ _ _ _ _ _ = s at h ⊢
          rcases s with n | n | _ | _
          · simp [Ctx.clear]
          · cases h
          · cases h
          · cases h

theorem linearSeqMap_tame (E : Env) (b : Option Int) (op : Option Op) (e : DMap) (bs : Bytes)
    (off : Nat) (c : Ctx) : Tame (linearSeqMap E b op e bs off c) := by
  unfold linearSeqMap
  rcases b with _ | n
  · exact ⟨fun e h => by cases h; simp, fun v h => by cases h⟩
  simp only
  split
  · exact ⟨fun e h => by cases h; simp, fun v h => by cases h⟩
  split
  · exact ⟨fun e h => by cases h; simp, fun v h => by cases h⟩
  split
  · split
    · rename_i x hx
      refine ⟨fun e h => ?_, fun v h => by cases h⟩
      cases h
      rw [mapValues_errors hx]
      simp
    · exact ⟨fun e h => (by cases h), fun v h => by simp [Ctx.clear]⟩
  · exact ⟨fun e h => by cases h; simp, fun v h => by cases h⟩

theorem linearStructMap_errors (E : Env) (h : Hdr) (n : Int) (op : Option Op) (i : Bool)
    (infos : List MemInfo) (maps : List DMap) (bs : Bytes) (off : Nat) (c : Ctx) :
    Tame (linearStructMap E h (some n) op i infos maps bs off c) ∧
    ∀ e, (linearStructMap E h (some n) op i infos maps bs off c).1 = .error e → Documented e := by
  have hm : ∀ c' : Ctx, Tame (.error .mapping, c') ∧
      ∀ e, ((.error .mapping, c') : Res).1 = .error e → Documented e :=
    fun c' => ⟨⟨fun e h => by cases h; simp, fun v h => by cases h⟩,
        fun e h => by cases h; exact .inl rfl⟩
  unfold linearStructMap
  simp only
  split
  · exact ⟨⟨fun e h => by cases h; simp, fun v h => by cases h⟩,
        fun e h => by cases h; exact .inr (.inl rfl)⟩
  split
  · exact hm _
  split
  · exact hm _
  split
  · exact hm _
  split
  · exact ⟨⟨fun e h => (by cases h), fun v h => by simp [Ctx.clear]⟩, fun e h => by cases h⟩
  · exact hm _

/-- The identifier part of StructureGroupMap.MapByteStream, after the base has been
mapped. -/
def groupBase (ident : String) (ctx : Ctx) : Res → Res
  | (.error .tooSmall, sub) => (.error .tooSmall, { ctx with sub := some sub })
  | (.error e, sub) => (.error (wrapErr e), { ctx with sub := ctx.sub.map fun _ => sub })
  | (.ok v, sub) =>
    let ctx := { ctx with sub := ctx.sub.map fun _ => sub }
    match getAttr v ident with
    | .pyNone => (.error .mapping, ctx)
    | id => (.ok id, { ctx with memberIdentifier := some id })

/-- The end of StructureGroupMap.MapByteStream, after the member has been mapped. -/
def groupFinish (ctx : Ctx) : Res → Res
  | (.error .tooSmall, sub) => (.error .tooSmall, { ctx with byteSize := none, sub := some sub })
  | (.error e, sub) =>
    (.error (wrapErr e), { ctx with byteSize := none, sub := ctx.sub.map fun _ => sub })
  | (.ok v, sub) => (.ok v, { ctx with byteSize := sub.byteSize }.clear)

theorem mapStream_group (E : Env) (h : Hdr) (ident : String) (base : DMap) (dflt : Option DMap)
    (keys : List Lit) (maps : List DMap) (bs : Bytes) (off depth : Nat) (c : Ctx) :
    mapStream E (.group h ident base dflt keys maps) bs off depth c =
      match (match c.memberIdentifier with
        | some id => (.ok id, c)
        | none => groupBase ident c (mapStream E base bs off depth (c.sub.getD {})) : Res) with
      | (.error e, c) => (.error e, c)
      | (.ok id, c) =>
        match groupIndex keys id with
        | some i =>
          if groupMapMissing maps[i]? then (.error .mapping, c)
          else groupFinish c (mapNth E maps i bs off depth (c.sub.getD {}))
        | none =>
          if groupMapMissing dflt then (.error .mapping, c)
          else groupFinish c (mapOpt E dflt bs off depth (c.sub.getD {})) := by
  rw [mapStream]
  rfl

theorem group_finish {r : Res} (hr : Tame r) (c : Ctx) :
    Tame (groupFinish c r) ∧ ∀ e, (groupFinish c r).1 = .error e → Documented e := by
  rcases r with ⟨x | v, sub⟩
  · by_cases hx : x = .tooSmall
    · subst hx
      exact ⟨⟨fun e h => by cases h; simp, fun v h => by cases h⟩,
        fun e h => by cases h; exact .inr (.inl rfl)⟩
    · have : groupFinish c (.error x, sub) =
          (.error (wrapErr x), { c with byteSize := none, sub := c.sub.map fun _ => sub }) := by
        cases x <;> first | exact absurd rfl hx | rfl
      rw [this]
      have hd := wrapErr_documented (hr.1 _ rfl)
      refine ⟨⟨fun e h => ?_, fun v h => by cases h⟩, fun e h => by cases h; exact hd⟩
      cases h
      rcases hd with h | h | h <;> rw [h] <;> simp
  · exact ⟨⟨fun e h => (by cases h), fun v' h => by
      simpa [groupFinish, Ctx.clear] using hr.2 v rfl⟩, fun e h => by cases h⟩

theorem groupBase_errors {ident : String} {c : Ctx} {r : Res} (hr : Tame r) {e : Err}
    (h : (groupBase ident c r).1 = .error e) : Documented e := by
  rcases r with ⟨x | v, sub⟩
  · by_cases hx : x = .tooSmall
    · subst hx
      cases h
      exact .inr (.inl rfl)
    · have : wrapErr x = e := by
        cases x <;> first | exact absurd rfl hx | (cases h; rfl)
      rw [← this]
      exact wrapErr_documented (hr.1 _ rfl)
  · simp only [groupBase] at h
    split at h
    · cases h; exact .inl rfl
    · cases h

theorem group_errors {E : Env} {h : Hdr} {ident : String} {base : DMap} {dflt : Option DMap}
    {keys : List Lit} {maps : List DMap}
    (hb : ∀ bs off depth c, Tame (mapStream E base bs off depth c))
    (hd : ∀ d, dflt = some d → ∀ bs off depth c, Tame (mapStream E d bs off depth c))
    (hm : ∀ m ∈ maps, ∀ bs off depth c, Tame (mapStream E m bs off depth c))
    (bs : Bytes) (off depth : Nat) (c : Ctx) :
    Tame (mapStream E (.group h ident base dflt keys maps) bs off depth c) ∧
    ∀ e, (mapStream E (.group h ident base dflt keys maps) bs off depth c).1 = .error e →
      Documented e := by
  have herr : ∀ (x : Err) (c' : Ctx), Documented x → Tame (.error x, c') ∧
      ∀ e, ((.error x, c') : Res).1 = .error e → Documented e := by
    intro x c' hx
    refine ⟨⟨fun e h => ?_, fun v h => by cases h⟩, fun e h => by cases h; exact hx⟩
    cases h
    rcases hx with h | h | h <;> rw [h] <;> simp
  rw [mapStream_group]
  generalize hr : (match c.memberIdentifier with
    | some id => (.ok id, c)
    | none => groupBase ident c (mapStream E base bs off depth (c.sub.getD {})) : Res) = r
  have hr' : ∀ e, r.1 = .error e → Documented e := by
    subst hr
    intro e he
    split at he
    · cases he
    · exact groupBase_errors (hb bs off depth _) he
  rcases r with ⟨x | id, c'⟩
  · exact herr _ _ (hr' _ rfl)
  · simp only
    split
    · split
      · exact herr _ _ (.inl rfl)
      · rw [mapNth_eq]
        rename_i i _ hmiss
        cases hi : maps[i]? with
        | none => rw [hi] at hmiss; simp [groupMapMissing] at hmiss
        | some m => exact group_finish (hm m (List.mem_of_getElem? hi) bs off depth _) c'
    · split
      · exact herr _ _ (.inl rfl)
      · rename_i hmiss
        cases dflt with
        | none => simp [groupMapMissing] at hmiss
        | some d => rw [mapOpt]; exact group_finish (hd d rfl bs off depth _) c'

theorem struct_errors {E : Env} {h : Hdr} {b : Option Int} {l io : Bool} {infos : List MemInfo}
    {maps : List DMap} (hm : ∀ m ∈ maps, ∀ bs off depth c, Tame (mapStream E m bs off depth c))
    (bs : Bytes) (off depth : Nat) (c : Ctx) :
    Tame (mapStream E (.struct h b l io infos maps) bs off depth c) ∧
    ∀ e, (mapStream E (.struct h b l io infos maps) bs off depth c).1 = .error e →
      Documented e ∨ (l = true ∧ b = none) ∨ (l = false ∧ io = false) := by
  rw [mapStream]
  split
  · rename_i hl
    rcases b with _ | n
    · refine ⟨⟨fun e h => by cases h; simp, fun v h => by cases h⟩, fun e h => ?_⟩
      exact .inr (.inl ⟨hl, rfl⟩)
    · obtain ⟨h1, h2⟩ := linearStructMap_errors E h n
        (DMap.struct h (some n) l io infos maps).op io infos maps bs off c
      exact ⟨h1, fun e he => .inl (h2 e he)⟩
  split
  · exact ⟨⟨fun e h => by cases h; simp, fun v h => by cases h⟩,
      fun e h => by cases h; exact .inl (.inl rfl)⟩
  split
  · rename_i hl _ hi
    refine ⟨⟨fun e h => by cases h; simp, fun v h => by cases h⟩, fun e h => ?_⟩
    simp only [Bool.and_eq_true, Bool.not_eq_true'] at hi
    exact .inr (.inr ⟨by simpa using hl, hi.2⟩)
  simp only
  generalize hl : structLoop E h.name bs depth infos maps _ _ = out
  have ht : (∀ c' : Ctx, Tame (.error .tooSmall, c') ∧ ∀ e, ((.error .tooSmall, c') : Res).1 = .error e →
      Documented e ∨ (l = true ∧ b = none) ∨ (l = false ∧ io = false)) :=
    fun c' => ⟨⟨fun e h => by cases h; simp, fun v h => by cases h⟩,
      fun e h => by cases h; exact .inl (.inr (.inl rfl))⟩
  rcases out with s | s | ⟨e, s⟩
  · simp only
    split
    · exact ht _
    · exact ⟨⟨fun e h => (by cases h), fun v h => by simp [Ctx.clear]⟩, fun e h => by cases h⟩
  · exact ht _
  · have hd := structLoop_errors hm hl
    refine ⟨⟨fun e' h => ?_, fun v h => by cases h⟩, fun e' h => by cases h; exact .inl hd⟩
    cases h
    rcases hd with h | h | h <;> rw [h] <;> simp

theorem streamMap_other {E : Env} {info : SeqInfo} {ei : ElemInfo} {bs : Bytes} {off : Nat} {c : Ctx}
    {e : Err} (h : (streamMap E info ei bs off c).1 = .error e) : e ≠ .other := by
  rintro rfl
  unfold streamMap at h
  generalize calcDataSize E info ei c = p at h
  rcases p with ⟨x | size, c'⟩
  · cases x <;> cases h
  · simp only at h
    split at h
    · split at h <;> cases h
    · split at h
      · cases h
      · split at h
        · cases h
        · generalize scanTerm _ _ _ _ _ _ = s at h
          rcases s with n | n | _ | _ <;> cases h

/-- `WholeSizes` for maps. -/
def MapWhole (E : Env) : DMap → Prop
  | .seq _ info _ _ _ => info.kind = .sequence → FloatSizes E info
  | _ => True

theorem mapWhole_of {E : Env} (d : Defn) (nm : String) (o : Order) (m : DMap)
    (hm : createAs E nm o d = .ok m) (h : WholeSizes E d) : MapWhole E m := by
  cases d with
  | seq hh info e => obtain ⟨n', eo, em, he, -, rfl, -⟩ := createAs_seq hm; exact h
  | struct hh ms => obtain ⟨io, infos, maps, l, -, -, -, rfl, -⟩ := createAs_struct hm; trivial
  | group hh base ident dflt ms => obtain ⟨dm, bm, keys, maps, -, -, -, -, rfl⟩ := createAs_group hm; trivial
  | prim hh k s u =>
    simp only [createAs] at hm
    split at hm
    · cases hm
    · cases hm; trivial
  | _ =>
    simp only [createAs, Except.ok.injEq] at hm
    subst hm
    trivial

theorem mapStream_tame {E : Env} (m : DMap) (hE : m.Every (MapWhole E)) :
    ∀ bs off depth c, Tame (mapStream E m bs off depth c) := by
  induction m using DMap.ind with
  | missing =>
    intro bs off depth c
    rw [mapStream]
    exact ⟨fun e h => by cases h; simp, fun v h => by cases h⟩
  | prim h k s u => intro bs off depth c; rw [mapStream]; exact primMap_tame ..
  | uuid h s u => intro bs off depth c; rw [mapStream]; exact uuidMap_tame ..
  | padding h a => intro bs off depth c; rw [mapStream]; exact paddingMap_tame ..
  | seq h info ei b e ih =>
    intro bs off depth c
    rw [mapStream]
    split
    · have h1 := @streamMap_other E info ei bs off c
      have h2 := @streamMap_sized E info ei bs off c
      generalize streamMap E info ei bs off c = r at h1 h2
      rcases r with ⟨x | v, c'⟩
      · refine ⟨fun e h => ?_, fun v h => by cases h⟩
        cases h
        exact h1 rfl
      · exact ⟨fun e h => (by cases h), fun _ _ => h2 rfl⟩
    · rename_i enc _
      refine ⟨fun e h => ?_, fun v h => ?_⟩
      · unfold stringMap at h
        have h1 := @streamMap_other E info ei bs off c
        generalize streamMap E info ei bs off c = r at h h1
        rcases r with ⟨x | v, c'⟩
        · cases h
          exact h1 rfl
        · simp only at h
          split at h
          · rename_i hx
            unfold cutString at hx
            split at hx <;> cases hx
            cases h
            simp
          · split at h
            · cases h; simp
            · cases h
      · unfold stringMap at h ⊢
        have h2 := @streamMap_sized E info ei bs off c
        generalize streamMap E info ei bs off c = r at h h2 ⊢
        rcases r with ⟨x | v, c'⟩
        · cases h
        · simp only at h ⊢
          split at h
          · cases h
          · split at h
            · cases h
            · exact h2 rfl
    · split
      · exact linearSeqMap_tame ..
      · rename_i hk _
        exact (compositeSeqMap_errors (hE.1 hk) (fun p c => ih hE.2 bs p (depth + 1) c)).1
  | struct h b l io infos maps ih =>
    intro bs off depth c
    simp only [DMap.Every, everyMap_iff] at hE
    exact (struct_errors (fun m hm => ih m hm (hE.2 m hm)) bs off depth c).1
  | constant h =>
    intro bs off depth c
    rw [mapStream]
    exact ⟨fun e h => by cases h; simp, fun v h => by cases h⟩
  | enumeration h vs =>
    intro bs off depth c
    rw [mapStream]
    exact ⟨fun e h => by cases h; simp, fun v h => by cases h⟩
  | format h l =>
    intro bs off depth c
    rw [mapStream]
    exact ⟨fun e h => by cases h; simp, fun v h => by cases h⟩
  | group h ident base dflt keys maps ib id im =>
    intro bs off depth c
    simp only [DMap.Every, everyMap_iff, everyOptMap_iff] at hE
    exact (group_errors (ib hE.2.1) (fun d hd => id d hd (hE.2.2.1 d hd))
      (fun m hm => im m hm (hE.2.2.2 m hm)) bs off depth c).1

theorem isTerm_nil {t : Lit} (ht : t ≠ .bytes []) : isTerm [] t = false := by
  cases t with
  | bytes b =>
    cases b with
    | nil => exact absurd rfl ht
    | cons a b => rfl
  | _ => rfl

theorem createClass_instOk {E : Env} {nm : String} {ds : Option String} {ms : List Defn} {b : Bool}
    (h : createClass E nm ds ms = .ok b) (h1 : nm ≠ "super")
    (h2 : ∀ m ∈ ms, m.name ≠ "super" ∧ m.name ≠ nm) : b = true := by
  unfold createClass at h
  simp only at h
  split at h
  · cases h
  split at h
  · cases h
  split at h
  · cases h
  split at h
  · cases h
  cases h
  have : ∀ n, (∀ m ∈ ms, m.name ≠ n) → (ms.map Defn.name).contains n = false := by
    intro n hn
    rw [← Bool.not_eq_true, List.contains_iff_mem, List.mem_map]
    rintro ⟨m, hm, rfl⟩
    exact hn m hm rfl
  rw [this _ fun m hm => (h2 m hm).1, this _ fun m hm => (h2 m hm).2]
  simp [h1]

theorem createAs_prim_inv {E : Env} {nm : String} {o : Order} {d : Defn} {mh : Hdr} {k : PrimKind}
    {s : Size} {u : String} (h : createAs E nm o d = .ok (.prim mh k s u)) :
    ∃ eh, d = .prim eh k s u := by
  cases d with
  | prim h' k' s' u' =>
    rw [createAs.eq_def] at h
    simp only at h
    split at h <;> cases h
    exact ⟨_, rfl⟩
  | seq h' i e => obtain ⟨_, _, _, _, _, hm, _⟩ := createAs_seq h; cases hm
  | struct h' ms => obtain ⟨_, _, _, _, _, _, _, hm, _⟩ := createAs_struct h; cases hm
  | group h' b i df ms => obtain ⟨_, _, _, _, _, _, _, _, hm⟩ := createAs_group h; cases hm
  | _ => rw [createAs] at h; cases h

/-- The errors of MapByteStream whatever the context. -/
theorem errors_documented {E : Env} {d : Defn} (hE : d.Every (WholeSizes E)) (hd : Reliable E d) {m : DMap}
    (hm : createMap E d = .ok m) (hex : m ≠ .missing) (bs : Bytes) (off depth : Nat) (c : Ctx)
    {e : Err} (he : (mapStream E m bs off depth c).1 = .error e) : Documented e := by
  unfold createMap at hm
  have hev := createAs_every mapWhole_of d _ _ m hm hE
  cases d with
  | prim h k s u =>
    obtain ⟨rfl, n, rfl⟩ := hd
    have : m = .prim { h with name := h.name, order := h.order } k (.bytes n) "bytes" := by
      rw [createAs.eq_def] at hm
      simp only at hm
      split at hm <;> cases hm
      rfl
    subst this
    rw [mapStream] at he
    simp only [primMap, fixedByteSize, BEq.rfl, if_true] at he
    split at he
    · cases he; exact .inr (.inl rfl)
    · split at he
      · cases he; exact .inl rfl
      · cases he
  | uuid h s u =>
    obtain ⟨rfl, n, rfl⟩ := hd
    rw [createAs] at hm
    cases hm
    rw [mapStream] at he
    simp only [uuidMap, fixedByteSize, BEq.rfl, if_true] at he
    split at he
    · cases he; exact .inr (.inl rfl)
    · split at he
      · cases he
      all_goals
        split at he
        · cases he
        · cases he; exact .inl rfl
  | padding h a =>
    obtain ⟨n, rfl, h0⟩ := hd
    rw [createAs] at hm
    cases hm
    rw [mapStream] at he
    cases n with
    | zero => exact absurd rfl h0
    | succ n =>
      simp only [paddingMap, calcPadding] at he
      split at he
      · cases he; exact .inr (.inl rfl)
      · cases he
  | seq h info el =>
    obtain ⟨n, eo, em, hem, -, rfl, hfin⟩ := createAs_seq hm
    rw [mapStream] at he
    simp only [Reliable] at hd
    obtain ⟨hE, hd⟩ := hd
    split at he
    · rename_i hk
      rw [hk] at hd
      simp only at hd
      have h1 := @streamMap_errors E info hE (by rw [hk]; simp) ⟨el.byteSize, el.isComposite, el.terminator?⟩ bs off c
      generalize streamMap E info _ bs off c = r at h1 he
      rcases r with ⟨x | v, c'⟩
      · cases he
        rcases h1 rfl with h | h | h | ⟨-, h2, h3⟩
        · exact .inl h
        · exact .inr (.inl h)
        · exact .inr (.inr h)
        · exfalso
          rcases hd with hd | ⟨hd1, hd2⟩
          · exact h2 hd
          · rcases h3 with h3 | ⟨t, ht, h3⟩
            · exact hd1 h3
            · rw [isTerm_nil (by rintro rfl; exact hd2 ht)] at h3
              cases h3
      · cases he
    · rename_i enc hk
      rw [hk] at hd
      simp only at hd
      rcases stringMap_errors hE (by rw [hk]; simp) he with h | h | h | ⟨-, h2, h3⟩
      · exact .inl h
      · exact .inr (.inl h)
      · exact .inr (.inr h)
      · exfalso
        rcases hd with hd | ⟨hd1, t, hd2, hd3⟩
        · exact h2 hd
        · rcases h3 with h3 | ⟨t', ht, h3⟩ | h3
          · exact hd1 h3
          · rw [hd2] at ht
            cases ht
            rw [isTerm_nil (by rintro ⟨⟩; exact hd3 rfl)] at h3
            cases h3
          · exact h3 t hd2
    · rename_i hk
      rw [hk] at hd
      simp only at hd
      obtain ⟨⟨hz, hv⟩, hlin⟩ := hd
      split at he
      · rename_i hl
        unfold seqLinear at hl
        simp only [Bool.not_eq_true', Bool.or_eq_false_iff, Option.isSome_eq_false_iff,
          Option.isNone_iff_eq_none] at hl
        obtain ⟨hb, hc⟩ := hlin hl.1.1.1 hl.1.1.2 hl.1.2 hl.2
        cases hbs : (Defn.seq h info el).byteSize with
        | none => exact absurd hbs hb
        | some nb =>
          rw [hbs] at he
          simp only [linearSeqMap] at he
          split at he
          · cases he; exact .inr (.inl rfl)
          split at he
          · cases he; exact .inl rfl
          split at he
          · obtain ⟨eh, rfl⟩ := createAs_prim_inv hem
            have hcv := mapValues_converts (hc _ _ _ _ rfl)
            split at he
            · rename_i x hx
              have := hx.symm.trans (hcv _).choose_spec
              cases this
            · cases he
          · cases he; exact .inl rfl
      · rcases (compositeSeqMap_errors hE
          (fun p c => mapStream_tame em hev.2 bs p (depth + 1) c)).2 e he with h | h | ⟨h1, h2⟩
        · exact h
        · exact absurd h hz
        · exfalso
          obtain ⟨eh, ei, ee, rfl⟩ := hv h1
          simp [Defn.terminator?] at h2
  | struct h ms =>
    obtain ⟨io, infos, maps, l, hcls, hmem, hlin, rfl, -⟩ := createAs_struct hm
    simp only [DMap.Every, everyMap_iff] at hev
    rcases (struct_errors (fun m hm => mapStream_tame m (hev.2 m hm)) bs off depth c).2 e he with
      h | ⟨rfl, h⟩ | ⟨-, rfl⟩
    · exact h
    · exact absurd h (hd.1 fun m hm => (checkLinear_true hlin m hm).1)
    · cases createClass_instOk hcls hd.2.1 hd.2.2
  | union h ms => rw [createAs] at hm; cases hm; exact absurd rfl hex
  | family h b ms => rw [createAs] at hm; cases hm; exact absurd rfl hex
  | member h i c dt vs => rw [createAs] at hm; cases hm; exact absurd rfl hex
  | constant h v => rw [createAs] at hm; cases hm; rw [mapStream] at he; cases he; exact .inl rfl
  | enumeration h v => rw [createAs] at hm; cases hm; rw [mapStream] at he; cases he; exact .inl rfl
  | format h v l => rw [createAs] at hm; cases hm; rw [mapStream] at he; cases he; exact .inl rfl
  | group h b i df ms =>
    obtain ⟨dm, bm, keys, maps, -, -, -, -, rfl⟩ := createAs_group hm
    simp only [DMap.Every, everyMap_iff, everyOptMap_iff] at hev
    exact (group_errors (mapStream_tame bm hev.2.1) (fun d hd => mapStream_tame d (hev.2.2.1 d hd))
      (fun m hm => mapStream_tame m (hev.2.2.2 m hm)) bs off depth c).2 e he

/-- **C26** For reliable definitions MapByteStream, with any context, raises nothing
but MappingError and ByteStreamTooSmallError if it ends. -/
theorem C26_errors_partial (E : Env) (d : Defn) (hE : d.Every (WholeSizes E)) (hd : Reliable E d) (m : DMap)
    (hm : createMap E d = .ok m) (hex : m ≠ .missing) (bs : Bytes) (off depth : Nat) (c : Ctx)
    (e : Err) (he : (mapStream E m bs off depth c).1 = .error e) (hend : e ≠ .diverge) :
    e = .mapping ∨ e = .tooSmall := by
  rcases errors_documented hE hd hm hex bs off depth c he with h | h | h
  · exact .inl h
  · exact .inr h
  · exact absurd h hend

/-- **C26** With C28, which says when MapByteStream ends: it returns a value or raises
one of the two. -/
theorem C26_returns_partial (E : Env) (d : Defn) (hE : d.Every (WholeSizes E)) (hd : Reliable E d)
    (ha : d.Every (Advances E)) (m : DMap) (hm : createMap E d = .ok m) (hex : m ≠ .missing)
    (bs : Bytes) (off depth : Nat) (c : Ctx) (hc : c.Clean) :
    (∃ v, (mapStream E m bs off depth c).1 = .ok v) ∨
    (mapStream E m bs off depth c).1 = .error .mapping ∨
    (mapStream E m bs off depth c).1 = .error .tooSmall := by
  have hdiv := C28_terminates E d ha m hm bs off depth c hc
  have herr := C26_errors_partial E d hE hd m hm hex bs off depth c
  generalize (mapStream E m bs off depth c).1 = r at hdiv herr ⊢
  rcases r with e | v
  · rcases herr e rfl (by rintro rfl; exact hdiv rfl) with rfl | rfl
    · exact .inr (.inl rfl)
    · exact .inr (.inr rfl)
  · exact .inl ⟨v, rfl⟩

/-- A file the reader accepts, from which a map is created that raises the error on
some stream. -/
def Raises (E : Env) (f : YamlFile) (name : String) (bs : Bytes) (e : Err) : Prop :=
  (readFileObject E {} f).1 = .ok () ∧
  ∃ d m, (readFileObject E {} f).2.getByName E name = some d ∧ createMap E d = .ok m ∧
    (mapStream E m bs 0 0 {}).1 = .error e

def docInt : Yaml := doc [("name", .str "int"), ("type", .str "integer")]

/-- **C26** fails: an integer of the default size raises TypeError. -/
theorem C26_native_refuted : Raises exEnvR { docs := [docInt] } "int" [1, 2, 3, 4] .type :=
  ⟨rfl, .prim { name := "int" } (.integer false) .native "bytes",
    .prim { name := "int" } (.integer false) .native "bytes", rfl, rfl, rfl⟩

def docChar : Yaml := doc [("name", .str "char"), ("type", .str "character"),
  ("attributes", doc [("size", .int 1), ("units", .str "bytes")])]

def docChars : Yaml := doc [("name", .str "chars"), ("type", .str "sequence"),
  ("element_data_type", .str "char"), ("number_of_elements", .int 2)]

def exChar : Defn := .prim { name := "char" } .character (.bytes 1) "bytes"

/-- **C26** fails: characters beyond ASCII in a sequence raise ValueError. -/
theorem C26_characters_refuted :
    Raises exEnvR { docs := [docChar, docChars] } "chars" [0x41, 0x80] .value :=
  ⟨rfl, .seq { name := "chars" } { kind := .sequence, elementDataType := some "char", numElements := some 2 } exChar,
    .seq { name := "chars" } { kind := .sequence, elementDataType := some "char", numElements := some 2 }
      ⟨some 1, false, none⟩ (some 2) (.prim { name := "char" } .character (.bytes 1) "bytes"),
    rfl, rfl, rfl⟩

def docEmptyEnd : Yaml := doc [("name", .str "s"), ("type", .str "stream"),
  ("element_data_type", .str "u8"), ("elements_terminator", .str "")]

/-- **C26** fails: a stream with an empty terminator raises TypeError. -/
theorem C26_terminator_refuted : Raises exEnvR { docs := [docU8, docEmptyEnd] } "s" [1] .type :=
  ⟨rfl, .seq { name := "s" } { kind := .stream, elementDataType := some "u8", terminator := some (.bytes []) } exU8r,
    .seq { name := "s" } { kind := .stream, elementDataType := some "u8", terminator := some (.bytes []) }
      ⟨some 1, false, none⟩ none (.prim { name := "u8" } (.integer true) (.bytes 1) "bytes"),
    rfl, rfl, rfl⟩

def docIntEnd : Yaml := doc [("name", .str "s"), ("type", .str "string"),
  ("element_data_type", .str "char"), ("elements_data_size", .int 2),
  ("elements_terminator", .int 0), ("encoding", .str "ascii")]

/-- **C26** fails: a string whose terminator is an integer, as the format
specification says, raises TypeError. -/
theorem C26_integer_terminator_refuted :
    Raises exEnvR { docs := [docChar, docIntEnd] } "s" [0x41, 0] .type :=
  ⟨rfl, .seq { name := "s" } { kind := .string "ascii", elementDataType := some "char", dataSize := some 2, terminator := some (.int 0) } exChar,
    .seq { name := "s" } { kind := .string "ascii", elementDataType := some "char", dataSize := some 2, terminator := some (.int 0) }
      ⟨some 1, false, none⟩ (some 2) (.prim { name := "char" } .character (.bytes 1) "bytes"),
    rfl, rfl, rfl⟩

def docHidden : Yaml := doc [("name", .str "point"), ("type", .str "structure"),
  ("attributes", doc [("byte_order", .str "little-endian")]),
  ("members", .list [
    doc [("name", .str "point"), ("data_type", .str "u8"), ("condition", .str "1 == 1")]])]

/-- **C26** fails: a structure with a condition that has a member of its own name
raises TypeError. -/
theorem C26_name_refuted : Raises exEnvR { docs := [docU8, docHidden] } "point" [1] .type :=
  ⟨rfl, .struct { name := "point", order := .little }
      [.member { name := "point" } exU8r (some "1 == 1") (some "u8") none],
    .struct { name := "point", order := .little } none false false
      [{ name := "point", condition := some "1 == 1" }]
      [.prim { name := "_point_u8", order := .little } (.integer true) (.bytes 1) "bytes"],
    rfl, rfl, rfl⟩

def docNative : Yaml := doc [("name", .str "point"), ("type", .str "structure"),
  ("members", .list [doc [("name", .str "x"), ("data_type", .str "int")]])]

/-- **C26** fails: a structure with a member of the default size raises TypeError. -/
theorem C26_native_member_refuted :
    Raises exEnvR { docs := [docInt, docNative] } "point" [1, 2, 3, 4] .type :=
  ⟨rfl, .struct { name := "point" }
      [.member { name := "x" } (.prim { name := "int" } (.integer false) .native "bytes") none
        (some "int") none],
    .struct { name := "point" } none true true [{ name := "x" }]
      [.prim { name := "int" } (.integer false) .native "bytes"],
    rfl, rfl, rfl⟩

def docVar : Yaml := doc [("name", .str "var"), ("type", .str "structure"),
  ("members", .list [doc [("name", .str "a"), ("data_type", .str "u8")],
    doc [("name", .str "data"), ("type", .str "stream"), ("element_data_type", .str "u8"),
      ("elements_data_size", .str "var.a")]])]

def docVars : Yaml := doc [("name", .str "vars"), ("type", .str "sequence"),
  ("element_data_type", .str "var"), ("elements_data_size", .int 4)]

/-- **C26** fails: a sequence with a data size whose elements are structures of
variable size raises AttributeError. -/
theorem C26_variable_elements_refuted :
    Raises exEnvR { docs := [docU8, docVar, docVars] } "vars" [1, 2, 1, 3] .attribute :=
  ⟨rfl, .seq { name := "vars" }
      { kind := .sequence, elementDataType := some "var", dataSize := some 4 }
      (.struct { name := "var" } [.member { name := "a" } exU8r none (some "u8") none,
        .seq { name := "data" }
          { kind := .stream, elementDataType := some "u8", dataSizeExpr := some "var.a" } exU8r]),
    .seq { name := "vars" }
      { kind := .sequence, elementDataType := some "var", dataSize := some 4 }
      ⟨none, true, none⟩ (some 4)
      (.struct { name := "var" } none false true [{ name := "a" }, { name := "data" }]
        [.prim { name := "u8" } (.integer true) (.bytes 1) "bytes",
          .seq { name := "data" }
            { kind := .stream, elementDataType := some "u8", dataSizeExpr := some "var.a" }
            ⟨some 1, false, none⟩ none
            (.prim { name := "u8" } (.integer true) (.bytes 1) "bytes")]),
    rfl, rfl, rfl⟩

/-- An environment in which `4 / 2` is 2.0. -/
def exEnvHalf : Env :=
  { exEnvR with evalExpr := fun x _ => if x = "4 / 2" then some (.float 0x4000000000000000) else none }

def docHalf : Yaml := doc [("name", .str "s"), ("type", .str "stream"),
  ("element_data_type", .str "u8"), ("elements_data_size", .str "4 / 2")]

set_option exponentiation.threshold 2000 in
/-- **C26** fails: a stream whose size is a floating-point number raises TypeError. -/
theorem C26_float_refuted : Raises exEnvHalf { docs := [docU8, docHalf] } "s" [1, 2] .type :=
  ⟨rfl, .seq { name := "s" } { kind := .stream, elementDataType := some "u8", dataSizeExpr := some "4 / 2" } exU8r,
    .seq { name := "s" } { kind := .stream, elementDataType := some "u8", dataSizeExpr := some "4 / 2" }
      ⟨some 1, false, none⟩ none (.prim { name := "u8" } (.integer true) (.bytes 1) "bytes"),
    rfl, rfl, by rfl⟩

/-- A definition that meets the hypotheses and a stream on which it raises. -/
example : exStruct.Every (WholeSizes exEnv) ∧ Reliable exEnv exStruct ∧ exStruct.Every (Advances exEnv) ∧
    (∃ m, createMap exEnv exStruct = .ok m ∧ m ≠ .missing ∧
      (mapStream exEnv m [] 0 0 {}).1 = .error .tooSmall) := by
  refine ⟨?_, ⟨fun _ => by decide, by decide, ?_⟩, ?_, ⟨_, rfl, (fun h => by cases h), rfl⟩⟩
  · simp only [Defn.Every, everyDefn, exStruct, exSeq, exU8, exU16, exUuid, WholeSizes, FloatSizes, and_true, and_false,
      true_and, reduceCtorEq, or_self, false_implies, implies_true]
  · intro m hm
    simp only [exSeq, List.mem_cons, List.not_mem_nil, or_false] at hm
    rcases hm with rfl | rfl | rfl <;> decide
  · simp [Defn.Every, everyDefn, exStruct, exSeq, exU8, exU16, exUuid, Advances, Counted]

/-- A sequence of numbers in `4 / 2` bytes and a stream of `4 / 2` bytes. -/
def exHalves : Defn := .struct { name := "t", order := .little } [
  .seq { name := "a" } { kind := .sequence, elementDataType := some "u8", dataSizeExpr := some "4 / 2" } exU8r,
  .seq { name := "b" } { kind := .stream, elementDataType := some "u8", dataSizeExpr := some "4 / 2" } exU8r]

set_option exponentiation.threshold 2000 in
/-- Floating-point sizes within a structure: the error of the stream is converted. -/
example : exHalves.Every (WholeSizes exEnvHalf) ∧ Reliable exEnvHalf exHalves ∧
    exHalves.Every (Advances exEnvHalf) ∧
    (∃ m, createMap exEnvHalf exHalves = .ok m ∧ m ≠ .missing ∧
      (mapStream exEnvHalf m [1] 0 0 {}).1 = .error .tooSmall ∧
      (mapStream exEnvHalf m [1, 2, 3, 4] 0 0 {}).1 = .error .mapping) := by
  refine ⟨?_, ⟨fun h => absurd (h _ List.mem_cons_self) (by decide), by decide, ?_⟩, ?_, ⟨_, rfl, (fun h => by cases h), by rfl, by rfl⟩⟩
  · simp only [Defn.Every, everyDefn, exHalves, exU8r, WholeSizes, and_true, reduceCtorEq, false_implies,
      forall_const, true_and]
    intro x ns b hx hb
    simp only [reduceCtorEq, and_false, or_false, Option.some.injEq] at hx
    subst hx
    cases hb
    exact ⟨_, .float ((double_iff _ _).mpr ((quantity_fin _ _).mpr
      (by decide +kernel : fVal 0x4000000000000000 = .fin (2 * 2 ^ 1074)))), .inr ⟨rfl, 2, rfl⟩⟩
  · intro m hm
    simp only [List.mem_cons, List.not_mem_nil, or_false] at hm
    rcases hm with rfl | rfl <;> decide
  · simp only [Defn.Every, everyDefn, exHalves, exU8r, Advances, and_true]
    refine ⟨trivial, .inr fun n o em hm => C28_fixed_size_elements exEnvHalf exU8r trivial 1 rfl (by omega) n o em hm, ?_⟩
    simp [Defn.byteSize, fixedByteSize]

end Dtf
