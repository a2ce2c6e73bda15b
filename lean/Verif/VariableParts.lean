import Verif.VariableOpen
import Verif.Props.Hints
/-!
Which types of a file can be read by size hints, and that their definitions meet the
conditions of C29.
-/
namespace Dtf
namespace Spec

/-- Some name occurs in the expression. -/
def Expr.HasName : Expr → Prop
  | .number _ => False
  | .given _ | .field _ _ => True
  | .plus a b | .minus a b | .times a b | .bits a b => a.HasName ∨ b.HasName
  | .over a _ => a.HasName
  | .choose a _ c d b => (a.HasName ∨ b.HasName) ∨ c.HasName ∨ d.HasName

/-- The expression needs the numbers its names stand for. Of two expressions to choose from
both need them, or there is no order without them, or the one chosen needs them if the
comparison is one for equality: `None` is not equal to a number. -/
def Expr.NeedsNames : Expr → Prop
  | .number _ => False
  | .given _ | .field _ _ => True
  | .plus a b | .minus a b | .times a b | .bits a b => a.NeedsNames ∨ b.NeedsNames
  | .over a _ => a.NeedsNames
  | .choose a r c d b =>
    (a.NeedsNames ∧ b.NeedsNames) ∨
      match r with
      | .lt | .le => c.NeedsNames ∨ d.NeedsNames
      | .eq => b.NeedsNames ∧ ((c.NeedsNames ∧ ¬ d.HasName) ∨ (d.NeedsNames ∧ ¬ c.HasName))
      | .ne => a.NeedsNames ∧ ((c.NeedsNames ∧ ¬ d.HasName) ∨ (d.NeedsNames ∧ ¬ c.HasName))

/-- The expression has no names or needs the numbers they stand for. -/
def Expr.Decided (e : Expr) : Prop := ¬ e.HasName ∨ e.NeedsNames

/-- Python has no number for an expression that needs names as long as they have no numbers:
where there are no names, or only a record all of whose fields are `None`. -/
def Strict (E : Env) : Prop :=
  ∀ e : Expr, e.Accepted E → e.NeedsNames → ∀ ns, Blank ns → ∀ v, E.evalExpr e.text (withBuiltins ns) = some v → ¬ IsNumber v

/-- The number of bytes of a block or text of a fixed size. -/
def Len.span (unit : Nat) : Len → Option Nat
  | .bytes (.number n) | .bytesTo (.number n) _ => some n
  | .count (.number n) | .countTo (.number n) _ => some (n * unit)
  | _ => none

mutual
/-- The number of bytes of a type of a fixed size. -/
def VTy.span : VTy → Option Nat
  | .fixed t => some t.size
  | .block _ e len | .text _ _ e len => len.span e.size
  | .array _ e (.number n) => e.span.map (n * ·)
  | .array _ _ _ | .list _ _ _ => none
  | .record _ _ fs => fs.span
  | .group _ _ _ _ => none
termination_by structural t => t
def VFields.span : VFields → Option Nat
  | .nil => some 0
  | .cons _ none _ t fs =>
    match t.span, fs.span with
    | some n, some k => some (n + k)
    | _, _ => none
  | .cons _ (some _) _ _ _ | .padding _ _ _ => none
termination_by structural fs => fs
end

/-- A terminator without a length has one byte, a terminator with a number of elements a
fixed number; expressions have no names or need the numbers they stand for. -/
def Len.Retriable : Len → Prop
  | .upto t => t.length = 1
  | .countTo x _ => ∃ n, x = .number n
  | .bytes x | .count x | .bytesTo x _ => x.Decided

mutual
/-- Types without conditional fields, padding and groups, with arrays of elements of a
fixed size only, with lists of elements of one byte only and with terminators of one byte
only, except for blocks and texts that have a length, too. Expressions have no names or
need the numbers they stand for. -/
def VTy.Retriable : VTy → Prop
  | .fixed _ => True
  | .block _ _ len | .text _ _ _ len => len.Retriable
  | .array _ e x => (e.Retriable ∧ e.span ≠ none) ∧ x.Decided
  | .list _ e x => (e.Retriable ∧ e.span = some 1) ∧ x.Decided
  | .record _ _ fs => fs.Retriable
  | .group _ _ _ _ => False
termination_by structural t => t
def VFields.Retriable : VFields → Prop
  | .nil => True
  | .cons _ c _ t fs => c = none ∧ t.Retriable ∧ fs.Retriable
  | .padding _ _ _ => False
termination_by structural fs => fs
end

/-- Padding is not counted. -/
def VFields.RetriableBesidesPadding : VFields → Prop
  | .nil => True
  | .cons _ c _ t fs => c = none ∧ t.Retriable ∧ fs.RetriableBesidesPadding
  | .padding _ _ fs => fs.RetriableBesidesPadding

/-- The least number of bytes of a block or text: the number of bytes if it is fixed, the
terminator if there is one. -/
def Len.least (unit : Nat) : Len → Nat
  | .upto t => t.length
  | len => (len.span unit).getD 0

mutual
/-- The least number of bytes of a type: parts of a fixed size and terminators. -/
def VTy.least : VTy → Nat
  | .fixed t => t.size
  | .block _ e len | .text _ _ e len => len.least e.size
  | .array _ e (.number n) => n * e.least
  | .array _ _ _ | .list _ _ _ => 0
  | .record _ _ fs => fs.least
  | .group _ _ _ _ => 0
termination_by structural t => t
def VFields.least : VFields → Nat
  | .nil => 0
  | .cons _ none _ t fs => t.least + fs.least
  | .cons _ (some _) _ _ fs | .padding _ _ fs => fs.least
termination_by structural fs => fs
end

/-- The records of a group are `Retriable` and have at least `n` bytes. -/
def VMembers.RetriableFrom (n : Nat) : VMembers → Prop
  | .nil => True
  | .default _ => False
  | .cons t ms => t.Retriable ∧ n ≤ t.least ∧ ms.RetriableFrom n

/-- Types that can be read by size hints: `Retriable` types, such records with padding,
and groups without a record for all other cases, of such records that are no smaller
than the base. -/
def VTy.ByHints : VTy → Prop
  | .record _ _ fs => fs.RetriableBesidesPadding
  | .group _ base _ ms => base.Retriable ∧ ∃ n, base.span = some n ∧ ms.RetriableFrom n
  | t => t.Retriable

end Spec
open Spec

/-! ### Expressions -/

theorem constant_value {e : Expr} (h : ¬ e.HasName) : ∃ i, ∀ s, e.value s = some i := by
  induction e with
  | number n => exact ⟨n, fun _ => rfl⟩
  | given n => exact absurd trivial h
  | field r f => exact absurd trivial h
  | plus a b iha ihb | minus a b iha ihb | times a b iha ihb | bits a b iha ihb =>
    rw [Expr.HasName, not_or] at h
    obtain ⟨i, hi⟩ := iha h.1
    obtain ⟨j, hj⟩ := ihb h.2
    exact ⟨_, fun s => by rw [Expr.value, hi, hj]⟩
  | over a n iha =>
    obtain ⟨i, hi⟩ := iha h
    exact ⟨_, fun s => by rw [Expr.value, hi]⟩
  | choose a r c d b iha ihc ihd ihb =>
    rw [Expr.HasName, not_or, not_or, not_or] at h
    obtain ⟨i, hi⟩ := iha h.1.1
    obtain ⟨j, hj⟩ := ihb h.1.2
    obtain ⟨k, hk⟩ := ihc h.2.1
    obtain ⟨l, hl⟩ := ihd h.2.2
    refine ⟨if r.holds k l then i else j, fun s => ?_⟩
    simp only [Expr.value, hi, hj, hk, hl]
    split <;> rfl

theorem expr_steady {E : Env} (A : Arithmetic E) (S : Strict E) {e : Expr} (h : e.Accepted E) (hd : e.Decided) :
    Steady E e.text := by
  intro ns hb v hv hnum ns'
  rcases hd with hn | hn
  · obtain ⟨i, hi⟩ := constant_value hn
    rw [A.evaluates e _ i h (hi _)] at hv
    rw [← hv]
    exact A.evaluates e _ i h (hi _)
  · exact absurd hnum (S e h hn ns hb v hv)

theorem formula_some {e : Expr} {x : String} (h : e.formula = some x) : x = e.text ∧ e.plain = none := by
  cases e <;> simp [Expr.formula] at h <;> simp [h, Expr.plain]

theorem plain_some {e : Expr} {k : Int} (h : e.plain = some k) : ∃ n : Nat, e = .number n ∧ k = n ∧ e.formula = none := by
  cases e <;> simp [Expr.plain] at h
  exact ⟨_, rfl, h.symm, rfl⟩

/-! ### Sizes -/

mutual
theorem openTy_byteSize {E : Env} (bare : List String) (t : Ty) (h : TyOk E t) :
    (openTyDefn bare t).byteSize = some (t.size : Int) := by
  cases t with
  | scalar n b k s => simp [openTyDefn, Defn.byteSize, fixedByteSize, Ty.size]
  | uuid n b => simp [openTyDefn, Defn.byteSize, fixedByteSize, Ty.size]
  | stream n e s =>
    rw [TyOk] at h
    have : s ≠ 0 := by omega
    simp [openTyDefn, Defn.byteSize, truthyInt, Ty.size, this]
  | sequence n e k =>
    rw [TyOk] at h
    have h1 : (k : Int) ≠ 0 := by omega
    have h2 := ty_pos e h.2.2
    have h3 : (e.size : Int) ≠ 0 := by omega
    rw [openTyDefn, Defn.byteSize]
    simp only [truthyInt, openTy_byteSize bare e h.2.2, if_neg h3, bne_iff_ne, ne_eq, h1, not_false_eq_true,
      if_true, Option.map_some, Bool.false_eq_true, if_false, Ty.size]
    simp
  | record n b fs =>
    rw [TyOk] at h
    rw [openTyDefn, Ty.size]
    have := openFields_byteSize bare fs h.2.2.2.2.2 0
    cases fs with
    | nil => exact absurd rfl h.2.1.nonempty
    | cons _ _ _ =>
      rw [openFieldDefns] at this ⊢
      rw [Defn.byteSize, this]
      simp
theorem openFields_byteSize {E : Env} (bare : List String) (fs : Fields) (h : FieldsOk E fs) (total : Int) :
    structSize total (openFieldDefns bare fs) = some (total + fs.size) := by
  cases fs with
  | nil => simp [openFieldDefns, structSize, Fields.size]
  | cons n t fs =>
    rw [FieldsOk] at h
    rw [openFieldDefns, structSize.eq_def]
    simp only [Defn.byteSize, truthyStr, Bool.false_eq_true, if_false, openTy_byteSize bare t h.1,
      openFields_byteSize bare fs h.2, Fields.size]
    congr 1
    simp
    omega
end

theorem len_byteSize {E : Env} (bare : List String) {h : Hdr} {kind : SeqKind} {e : Ty} {len : Len} {k : Nat} (he : TyOk E e)
    (hl : LenOk E e len) (hk : len.span e.size = some k) :
    0 < k ∧ (Defn.seq h (lenInfo kind e len) (openTyDefn bare e)).byteSize = some (k : Int) := by
  have hp := ty_pos e he
  have hp' : ¬ (e.size : Int) = 0 := by omega
  cases len with
  | upto t => cases hk
  | bytes x =>
    cases x with
    | number n =>
      cases hk
      have hn := hl.2 _ rfl
      refine ⟨hn, ?_⟩
      rw [Defn.byteSize]
      simp [lenInfo, Expr.plain, truthyInt, show k ≠ 0 by omega]
    | _ => cases hk
  | bytesTo x u =>
    cases x with
    | number n =>
      cases hk
      have hn := hl.2.1 _ rfl
      refine ⟨hn, ?_⟩
      rw [Defn.byteSize]
      simp [lenInfo, Expr.plain, truthyInt, show k ≠ 0 by omega]
    | _ => cases hk
  | count x =>
    cases x with
    | number n =>
      cases hk
      have hn := hl.2 _ rfl
      refine ⟨Nat.mul_pos hn hp, ?_⟩
      rw [Defn.byteSize]
      simp only [lenInfo, Expr.plain, truthyInt, openTy_byteSize bare e he, if_neg hp', Bool.false_eq_true, if_false,
        bne_iff_ne, ne_eq, show ¬ (n : Int) = 0 by omega, not_false_eq_true, if_true, Option.map_some]
      rw [Int.natCast_mul, Int.mul_comm]
    | _ => cases hk
  | countTo x u =>
    cases x with
    | number n =>
      cases hk
      have hn := hl.2.1 _ rfl
      refine ⟨Nat.mul_pos hn hp, ?_⟩
      rw [Defn.byteSize]
      simp only [lenInfo, Expr.plain, truthyInt, openTy_byteSize bare e he, if_neg hp', Bool.false_eq_true, if_false,
        bne_iff_ne, ne_eq, show ¬ (n : Int) = 0 by omega, not_false_eq_true, if_true, Option.map_some]
      rw [Int.natCast_mul, Int.mul_comm]
    | _ => cases hk

mutual
theorem open_byteSize {E : Env} (bare : List String) (t : VTy) (h : VTyOk E t) (k : Nat) (hk : t.span = some k) :
    0 < k ∧ (openDefn bare t).byteSize = some (k : Int) := by
  cases t with
  | fixed t =>
    rw [VTyOk] at h
    rw [VTy.span] at hk
    cases hk
    rw [openDefn]
    exact ⟨ty_pos t h, openTy_byteSize bare t h⟩
  | block n e len =>
    rw [VTyOk] at h
    rw [VTy.span] at hk
    rw [openDefn]
    exact len_byteSize bare h.2.2.1 h.2.2.2 hk
  | text n enc e len =>
    rw [VTyOk] at h
    rw [VTy.span] at hk
    rw [openDefn]
    exact len_byteSize bare h.2.2.1 h.2.2.2 hk
  | array n e count =>
    rw [VTyOk] at h
    cases count with
    | number c =>
      rw [VTy.span, Option.map_eq_some_iff] at hk
      obtain ⟨j, hj, rfl⟩ := hk
      obtain ⟨h1, h2⟩ := open_byteSize bare e h.2.2.2 j hj
      have hc := (h.2.2.1 c rfl).1
      refine ⟨Nat.mul_pos hc h1, ?_⟩
      rw [openDefn, Defn.byteSize]
      simp only [countInfo, Expr.plain, truthyInt, h2, if_neg (show ¬ (j : Int) = 0 by omega), Bool.false_eq_true, if_false,
        bne_iff_ne, ne_eq, show ¬ (c : Int) = 0 by omega, not_false_eq_true, if_true, Option.map_some]
      rw [Int.natCast_mul, Int.mul_comm]
    | _ => simp [VTy.span] at hk
  | list _ _ _ => rw [VTy.span] at hk; cases hk
  | record n b fs =>
    rw [VTyOk] at h
    rw [VTy.span] at hk
    rw [openDefn]
    obtain ⟨h1, h2⟩ := openFields_span bare fs h.2.2.2.2.2.2 k hk 0
    cases fs with
    | nil => exact absurd rfl h.2.1.nonempty
    | padding _ _ _ => rw [VFields.span] at hk; cases hk
    | cons _ _ _ _ _ =>
      refine ⟨h1 (by simp), ?_⟩
      rw [openVFieldDefns] at h2 ⊢
      rw [Defn.byteSize, h2]
      simp
  | group _ _ _ _ => rw [VTy.span] at hk; cases hk
termination_by structural t
theorem openFields_span {E : Env} (bare : List String) (fs : VFields) (h : VFieldsOk E fs) (k : Nat) (hk : fs.span = some k)
    (total : Int) : (fs ≠ .nil → 0 < k) ∧ structSize total (openVFieldDefns bare fs) = some (total + k) := by
  cases fs with
  | nil =>
    rw [VFields.span] at hk
    cases hk
    exact ⟨fun h => absurd rfl h, by simp [openVFieldDefns, structSize]⟩
  | padding _ _ _ => rw [VFields.span] at hk; cases hk
  | cons n c vs t fs =>
    cases c with
    | some _ => rw [VFields.span] at hk; cases hk
    | none =>
      rw [VFieldsOk] at h
      rw [VFields.span] at hk
      split at hk
      · rename_i i j hi hj
        cases hk
        obtain ⟨h1, h2⟩ := open_byteSize bare t h.2.2.1 i hi
        have h3 := fun total => (openFields_span bare fs h.2.2.2 j hj total).2
        refine ⟨fun _ => by omega, ?_⟩
        rw [openVFieldDefns, structSize.eq_def]
        simp only [Defn.byteSize, Option.map_none, truthyStr, Bool.false_eq_true, if_false, h2, h3]
        congr 1
        omega
      · cases hk
termination_by structural fs
end

/-! ### The conditions of C29 -/

theorem Defn.Every.and {P Q : Defn → Prop} (d : Defn) (hp : d.Every P) (hq : d.Every Q) : d.Every fun d => P d ∧ Q d := by
  induction d using Defn.ind with
  | seq h i e ih | member h e c dt vs ih =>
    simp only [Defn.Every] at hp hq ⊢
    exact ⟨⟨hp.1, hq.1⟩, ih hp.2 hq.2⟩
  | struct h ms ih | union h ms ih =>
    simp only [Defn.Every, everyDefn_iff] at hp hq ⊢
    exact ⟨⟨hp.1, hq.1⟩, fun m hm => ih m hm (hp.2 m hm) (hq.2 m hm)⟩
  | family h b ms i1 i2 =>
    simp only [Defn.Every, everyDefn_iff] at hp hq ⊢
    exact ⟨⟨hp.1, hq.1⟩, i1 hp.2.1 hq.2.1, fun m hm => i2 m hm (hp.2.2 m hm) (hq.2.2 m hm)⟩
  | group h b ident dflt ms i1 i2 i3 =>
    simp only [Defn.Every, everyDefn_iff, everyOptDefn_iff] at hp hq ⊢
    exact ⟨⟨hp.1, hq.1⟩, i1 hp.2.1 hq.2.1, fun m hm => i2 m hm (hp.2.2.1 m hm) (hq.2.2.1 m hm),
      fun m hm => i3 m hm (hp.2.2.2 m hm) (hq.2.2.2 m hm)⟩
  | _ => simp only [Defn.Every] at hp hq ⊢; exact ⟨hp, hq⟩

/-- The conditions of C29 besides that types are told apart by their names. -/
def Countable (E : Env) (d : Defn) : Prop :=
  FullTerminators d ∧ ((∀ h ms, d ≠ .struct h ms) → Ordinary d ∧ Plain d) ∧ Hinted E d

theorem countable_all {E : Env} {d : Defn} (h : d.Every (Countable E)) (ho : d.Every Orderly) :
    d.Every fun d => FullTerminators d ∧ Ordinary d ∧ Plain d ∧ Hinted E d := by
  refine Defn.Every.imp ?_ d (Defn.Every.and d h ho)
  rintro d ⟨⟨h1, h2, h3⟩, h4⟩
  cases d with
  | struct hd ms => exact ⟨h1, h4.1, h4.1, h3⟩
  | _ => exact ⟨h1, (h2 (by simp)).1, (h2 (by simp)).2, h3⟩

theorem len_countable {E : Env} (A : Arithmetic E) (S : Strict E) (bare : List String) {h : Hdr} {kind : SeqKind} {e : Ty}
    {len : Len} (hkind : kind ≠ .sequence) (he : TyOk E e) (hl : LenOk E e len) (ht : len.Retriable) :
    Countable E (.seq h (lenInfo kind e len) (openTyDefn bare e)) := by
  have hb := openTy_byteSize bare e he
  have hp := ty_pos e he
  cases len with
  | bytes x =>
    refine ⟨?_, fun _ => ⟨by simp [lenInfo, Ordinary], ?_⟩, ?_⟩
    · intro _ h1 h2
      cases x <;> simp [lenInfo, Expr.plain, Expr.formula] at h1 h2
    · refine ⟨?_, by simp [lenInfo], by simp [lenInfo], fun h => absurd h hkind⟩
      intro k hk
      obtain ⟨n, rfl, rfl, -⟩ := plain_some hk
      have := hl.2 n rfl
      omega
    · refine ⟨?_, e.size, hp, hb, fun h => absurd h hkind, fun _ => ⟨by simp [lenInfo], ?_⟩⟩
      · rintro y (hy | hy)
        · obtain ⟨rfl, -⟩ := formula_some hy
          exact expr_steady A S hl.1 ht
        · cases hy
      · intro h1
        cases x <;> simp [lenInfo, Expr.plain, Expr.formula, SeqInfo.hasDataSize] at h1
  | bytesTo x u =>
    refine ⟨?_, fun _ => ⟨by simp [lenInfo, Ordinary], ?_⟩, ?_⟩
    · intro _ h1 h2
      cases x <;> simp [lenInfo, Expr.plain, Expr.formula] at h1 h2
    · refine ⟨?_, by simp [lenInfo], by simp [lenInfo], fun h => absurd h hkind⟩
      intro k hk
      obtain ⟨n, rfl, rfl, -⟩ := plain_some hk
      have := hl.2.1 n rfl
      omega
    · refine ⟨?_, e.size, hp, hb, fun h => absurd h hkind, fun _ => ⟨by simp [lenInfo], ?_⟩⟩
      · rintro y (hy | hy)
        · obtain ⟨rfl, -⟩ := formula_some hy
          exact expr_steady A S hl.1 ht
        · cases hy
      · intro h1
        cases x <;> simp [lenInfo, Expr.plain, Expr.formula, SeqInfo.hasDataSize] at h1
  | count x =>
    refine ⟨?_, fun _ => ⟨by simp [lenInfo, Ordinary], ?_⟩, ?_⟩
    · intro _ _ _ h1 h2
      cases x <;> simp [lenInfo, Expr.plain, Expr.formula] at h1 h2
    · refine ⟨by simp [lenInfo], ?_, by simp [lenInfo], fun h => absurd h hkind⟩
      intro k hk
      obtain ⟨n, rfl, rfl, -⟩ := plain_some hk
      have := hl.2 n rfl
      omega
    · refine ⟨?_, e.size, hp, hb, fun h => absurd h hkind, fun _ => ⟨by simp [lenInfo], ?_⟩⟩
      · rintro y (hy | hy)
        · cases hy
        · obtain ⟨rfl, -⟩ := formula_some hy
          exact expr_steady A S hl.1 ht
      · intro _ h1
        cases x <;> simp [lenInfo, Expr.plain, Expr.formula, SeqInfo.hasNumElements] at h1
  | countTo x u =>
    have hx : x.formula = none := by obtain ⟨n, rfl⟩ := ht; rfl
    refine ⟨?_, fun _ => ⟨by simp [lenInfo, Ordinary], ?_⟩, ?_⟩
    · intro _ _ _ h1 h2
      cases x <;> simp [lenInfo, Expr.plain, Expr.formula] at h1 h2
    · refine ⟨by simp [lenInfo], ?_, by simp [lenInfo], fun h => absurd h hkind⟩
      intro k hk
      obtain ⟨n, rfl, rfl, -⟩ := plain_some hk
      have := hl.2.1 n rfl
      omega
    · refine ⟨?_, e.size, hp, hb, fun h => absurd h hkind, fun _ => ⟨fun _ => hx, ?_⟩⟩
      · rintro y (hy | hy)
        · cases hy
        · obtain ⟨rfl, -⟩ := formula_some hy
          obtain ⟨n, rfl⟩ := ht
          exact expr_steady A S hl.1 (Or.inl id)
      · intro _ h1
        cases x <;> simp [lenInfo, Expr.plain, Expr.formula, SeqInfo.hasNumElements] at h1
  | upto t =>
    have h1 : t.length = 1 := ht
    refine ⟨?_, fun _ => ⟨by simp [lenInfo, Ordinary], by simp [lenInfo, Plain, hkind]⟩, ?_⟩
    · intro _ _ _ _ _ u hu
      cases hu
      rw [hb, hl.2]
      exact ⟨hl.1, rfl⟩
    · refine ⟨by simp [lenInfo], e.size, hp, hb, fun h => absurd h hkind, fun _ => ⟨by simp [lenInfo], ?_⟩⟩
      intro _ _
      rw [← hl.2, h1]

theorem not_member {E : Env} {h : Hdr} {d : Defn} {c dt vs} (hd : ∀ h d' c t vs, d ≠ .member h d' c t vs) :
    Countable E (.member h d c dt vs) := ⟨trivial, fun _ => ⟨trivial, trivial⟩, hd⟩

theorem openTy_no_member (bare : List String) (t : Ty) : ∀ h d' c x vs, openTyDefn bare t ≠ .member h d' c x vs := by
  cases t <;> simp [openTyDefn]

theorem open_no_member (bare : List String) (t : VTy) : ∀ h d' c x vs, openDefn bare t ≠ .member h d' c x vs := by
  cases t with
  | fixed t => rw [openDefn]; exact openTy_no_member bare t
  | _ => simp [openDefn]

theorem openFields_condition {bare : List String} : ∀ {fs : Fields}, ∀ m ∈ openFieldDefns bare fs,
    truthyStr m.memInfo.condition = false
  | .nil, m, hm => by rw [openFieldDefns] at hm; cases hm
  | .cons n t fs, m, hm => by
    rw [openFieldDefns, List.mem_cons] at hm
    rcases hm with rfl | hm
    · rfl
    · exact openFields_condition m hm

mutual
theorem openTy_countable {E : Env} (bare : List String) (t : Ty) (h : TyOk E t) : (openTyDefn bare t).Every (Countable E) := by
  cases t with
  | scalar n b k s => simp [openTyDefn, Defn.Every, Countable, FullTerminators, Ordinary, Plain, Hinted]
  | uuid n b =>
    simp [openTyDefn, Defn.Every, Countable, FullTerminators, Ordinary, Plain, Hinted, Defn.byteSize, fixedByteSize]
  | stream n e s =>
    rw [TyOk] at h
    rw [openTyDefn, Defn.Every]
    refine ⟨?_, openTy_countable bare e h.2.2.2⟩
    have hb := openTy_byteSize bare e h.2.2.2
    have hp := ty_pos e h.2.2.2
    refine ⟨by simp [FullTerminators], fun _ => ⟨by simp [Ordinary], ?_⟩, by simp, e.size, hp, hb, by simp, fun _ => ⟨by simp, ?_⟩⟩
    · refine ⟨?_, by simp, by simp, by simp⟩
      intro k hk
      cases hk
      omega
    · simp [SeqInfo.hasDataSize]
  | sequence n e k =>
    rw [TyOk] at h
    rw [openTyDefn, Defn.Every]
    refine ⟨?_, openTy_countable bare e h.2.2⟩
    have hb := openTy_byteSize bare e h.2.2
    have hp := ty_pos e h.2.2
    refine ⟨by simp [FullTerminators], fun _ => ⟨by simp [Ordinary], ?_⟩, by simp, e.size, hp, hb, by simp, by simp⟩
    refine ⟨by simp, ?_, by simp, by simp⟩
    intro k hk
    cases hk
    omega
  | record n b fs =>
    rw [TyOk] at h
    rw [openTyDefn, Defn.Every]
    exact ⟨⟨trivial, fun hs => absurd rfl (hs _ _), openFields_condition⟩, openFields_countable bare fs h.2.2.2.2.2⟩
termination_by structural t
theorem openFields_countable {E : Env} (bare : List String) (fs : Fields) (h : FieldsOk E fs) :
    everyDefn (Countable E) (openFieldDefns bare fs) := by
  cases fs with
  | nil => rw [openFieldDefns]; trivial
  | cons n t fs =>
    rw [FieldsOk] at h
    rw [openFieldDefns, everyDefn, Defn.Every]
    exact ⟨⟨not_member (openTy_no_member bare t), openTy_countable bare t h.1⟩, openFields_countable bare fs h.2⟩
termination_by structural fs
end

theorem retriable_condition {bare : List String} : ∀ {fs : VFields}, fs.RetriableBesidesPadding → ∀ m ∈ openVFieldDefns bare fs,
    truthyStr m.memInfo.condition = false
  | .nil, _, m, hm => by rw [openVFieldDefns] at hm; cases hm
  | .cons n c vs t fs, h, m, hm => by
    rw [openVFieldDefns, List.mem_cons] at hm
    rcases hm with rfl | hm
    · cases h.1; rfl
    · exact retriable_condition h.2.2 m hm
  | .padding n a fs, h, m, hm => by
    rw [openVFieldDefns, List.mem_cons] at hm
    rcases hm with rfl | hm
    · rfl
    · exact retriable_condition (fs := fs) h m hm

theorem besides_padding : ∀ {fs : VFields}, fs.Retriable → fs.RetriableBesidesPadding
  | .nil, _ => trivial
  | .cons _ _ _ _ _, h => by
    rw [VFields.Retriable] at h
    exact ⟨h.1, h.2.1, besides_padding h.2.2⟩
  | .padding _ _ _, h => by rw [VFields.Retriable] at h; exact h.elim

mutual
theorem open_countable {E : Env} (A : Arithmetic E) (S : Strict E) (bare : List String) (t : VTy) (h : VTyOk E t)
    (hr : t.Retriable) : (openDefn bare t).Every (Countable E) := by
  cases t with
  | fixed t =>
    rw [VTyOk] at h
    rw [openDefn]
    exact openTy_countable bare t h
  | block n e len =>
    rw [VTyOk] at h
    rw [VTy.Retriable] at hr
    rw [openDefn, Defn.Every]
    exact ⟨len_countable A S bare (by simp) h.2.2.1 h.2.2.2 hr, openTy_countable bare e h.2.2.1⟩
  | text n enc e len =>
    rw [VTyOk] at h
    rw [VTy.Retriable] at hr
    rw [openDefn, Defn.Every]
    exact ⟨len_countable A S bare (by simp) h.2.2.1 h.2.2.2 hr, openTy_countable bare e h.2.2.1⟩
  | array n e count =>
    rw [VTyOk] at h
    rw [VTy.Retriable] at hr
    rw [openDefn, Defn.Every]
    refine ⟨?_, open_countable A S bare e h.2.2.2 hr.1.1⟩
    obtain ⟨k, hk⟩ := Option.ne_none_iff_exists'.mp hr.1.2
    obtain ⟨h1, h2⟩ := open_byteSize bare e h.2.2.2 k hk
    refine ⟨by simp [FullTerminators, countInfo], fun _ => ⟨by simp [Ordinary, countInfo], ?_⟩, ?_⟩
    · refine ⟨by simp [countInfo], ?_, by simp [countInfo], by simp [countInfo]⟩
      intro i hi
      obtain ⟨c, rfl, rfl, -⟩ := plain_some hi
      have := (h.2.2.1 c rfl).1
      omega
    · refine ⟨?_, k, h1, h2, by simp [countInfo], by simp [countInfo]⟩
      rintro y (hy | hy)
      · cases hy
      · obtain ⟨rfl, -⟩ := formula_some hy
        exact expr_steady A S h.2.1 hr.2
  | list n e x =>
    rw [VTyOk] at h
    rw [VTy.Retriable] at hr
    rw [openDefn, Defn.Every]
    refine ⟨?_, open_countable A S bare e h.2.2.2 hr.1.1⟩
    obtain ⟨-, h2⟩ := open_byteSize bare e h.2.2.2 1 hr.1.2
    have hx : x.Computed := by
      have hl := h.2.2.1
      unfold VTy.Listed at hl
      split at hl
      · exact hl
      · cases hr.1.2
      · cases hr.1.2
      · exact hl.elim
    have hp : x.plain = none := (formula_of hx).1
    refine ⟨by simp [FullTerminators, sizeInfo], fun _ => ⟨by simp [Ordinary, sizeInfo], ?_⟩, ?_⟩
    · refine ⟨by simp [sizeInfo, hp], by simp [sizeInfo], by simp [sizeInfo], by simp [sizeInfo, hp]⟩
    · refine ⟨?_, 1, by omega, h2, by simp, by simp [sizeInfo]⟩
      rintro y (hy | hy)
      · obtain ⟨rfl, -⟩ := formula_some hy
        exact expr_steady A S h.2.1 hr.2
      · cases hy
  | record n b fs =>
    rw [VTyOk] at h
    rw [VTy.Retriable] at hr
    rw [openDefn, Defn.Every]
    exact ⟨⟨trivial, fun hs => absurd rfl (hs _ _), retriable_condition (besides_padding hr)⟩,
      openVFields_countable A S bare fs h.2.2.2.2.2.2 hr⟩
  | group _ _ _ _ => rw [VTy.Retriable] at hr; exact hr.elim
termination_by structural t
theorem openVFields_countable {E : Env} (A : Arithmetic E) (S : Strict E) (bare : List String) (fs : VFields) (h : VFieldsOk E fs)
    (hr : fs.Retriable) : everyDefn (Countable E) (openVFieldDefns bare fs) := by
  cases fs with
  | nil => rw [openVFieldDefns]; trivial
  | padding _ _ _ => rw [VFields.Retriable] at hr; exact hr.elim
  | cons n c vs t fs =>
    rw [VFieldsOk] at h
    rw [VFields.Retriable] at hr
    rw [openVFieldDefns, everyDefn, Defn.Every]
    exact ⟨⟨not_member (open_no_member bare t), open_countable A S bare t h.2.2.1 hr.2.1⟩,
      openVFields_countable A S bare fs h.2.2.2 hr.2.2⟩
termination_by structural fs
end

/-! ### Bounds of groups -/

mutual
theorem openTy_greatest {E : Env} (bare : List String) (t : Ty) (h : TyOk E t) : greatest (openTyDefn bare t) = some t.size := by
  cases t with
  | scalar n b k s => simp [openTyDefn, greatest, fixedByteSize, Ty.size]
  | uuid n b => simp [openTyDefn, greatest, fixedByteSize, Ty.size]
  | stream n e s =>
    rw [TyOk] at h
    rw [openTyDefn, greatest]
    simp only [if_neg (show ¬ (s : Int) = 0 by omega), Ty.size]
    simp
  | sequence n e k =>
    have hb := openTy_byteSize bare _ h
    rw [TyOk] at h
    rw [openTyDefn] at hb ⊢
    rw [greatest, hb]
    have := openTy_greatest bare e h.2.2
    simp only [Option.isSome_none, Bool.or_self, Bool.false_eq_true, if_false, if_neg (show ¬ (k : Int) = 0 by omega), this,
      Ty.size]
    split
    · simp only [Option.map_some, Int.toNat_natCast]
    · simp [Nat.mul_comm]
  | record n b fs =>
    rw [TyOk] at h
    rw [openTyDefn, greatest, Ty.size]
    exact openFields_greatest bare fs h.2.2.2.2.2
termination_by structural t
theorem openFields_greatest {E : Env} (bare : List String) (fs : Fields) (h : FieldsOk E fs) :
    greatestSum (openFieldDefns bare fs) = some fs.size := by
  cases fs with
  | nil => rw [openFieldDefns, greatestSum, Fields.size]
  | cons n t fs =>
    rw [FieldsOk] at h
    rw [openFieldDefns, greatestSum, greatest, openTy_greatest bare t h.1, openFields_greatest bare fs h.2, Fields.size]
    rfl
termination_by structural fs
end

theorem len_greatest {E : Env} (bare : List String) {h : Hdr} {kind : SeqKind} {e : Ty} {len : Len} {k : Nat}
    (hkind : kind ≠ .sequence) (he : TyOk E e) (hl : LenOk E e len) (hk : len.span e.size = some k) :
    greatest (.seq h (lenInfo kind e len) (openTyDefn bare e)) = some k ∧
      k ≤ fewest (.seq h (lenInfo kind e len) (openTyDefn bare e)) := by
  have hb := openTy_byteSize bare e he
  cases len with
  | upto t => cases hk
  | bytes x =>
    cases x with
    | number n =>
      cases hk
      have hn := hl.2 _ rfl
      rw [greatest, fewest]
      cases kind with
      | sequence => exact absurd rfl hkind
      | _ => simp [lenInfo, Expr.plain, Expr.formula, show k ≠ 0 by omega]
    | _ => cases hk
  | bytesTo x u =>
    cases x with
    | number n =>
      cases hk
      have hn := hl.2.1 _ rfl
      rw [greatest, fewest]
      cases kind with
      | sequence => exact absurd rfl hkind
      | _ => simp [lenInfo, Expr.plain, Expr.formula, show k ≠ 0 by omega]
    | _ => cases hk
  | count x =>
    cases x with
    | number n =>
      cases hk
      have hn := hl.2 _ rfl
      rw [greatest, fewest, hb]
      cases kind with
      | sequence => exact absurd rfl hkind
      | _ =>
        simp only [lenInfo, Expr.plain, Expr.formula, Option.isSome_none, Bool.false_eq_true, if_false, Option.isSome_some, if_true,
          if_neg (show ¬ (n : Int) = 0 by omega), Option.getD_some, ← Int.natCast_mul, Int.toNat_natCast]
        exact ⟨trivial, Nat.le_refl _⟩
    | _ => cases hk
  | countTo x u =>
    cases x with
    | number n =>
      cases hk
      have hn := hl.2.1 _ rfl
      rw [greatest, fewest, hb]
      cases kind with
      | sequence => exact absurd rfl hkind
      | _ =>
        simp only [lenInfo, Expr.plain, Expr.formula, Option.isSome_none, Bool.false_eq_true, if_false, Option.isSome_some, if_true,
          if_neg (show ¬ (n : Int) = 0 by omega), Option.getD_some, ← Int.natCast_mul, Int.toNat_natCast]
        exact ⟨trivial, Nat.le_refl _⟩
    | _ => cases hk

mutual
theorem open_greatest {E : Env} (bare : List String) (t : VTy) (h : VTyOk E t) (k : Nat) (hk : t.span = some k) :
    greatest (openDefn bare t) = some k := by
  cases t with
  | fixed t =>
    rw [VTyOk] at h
    rw [VTy.span] at hk
    cases hk
    rw [openDefn]
    exact openTy_greatest bare t h
  | block n e len =>
    rw [VTyOk] at h
    rw [VTy.span] at hk
    rw [openDefn]
    exact (len_greatest bare (by simp) h.2.2.1 h.2.2.2 hk).1
  | text n enc e len =>
    rw [VTyOk] at h
    rw [VTy.span] at hk
    rw [openDefn]
    exact (len_greatest bare (by simp) h.2.2.1 h.2.2.2 hk).1
  | array n e count =>
    have hb := (open_byteSize bare _ h k hk).2
    rw [VTyOk] at h
    cases count with
    | number c =>
      rw [VTy.span, Option.map_eq_some_iff] at hk
      obtain ⟨j, hj, rfl⟩ := hk
      have h1 := open_greatest bare e h.2.2.2 j hj
      have hc := (h.2.2.1 c rfl).1
      rw [openDefn] at hb ⊢
      rw [greatest, hb]
      simp only [countInfo, Expr.plain, Expr.formula, Option.isSome_none, Bool.or_self, Bool.false_eq_true, if_false,
        if_neg (show ¬ (c : Int) = 0 by omega), h1]
      split
      · simp only [Option.map_some, Int.toNat_natCast]
      · simp
    | _ => simp [VTy.span] at hk
  | list _ _ _ => rw [VTy.span] at hk; cases hk
  | record n b fs =>
    rw [VTyOk] at h
    rw [VTy.span] at hk
    rw [openDefn, greatest]
    exact openVFields_greatest bare fs h.2.2.2.2.2.2 k hk
  | group _ _ _ _ => rw [VTy.span] at hk; cases hk
termination_by structural t
theorem openVFields_greatest {E : Env} (bare : List String) (fs : VFields) (h : VFieldsOk E fs) (k : Nat) (hk : fs.span = some k) :
    greatestSum (openVFieldDefns bare fs) = some k := by
  cases fs with
  | nil =>
    rw [VFields.span] at hk
    cases hk
    rw [openVFieldDefns, greatestSum]
  | padding _ _ _ => rw [VFields.span] at hk; cases hk
  | cons n c vs t fs =>
    cases c with
    | some _ => rw [VFields.span] at hk; cases hk
    | none =>
      rw [VFieldsOk] at h
      rw [VFields.span] at hk
      split at hk
      · rename_i i j hi hj
        cases hk
        rw [openVFieldDefns, greatestSum, greatest, open_greatest bare t h.2.2.1 i hi, openVFields_greatest bare fs h.2.2.2 j hj]
        rfl
      · cases hk
termination_by structural fs
end

mutual
theorem openTy_fewest {E : Env} (bare : List String) (t : Ty) (h : TyOk E t) : t.size ≤ fewest (openTyDefn bare t) := by
  cases t with
  | scalar n b k s => simp [openTyDefn, fewest, fixedByteSize, Ty.size]
  | uuid n b => simp [openTyDefn, fewest, fixedByteSize, Ty.size]
  | stream n e s =>
    rw [TyOk] at h
    rw [openTyDefn, fewest]
    simp [Ty.size]
  | sequence n e k =>
    have hb := openTy_byteSize bare _ h
    rw [TyOk] at h
    rw [openTyDefn] at hb ⊢
    rw [fewest, hb]
    have := openTy_fewest bare e h.2.2
    simp only [Option.isSome_none, Bool.or_self, Bool.false_eq_true, if_false, Ty.size]
    split
    · simp only [Option.getD_some, Int.toNat_natCast]
      exact Nat.le_refl _
    · simp only [Option.getD_some, Int.toNat_natCast, Nat.mul_comm]
      exact Nat.mul_le_mul_left _ this
  | record n b fs =>
    rw [TyOk] at h
    rw [openTyDefn, fewest, Ty.size]
    exact openFields_fewest bare fs h.2.2.2.2.2
termination_by structural t
theorem openFields_fewest {E : Env} (bare : List String) (fs : Fields) (h : FieldsOk E fs) :
    fs.size ≤ fewestSum (openFieldDefns bare fs) := by
  cases fs with
  | nil => rw [openFieldDefns, fewestSum, Fields.size]; exact Nat.le_refl _
  | cons n t fs =>
    rw [FieldsOk] at h
    have h1 := openTy_fewest bare t h.1
    have h2 := openFields_fewest bare fs h.2
    rw [openFieldDefns, fewestSum, fewest, Fields.size]
    simp only [truthyStr, Bool.false_eq_true, if_false]
    omega
termination_by structural fs
end

theorem len_fewest {E : Env} (bare : List String) {h : Hdr} {kind : SeqKind} {e : Ty} {len : Len}
    (hkind : kind ≠ .sequence) (he : TyOk E e) (hl : LenOk E e len) :
    len.least e.size ≤ fewest (.seq h (lenInfo kind e len) (openTyDefn bare e)) := by
  have hb := openTy_byteSize bare e he
  cases len with
  | upto t =>
    rw [fewest, hb, Len.least, hl.2]
    cases kind with
    | sequence => exact absurd rfl hkind
    | _ => simp [lenInfo]
  | bytes x | count x | bytesTo x u | countTo x u =>
    rw [Len.least]
    rcases hs : Len.span e.size _ with _ | k
    · exact Nat.zero_le _
    · exact (len_greatest bare hkind he hl hs).2
    · rintro _ ⟨⟩

mutual
theorem open_fewest {E : Env} (bare : List String) (t : VTy) (h : VTyOk E t) : t.least ≤ fewest (openDefn bare t) := by
  cases t with
  | fixed t =>
    rw [VTyOk] at h
    rw [openDefn, VTy.least]
    exact openTy_fewest bare t h
  | block n e len =>
    rw [VTyOk] at h
    rw [openDefn, VTy.least]
    exact len_fewest bare (by simp) h.2.2.1 h.2.2.2
  | text n enc e len =>
    rw [VTyOk] at h
    rw [openDefn, VTy.least]
    exact len_fewest bare (by simp) h.2.2.1 h.2.2.2
  | array n e count =>
    rw [VTyOk] at h
    cases count with
    | number c =>
      have h1 := open_fewest bare e h.2.2.2
      have hc := (h.2.2.1 c rfl).1
      rw [openDefn, fewest, VTy.least]
      simp only [countInfo, Expr.plain, Expr.formula, Option.isSome_none, Bool.or_self, Bool.false_eq_true, if_false,
        Option.getD_some, Int.toNat_natCast]
      split
      · rename_i h2
        exfalso
        have h3 := (h.2.2.1 c rfl).2
        cases e with
        | fixed t => exact h3 t rfl
        | _ => simp [openDefn, oneRead, Defn.isComposite] at h2
      · exact Nat.mul_le_mul_left _ h1
    | _ => simp [VTy.least]
  | list _ _ _ => rw [VTy.least]; exact Nat.zero_le _
  | record n b fs =>
    rw [VTyOk] at h
    rw [openDefn, fewest, VTy.least]
    exact openVFields_fewest bare fs h.2.2.2.2.2.2
  | group _ _ _ _ => rw [VTy.least]; exact Nat.zero_le _
termination_by structural t
theorem openVFields_fewest {E : Env} (bare : List String) (fs : VFields) (h : VFieldsOk E fs) :
    fs.least ≤ fewestSum (openVFieldDefns bare fs) := by
  cases fs with
  | nil => rw [VFields.least]; exact Nat.zero_le _
  | padding n a fs =>
    rw [VFieldsOk] at h
    have h2 := openVFields_fewest bare fs h.2
    rw [VFields.least, openVFieldDefns, fewestSum]
    omega
  | cons n c vs t fs =>
    rw [VFieldsOk] at h
    have h1 := open_fewest bare t h.2.2.1
    have h2 := openVFields_fewest bare fs h.2.2.2
    cases c with
    | some _ =>
      rw [VFields.least, openVFieldDefns, fewestSum]
      omega
    | none =>
      rw [VFields.least, openVFieldDefns, fewestSum, fewest]
      simp only [Option.map_none, truthyStr, Bool.false_eq_true, if_false]
      omega
termination_by structural fs
end

theorem field_values {bare : List String} {mh : Hdr} {d : Defn} {c : Option String} {dt : Option String} {vs : List Lit} :
    ∀ {fs : VFields}, .member mh d c dt (some vs) ∈ openVFieldDefns bare fs → .null ∉ vs
  | .nil, h => by rw [openVFieldDefns] at h; cases h
  | .cons n _ ws t fs, h => by
    rw [openVFieldDefns, List.mem_cons] at h
    rcases h with h | h
    · simp only [Defn.member.injEq] at h
      have hv := h.2.2.2.2.symm
      unfold supported at hv
      split at hv
      · cases hv
      · cases hv
        simp
    · exact field_values h
  | .padding n a fs, h => by
    rw [openVFieldDefns, List.mem_cons] at h
    rcases h with h | h
    · cases h
    · exact field_values h

theorem no_null (bare : List String) (t : VTy) {ident : String} {vs : List Lit}
    (h : IdentifierValues ident (openDefn bare t) vs) : .null ∉ vs := by
  obtain ⟨h, ms, mh, d, c, dt, hd, hf⟩ := h
  have hm := List.mem_of_find?_eq_some hf
  cases t with
  | fixed t =>
    rw [openDefn] at hd
    cases t with
    | record n b fs =>
      rw [openTyDefn] at hd
      rcases hd with hd | hd
      · cases hd
        obtain ⟨_, _, he, -⟩ := openFieldDefns_mem hm
        cases he
      · cases hd
    | _ => simp [openTyDefn] at hd
  | record n b fs =>
    rw [openDefn] at hd
    rcases hd with hd | hd
    · cases hd
      exact field_values hm
    · cases hd
  | _ => simp [openDefn] at hd

theorem members_from {E : Env} (A : Arithmetic E) (S : Strict E) (bare : List String) {ident : String} {n : Nat} :
    ∀ {ms : VMembers}, VMembersOk E ident ms → ms.RetriableFrom n →
      openDefaultDefn bare ms = none ∧ ∀ g ∈ openMemberDefns bare ms, g.Every (Countable E) ∧ n ≤ fewest g ∧
        ∀ x vs, IdentifierValues x g vs → .null ∉ vs
  | .nil, _, _ => by rw [openDefaultDefn, openMemberDefns]; simp
  | .default _, _, hr => hr.elim
  | .cons t ms, h, hr => by
    rw [VMembersOk] at h
    obtain ⟨h1, h2⟩ := members_from A S bare h.2.2 hr.2.2
    rw [openDefaultDefn, openMemberDefns]
    refine ⟨h1, ?_⟩
    intro g hg
    rcases List.mem_cons.mp hg with rfl | hg
    · exact ⟨open_countable A S bare t h.2.1 hr.1, Nat.le_trans hr.2.1 (open_fewest bare t h.2.1), fun x vs => no_null bare t⟩
    · exact h2 g hg

theorem besides_padding_all {E : Env} (A : Arithmetic E) (S : Strict E) (bare : List String) : ∀ {fs : VFields}, VFieldsOk E fs →
    fs.RetriableBesidesPadding → ∀ m ∈ openVFieldDefns bare fs, (∃ h a, m = .padding h a) ∨ m.Every (Countable E)
  | .nil, _, _, m, hm => by rw [openVFieldDefns] at hm; cases hm
  | .cons n c vs t fs, h, hr, m, hm => by
    rw [VFieldsOk] at h
    rw [openVFieldDefns, List.mem_cons] at hm
    rcases hm with rfl | hm
    · right
      rw [Defn.Every]
      exact ⟨not_member (open_no_member bare t), open_countable A S bare t h.2.2.1 hr.2.1⟩
    · exact besides_padding_all A S bare h.2.2.2 hr.2.2 m hm
  | .padding n a fs, h, hr, m, hm => by
    rw [VFieldsOk] at h
    rw [openVFieldDefns, List.mem_cons] at hm
    rcases hm with rfl | hm
    · exact .inl ⟨_, _, rfl⟩
    · exact besides_padding_all A S bare (fs := fs) h.2 hr m hm

/-- The definitions of types that can be read by size hints meet the conditions of C29. -/
theorem byHints_hinted {E : Env} (A : Arithmetic E) (S : Strict E) (bare : List String) {t : VTy} (h : VTyOk E t)
    (hs : t.Settled bare) (hr : t.ByHints) : HintedType E (openDefn bare t) := by
  have ho := open_orderly bare t h (vty_even t h hs)
  cases t with
  | fixed t => exact .inl (countable_all (open_countable A S bare _ h hr) ho)
  | block _ _ _ => exact .inl (countable_all (open_countable A S bare _ h hr) ho)
  | text _ _ _ _ => exact .inl (countable_all (open_countable A S bare _ h hr) ho)
  | array _ _ _ => exact .inl (countable_all (open_countable A S bare _ h hr) ho)
  | list _ _ _ => exact .inl (countable_all (open_countable A S bare _ h hr) ho)
  | record n b fs =>
    rw [VTyOk] at h
    rw [openDefn, Defn.Every, everyDefn_iff] at ho
    have hall := besides_padding_all A S bare h.2.2.2.2.2.2 hr
    rw [openDefn]
    by_cases hp : ∃ m ∈ openVFieldDefns bare fs, ∃ h a, m = .padding h a
    · refine .inr (.inl ⟨_, _, rfl, ho.1.1, retriable_condition hr, hp, ?_⟩)
      intro m hm
      rcases hall m hm with h | h
      · exact .inl h
      · exact .inr (countable_all h (ho.2 m hm))
    · refine .inl (countable_all ?_ ?_)
      · rw [Defn.Every, everyDefn_iff]
        refine ⟨⟨trivial, fun hs => absurd rfl (hs _ _), retriable_condition hr⟩, ?_⟩
        intro m hm
        rcases hall m hm with h | h
        · exact absurd ⟨m, hm, h⟩ hp
        · exact h
      · rw [Defn.Every, everyDefn_iff]
        exact ho
  | group n base ident ms =>
    obtain ⟨h1, k, hk, h2⟩ := hr
    rw [VTyOk] at h
    obtain ⟨h3, h4⟩ := members_from A S bare h.2.2.2.2.2 h2
    rw [openDefn, h3] at ho ⊢
    rw [Defn.Every, everyDefn_iff] at ho
    refine .inr (.inr ⟨_, _, _, _, rfl, ?_, ⟨k, open_greatest bare base h.2.2.1 k hk, fun g hg => (h4 g hg).2.1⟩,
      fun g hg vs => (h4 g hg).2.2 _ vs⟩)
    intro d hd
    rcases List.mem_cons.mp hd with rfl | hd
    · exact countable_all (open_countable A S bare base h.2.2.1 h1) ho.2.1
    · exact countable_all (h4 d hd).1 (ho.2.2.2 d hd)

end Dtf
