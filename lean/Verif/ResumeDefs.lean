import Verif.VariableParts
import Verif.Props.Resume
/-!
Which data types, and which types of a file, can be mapped piece by piece.
-/
namespace Dtf
namespace Spec

/-- Not a sequence mapped element by element. -/
def AtOnce : Defn → Prop
  | .seq _ info e => info.kind = .sequence → oneRead info e = true
  | _ => True

/-- Definitions whose maps are `Resumable`: the same in terms of definitions. The members
of a structure are told apart by the names of their types. -/
def Continues (E : Env) : Defn → Prop
  | .padding _ _ => False
  | .seq _ info e =>
    (info.kind = .sequence → oneRead info e = true) ∨ (e.Every AtOnce ∧ info.hasDataSize = false)
  | .struct _ ms => DistinctTypes ms ∧ ∀ m ∈ ms.dropLast, m.Every AtOnce
  | .group _ base _ _ _ => ∀ m, createMap E base = .ok m → Atomic m = true
  | _ => True

mutual
/-- No part is an array or sequence of anything but scalars. -/
def Ty.Unlooped : Ty → Prop
  | .scalar _ _ _ _ | .uuid _ _ | .stream _ _ _ => True
  | .sequence _ e _ => ∃ n b k s, e = .scalar n b k s
  | .record _ _ fs => fs.Unlooped
termination_by structural t => t
def Fields.Unlooped : Fields → Prop
  | .nil => True
  | .cons _ t fs => t.Unlooped ∧ fs.Unlooped
termination_by structural fs => fs
end

mutual
/-- Types that can be read piece by piece: there is no padding, and arrays other than
sequences of scalars come last and contain no others. -/
def Ty.Piecewise : Ty → Prop
  | .scalar _ _ _ _ | .uuid _ _ | .stream _ _ _ => True
  | .sequence _ e _ => e.Unlooped
  | .record _ _ fs => fs.Piecewise
termination_by structural t => t
def Fields.Piecewise : Fields → Prop
  | .nil => True
  | .cons _ t fs => t.Piecewise ∧ (fs = .nil ∨ t.Unlooped) ∧ fs.Piecewise
termination_by structural fs => fs
end

mutual
def VTy.Unlooped : VTy → Prop
  | .fixed t => t.Unlooped
  | .block _ _ _ | .text _ _ _ _ => True
  | .array _ _ _ | .list _ _ _ => False
  | .record _ _ fs => fs.Unlooped
  | .group _ base _ ms => base.Unlooped ∧ ms.Unlooped
termination_by structural t => t
def VFields.Unlooped : VFields → Prop
  | .nil => True
  | .cons _ _ _ t fs => t.Unlooped ∧ fs.Unlooped
  | .padding _ _ fs => fs.Unlooped
termination_by structural fs => fs
def VMembers.Unlooped : VMembers → Prop
  | .nil => True
  | .default t => t.Unlooped
  | .cons t ms => t.Unlooped ∧ ms.Unlooped
termination_by structural ms => ms
end

/-- A record of scalars in its byte order. -/
def VTy.Flat : VTy → Prop
  | .fixed (.record _ big fs) => ∃ l, fs.scalars = some l ∧ ∀ p ∈ l, p.2 = big
  | .record _ big fs => ∃ l, fs.scalars = some l ∧ ∀ p ∈ l, p.2 = big
  | _ => False

mutual
/-- Types that can be read piece by piece; there are no lists and the record at the start
of the records of a group is one of scalars. -/
def VTy.Piecewise : VTy → Prop
  | .fixed t => t.Piecewise
  | .block _ _ _ | .text _ _ _ _ => True
  | .array _ e _ => e.Piecewise ∧ e.Unlooped
  | .list _ _ _ => False
  | .record _ _ fs => fs.Piecewise
  | .group _ base _ ms => base.Flat ∧ ms.Piecewise
termination_by structural t => t
def VFields.Piecewise : VFields → Prop
  | .nil => True
  | .cons _ _ _ t fs => t.Piecewise ∧ (fs = .nil ∨ t.Unlooped) ∧ fs.Piecewise
  | .padding _ _ _ => False
termination_by structural fs => fs
def VMembers.Piecewise : VMembers → Prop
  | .nil => True
  | .default t => t.Piecewise
  | .cons t ms => t.Piecewise ∧ ms.Piecewise
termination_by structural ms => ms
end

end Spec
open Spec

/-! ### Maps of definitions -/

theorem atOnce_map {E : Env} (d : Defn) (nm : String) (o : Order) (m : DMap) (hm : createAs E nm o d = .ok m) (h : AtOnce d) :
    NoLoop m := by
  cases d with
  | seq hd info e =>
    obtain ⟨n, eo, em, -, -, rfl, -⟩ := createAs_seq hm
    unfold NoLoop Atomic
    simp only
    split
    · rename_i hk
      exact h hk
    · rfl
  | struct hh ms => obtain ⟨io, infos, maps, l, -, -, -, rfl, -⟩ := createAs_struct hm; trivial
  | group hh base ident dflt ms =>
    obtain ⟨dm, bm, keys, maps, -, -, -, -, rfl⟩ := createAs_group hm; trivial
  | prim hh k s u =>
    simp only [createAs] at hm
    split at hm <;> cases hm
    trivial
  | _ => simp only [createAs, Except.ok.injEq] at hm; subst hm; trivial

theorem all2_dropLast {α β : Type} {R : α → β → Prop} {P : α → Prop} {Q : β → Prop} (hPQ : ∀ a b, R a b → P a → Q b)
    {as : List α} {bs : List β} (h : All2 R as bs) (hp : ∀ a ∈ as.dropLast, P a) : ∀ b ∈ bs.dropLast, Q b := by
  induction h with
  | nil => simp
  | @cons a b as bs h t ih =>
    cases t with
    | nil => simp
    | cons h' t' =>
      simp only [List.dropLast_cons_cons, List.mem_cons] at hp ih ⊢
      rintro x (rfl | hx)
      · exact hPQ _ _ h (hp a (.inl rfl))
      · exact ih (fun y hy => hp y (.inr hy)) x hx

theorem continues_map {E : Env} (d : Defn) (nm : String) (o : Order) (m : DMap) (hm : createAs E nm o d = .ok m)
    (h : Continues E d) : Resumable m := by
  cases d with
  | seq hd info e =>
    obtain ⟨n, eo, em, he, -, rfl, -⟩ := createAs_seq hm
    rcases h with h | ⟨h1, h2⟩
    · left
      unfold Atomic
      simp only
      split
      · rename_i hk
        exact h hk
      · rfl
    · right
      refine ⟨createAs_every atOnce_map e _ _ _ he h1, ?_⟩
      rw [h2]
      rintro ⟨⟩
  | struct hh ms =>
    obtain ⟨io, infos, maps, l, -, hmem, -, rfl, -⟩ := createAs_struct hm
    right
    have hmo := createMembers_mapOf E nm o ms h.1 ms (fun _ h => h) [] (by simp) infos maps hmem
    refine all2_dropLast ?_ hmo h.2
    rintro d m ⟨n, o', -, hm⟩ hd
    exact createAs_every atOnce_map d.target _ _ _ hm hd.target
  | group hh base ident dflt ms =>
    obtain ⟨dm, bm, keys, maps, -, hb, -, -, rfl⟩ := createAs_group hm
    exact h bm hb
  | padding _ _ => exact h.elim
  | prim hh k s u =>
    simp only [createAs] at hm
    split at hm <;> cases hm
    trivial
  | _ => simp only [createAs, Except.ok.injEq] at hm; subst hm; trivial

/-! ### Types of a file -/

/-- The conditions besides that types are told apart by their names. -/
def PieceDefn (E : Env) (d : Defn) : Prop :=
  FullTerminators d ∧ ((∀ h ms, d ≠ .struct h ms) → Ordinary d) ∧
    ((∀ h ms, d = .struct h ms → DistinctTypes ms) → Continues E d)

theorem len_piece {E : Env} (bare : List String) {h : Hdr} {kind : SeqKind} {e : Ty} {len : Len} (hkind : kind ≠ .sequence)
    (he : TyOk E e) (hl : LenOk E e len) :
    PieceDefn E (.seq h (lenInfo kind e len) (openTyDefn bare e)) ∧ AtOnce (.seq h (lenInfo kind e len) (openTyDefn bare e)) := by
  have hb := openTy_byteSize bare e he
  have hk : (lenInfo kind e len).kind ≠ .sequence := by cases len <;> exact hkind
  refine ⟨⟨?_, ?_, fun _ => .inl fun h => absurd h hk⟩, fun h => absurd h hk⟩
  · cases len with
    | bytes x | bytesTo x u =>
      intro _ h1 h2
      cases x <;> simp [lenInfo, Expr.plain, Expr.formula] at h1 h2
    | count x | countTo x u =>
      intro _ _ _ h1 h2
      cases x <;> simp [lenInfo, Expr.plain, Expr.formula] at h1 h2
    | upto t =>
      intro _ _ _ _ _ u hu
      cases hu
      rw [hb, hl.2]
      exact ⟨hl.1, rfl⟩
  · intro _
    cases len <;> simp [lenInfo, Ordinary]

mutual
theorem openTy_atOnce {E : Env} (bare : List String) (t : Ty) (hok : TyOk E t) (h : t.Unlooped) :
    (openTyDefn bare t).Every AtOnce := by
  cases t with
  | scalar n b k s => simp [openTyDefn, Defn.Every, AtOnce]
  | uuid n b => simp [openTyDefn, Defn.Every, AtOnce]
  | stream n e s =>
    rw [TyOk] at hok
    obtain ⟨_, _, _, _, rfl⟩ := hok.2.2.1
    simp [openTyDefn, Defn.Every, AtOnce]
  | sequence n e k =>
    rw [Ty.Unlooped] at h
    obtain ⟨_, _, _, _, rfl⟩ := h
    simp [openTyDefn, Defn.Every, AtOnce, oneRead, Defn.isComposite]
  | record n b fs =>
    rw [TyOk] at hok
    rw [Ty.Unlooped] at h
    rw [openTyDefn, Defn.Every]
    exact ⟨trivial, openFields_atOnce bare fs hok.2.2.2.2.2 h⟩
termination_by structural t
theorem openFields_atOnce {E : Env} (bare : List String) (fs : Fields) (hok : FieldsOk E fs) (h : fs.Unlooped) :
    everyDefn AtOnce (openFieldDefns bare fs) := by
  cases fs with
  | nil => rw [openFieldDefns]; trivial
  | cons n t fs =>
    rw [FieldsOk] at hok
    rw [Fields.Unlooped] at h
    rw [openFieldDefns, everyDefn, Defn.Every]
    exact ⟨⟨trivial, openTy_atOnce bare t hok.1 h.1⟩, openFields_atOnce bare fs hok.2 h.2⟩
termination_by structural fs
end

mutual
theorem ty_unlooped (t : Ty) (h : t.Unlooped) : t.Piecewise := by
  cases t with
  | sequence n e k =>
    rw [Ty.Unlooped] at h
    obtain ⟨_, _, _, _, rfl⟩ := h
    rw [Ty.Piecewise, Ty.Unlooped]
    trivial
  | record n b fs =>
    rw [Ty.Unlooped] at h
    rw [Ty.Piecewise]
    exact fields_unlooped fs h
  | _ => rw [Ty.Piecewise]; trivial
termination_by structural t
theorem fields_unlooped (fs : Fields) (h : fs.Unlooped) : fs.Piecewise := by
  cases fs with
  | nil => rw [Fields.Piecewise]; trivial
  | cons n t fs =>
    rw [Fields.Unlooped] at h
    rw [Fields.Piecewise]
    exact ⟨ty_unlooped t h.1, .inr h.1, fields_unlooped fs h.2⟩
termination_by structural fs
end

theorem fields_dropLast {E : Env} (bare : List String) : ∀ fs : Fields, FieldsOk E fs → fs.Piecewise →
    ∀ m ∈ (openFieldDefns bare fs).dropLast, m.Every AtOnce
  | .nil, _, _, m, hm => by rw [openFieldDefns] at hm; cases hm
  | .cons n t .nil, _, _, m, hm => by rw [openFieldDefns, openFieldDefns] at hm; cases hm
  | .cons n t (.cons n' t' fs), h, hp, m, hm => by
    rw [FieldsOk] at h
    rw [Fields.Piecewise] at hp
    have ih := fields_dropLast bare (.cons n' t' fs) h.2 hp.2.2
    rw [openFieldDefns] at ih
    rw [openFieldDefns, openFieldDefns, List.dropLast_cons_cons, List.mem_cons] at hm
    rcases hm with rfl | hm
    · rcases hp.2.1 with h' | h'
      · cases h'
      · rw [Defn.Every]
        exact ⟨trivial, openTy_atOnce bare t h.1 h'⟩
    · exact ih m hm

theorem member_piece {E : Env} {h : Hdr} {d : Defn} {c dt vs} : PieceDefn E (.member h d c dt vs) :=
  ⟨trivial, fun _ => trivial, fun _ => trivial⟩

mutual
theorem openTy_piece {E : Env} (bare : List String) (t : Ty) (hok : TyOk E t) (h : t.Piecewise) :
    (openTyDefn bare t).Every (PieceDefn E) := by
  cases t with
  | scalar n b k s => simp [openTyDefn, Defn.Every, PieceDefn, FullTerminators, Ordinary, Continues]
  | uuid n b => simp [openTyDefn, Defn.Every, PieceDefn, FullTerminators, Ordinary, Continues, Defn.byteSize, fixedByteSize]
  | stream n e s =>
    rw [TyOk] at hok
    obtain ⟨_, _, _, _, rfl⟩ := hok.2.2.1
    simp [openTyDefn, Defn.Every, PieceDefn, FullTerminators, Ordinary, Continues]
  | sequence n e k =>
    rw [TyOk] at hok
    rw [Ty.Piecewise] at h
    rw [openTyDefn, Defn.Every]
    refine ⟨⟨by simp [FullTerminators], fun _ => by simp [Ordinary],
      fun _ => .inr ⟨openTy_atOnce bare e hok.2.2 h, rfl⟩⟩, openTy_piece bare e hok.2.2 (ty_unlooped e h)⟩
  | record n b fs =>
    rw [TyOk] at hok
    rw [Ty.Piecewise] at h
    rw [openTyDefn, Defn.Every]
    exact ⟨⟨trivial, fun hs => absurd rfl (hs _ _), fun hd => ⟨hd _ _ rfl, fields_dropLast bare fs hok.2.2.2.2.2 h⟩⟩,
      openFields_piece bare fs hok.2.2.2.2.2 h⟩
termination_by structural t
theorem openFields_piece {E : Env} (bare : List String) (fs : Fields) (hok : FieldsOk E fs) (h : fs.Piecewise) :
    everyDefn (PieceDefn E) (openFieldDefns bare fs) := by
  cases fs with
  | nil => rw [openFieldDefns]; trivial
  | cons n t fs =>
    rw [FieldsOk] at hok
    rw [Fields.Piecewise] at h
    rw [openFieldDefns, everyDefn, Defn.Every]
    exact ⟨⟨member_piece, openTy_piece bare t hok.1 h.1⟩, openFields_piece bare fs hok.2 h.2.2⟩
termination_by structural fs
end

mutual
theorem open_atOnce {E : Env} (bare : List String) (t : VTy) (hok : VTyOk E t) (h : t.Unlooped) :
    (openDefn bare t).Every AtOnce := by
  cases t with
  | fixed t =>
    rw [VTyOk] at hok
    rw [VTy.Unlooped] at h
    rw [openDefn]
    exact openTy_atOnce bare t hok h
  | block n e len =>
    rw [VTyOk] at hok
    rw [openDefn, Defn.Every]
    refine ⟨(len_piece bare (by simp) hok.2.2.1 hok.2.2.2).2, ?_⟩
    obtain ⟨_, _, _, _, rfl⟩ := hok.2.1
    simp [openTyDefn, Defn.Every, AtOnce]
  | text n enc e len =>
    rw [VTyOk] at hok
    rw [openDefn, Defn.Every]
    refine ⟨(len_piece bare (by simp) hok.2.2.1 hok.2.2.2).2, ?_⟩
    obtain ⟨_, _, _, _, rfl⟩ := hok.2.1
    simp [openTyDefn, Defn.Every, AtOnce]
  | array n e x => rw [VTy.Unlooped] at h; exact h.elim
  | list n e x => rw [VTy.Unlooped] at h; exact h.elim
  | record n b fs =>
    rw [VTyOk] at hok
    rw [VTy.Unlooped] at h
    rw [openDefn, Defn.Every]
    exact ⟨trivial, openVFields_atOnce bare fs hok.2.2.2.2.2.2 h⟩
  | group n base ident ms =>
    rw [VTyOk] at hok
    rw [VTy.Unlooped] at h
    rw [openDefn, Defn.Every]
    exact ⟨trivial, open_atOnce bare base hok.2.2.1 h.1, openMembers_atOnce bare ident ms hok.2.2.2.2.2 h.2⟩
termination_by structural t
theorem openVFields_atOnce {E : Env} (bare : List String) (fs : VFields) (hok : VFieldsOk E fs) (h : fs.Unlooped) :
    everyDefn AtOnce (openVFieldDefns bare fs) := by
  cases fs with
  | nil => rw [openVFieldDefns]; trivial
  | cons n c vs t fs =>
    rw [VFieldsOk] at hok
    rw [VFields.Unlooped] at h
    rw [openVFieldDefns, everyDefn, Defn.Every]
    exact ⟨⟨trivial, open_atOnce bare t hok.2.2.1 h.1⟩, openVFields_atOnce bare fs hok.2.2.2 h.2⟩
  | padding n a fs =>
    rw [VFieldsOk] at hok
    rw [VFields.Unlooped] at h
    rw [openVFieldDefns, everyDefn, Defn.Every]
    exact ⟨trivial, openVFields_atOnce bare fs hok.2 h⟩
termination_by structural fs
theorem openMembers_atOnce {E : Env} (bare : List String) (ident : String) (ms : VMembers) (hok : VMembersOk E ident ms)
    (h : ms.Unlooped) : everyOptDefn AtOnce (openDefaultDefn bare ms) ∧ everyDefn AtOnce (openMemberDefns bare ms) := by
  cases ms with
  | nil => rw [openDefaultDefn, openMemberDefns]; exact ⟨trivial, trivial⟩
  | default t =>
    rw [VMembersOk] at hok
    rw [VMembers.Unlooped] at h
    rw [openDefaultDefn, openMemberDefns]
    exact ⟨open_atOnce bare t hok h, trivial⟩
  | cons t ms =>
    rw [VMembersOk] at hok
    rw [VMembers.Unlooped] at h
    rw [openDefaultDefn, openMemberDefns, everyDefn]
    have := openMembers_atOnce bare ident ms hok.2.2 h.2
    exact ⟨this.1, open_atOnce bare t hok.2.1 h.1, this.2⟩
termination_by structural ms
end

theorem vfields_dropLast {E : Env} (bare : List String) : ∀ fs : VFields, VFieldsOk E fs → fs.Piecewise →
    ∀ m ∈ (openVFieldDefns bare fs).dropLast, m.Every AtOnce
  | .nil, _, _, m, hm => by rw [openVFieldDefns] at hm; cases hm
  | .padding _ _ _, _, hp, _, _ => by rw [VFields.Piecewise] at hp; exact hp.elim
  | .cons n c vs t .nil, _, _, m, hm => by rw [openVFieldDefns, openVFieldDefns] at hm; cases hm
  | .cons n c vs t (.padding _ _ _), _, hp, _, _ => by
    rw [VFields.Piecewise, VFields.Piecewise] at hp
    exact hp.2.2.elim
  | .cons n c vs t (.cons n' c' vs' t' fs), h, hp, m, hm => by
    rw [VFieldsOk] at h
    rw [VFields.Piecewise] at hp
    have ih := vfields_dropLast bare (.cons n' c' vs' t' fs) h.2.2.2 hp.2.2
    rw [openVFieldDefns] at ih
    rw [openVFieldDefns, openVFieldDefns, List.dropLast_cons_cons, List.mem_cons] at hm
    rcases hm with rfl | hm
    · rcases hp.2.1 with h' | h'
      · cases h'
      · rw [Defn.Every]
        exact ⟨trivial, open_atOnce bare t h.2.2.1 h'⟩
    · exact ih m hm

theorem checkLinear_even {w : Order} : ∀ {ds : List Defn} {o : Order}, o = .native ∨ o = w →
    (∀ d ∈ ds, d.isComposite = false ∧ (∀ h a, d ≠ .padding h a) ∧ (d.order? = some .native ∨ d.order? = some w)) →
      checkLinear o ds = .ok true
  | [], _, _, _ => by rw [checkLinear]
  | d :: ds, o, ho, h => by
    obtain ⟨h1, h2, h3⟩ := h d (List.mem_cons_self ..)
    have ih := fun o ho => checkLinear_even (ds := ds) (o := o) ho fun d hd => h d (List.mem_cons_of_mem _ hd)
    rw [checkLinear.eq_def]
    simp only
    rw [if_neg]
    case hnc =>
      rw [h1]
      cases d with
      | padding hd a => exact absurd rfl (h2 hd a)
      | _ => simp
    rcases h3 with h3 | h3 <;> rw [h3] <;> simp only
    · rw [if_neg (by simp)]
      exact ih _ (.inl rfl)
    · rw [if_neg]
      · exact ih _ (.inr rfl)
      · rintro ⟨h5, -, h6⟩
        rcases ho with rfl | rfl
        · exact h5 rfl
        · exact h6 rfl

theorem bareOrder_even (bare : List String) (big : Bool) (n : String) :
    bareOrder bare big n = .native ∨ bareOrder bare big n = orderOf big := by
  unfold bareOrder
  split
  · exact .inl rfl
  · exact .inr rfl

theorem scalars_even {bare : List String} {big : Bool} : ∀ {fs : Fields} {l},
    fs.scalars = some l → (∀ p ∈ l, p.2 = big) → fs.Piecewise ∧ ∀ d ∈ openFieldDefns bare fs, d.isComposite = false ∧
      (∀ h a, d ≠ .padding h a) ∧ (d.order? = some .native ∨ d.order? = some (orderOf big))
  | .nil, _, _, _ => by rw [openFieldDefns, Fields.Piecewise]; simp
  | .cons n (.scalar tn b k s) fs, l, h, hb => by
    rw [Fields.scalars, Option.map_eq_some_iff] at h
    obtain ⟨l', hl, rfl⟩ := h
    have hbig : b = big := hb (tn, b) (List.mem_cons_self ..)
    subst hbig
    obtain ⟨h1, h2⟩ := scalars_even (bare := bare) hl fun p hp => hb p (List.mem_cons_of_mem _ hp)
    rw [openFieldDefns, Fields.Piecewise, Ty.Piecewise, Ty.Unlooped]
    refine ⟨⟨trivial, .inr trivial, h1⟩, ?_⟩
    intro d hd
    rcases List.mem_cons.mp hd with rfl | hd
    · refine ⟨by simp [openTyDefn, Defn.isComposite, truthyStr], by simp, ?_⟩
      simp only [openTyDefn, Defn.order?, Option.getD_some, Option.some.injEq]
      exact bareOrder_even bare b tn
    · exact h2 d hd
  | .cons n (.uuid _ _) fs, _, h, _ => by cases h
  | .cons n (.stream _ _ _) fs, _, h, _ => by cases h
  | .cons n (.sequence _ _ _) fs, _, h, _ => by cases h
  | .cons n (.record _ _ _) fs, _, h, _ => by cases h

theorem vscalars_even {bare : List String} {big : Bool} : ∀ {fs : VFields} {l},
    fs.scalars = some l → (∀ p ∈ l, p.2 = big) → fs.Piecewise ∧ ∀ d ∈ openVFieldDefns bare fs, d.isComposite = false ∧
      (∀ h a, d ≠ .padding h a) ∧ (d.order? = some .native ∨ d.order? = some (orderOf big))
  | .nil, _, _, _ => by rw [openVFieldDefns, VFields.Piecewise]; simp
  | .cons n none vs (.fixed (.scalar tn b k s)) fs, l, h, hb => by
    rw [VFields.scalars, Option.map_eq_some_iff] at h
    obtain ⟨l', hl, rfl⟩ := h
    have hbig : b = big := hb (tn, b) (List.mem_cons_self ..)
    subst hbig
    obtain ⟨h1, h2⟩ := vscalars_even (bare := bare) hl fun p hp => hb p (List.mem_cons_of_mem _ hp)
    rw [openVFieldDefns, VFields.Piecewise, VTy.Piecewise, VTy.Unlooped, Ty.Piecewise, Ty.Unlooped]
    refine ⟨⟨trivial, .inr trivial, h1⟩, ?_⟩
    intro d hd
    rcases List.mem_cons.mp hd with rfl | hd
    · refine ⟨by simp [openDefn, openTyDefn, Defn.isComposite, truthyStr], by simp, ?_⟩
      simp only [openDefn, openTyDefn, Defn.order?, Option.getD_some, Option.some.injEq]
      exact bareOrder_even bare b tn
    · exact h2 d hd
  | .cons n (some _) _ _ fs, _, h, _ => by simp [VFields.scalars] at h
  | .cons n none _ (.fixed (.uuid _ _)) fs, _, h, _ => by simp [VFields.scalars] at h
  | .cons n none _ (.fixed (.stream _ _ _)) fs, _, h, _ => by simp [VFields.scalars] at h
  | .cons n none _ (.fixed (.sequence _ _ _)) fs, _, h, _ => by simp [VFields.scalars] at h
  | .cons n none _ (.fixed (.record _ _ _)) fs, _, h, _ => by simp [VFields.scalars] at h
  | .cons n none _ (.block _ _ _) fs, _, h, _ => by simp [VFields.scalars] at h
  | .cons n none _ (.text _ _ _ _) fs, _, h, _ => by simp [VFields.scalars] at h
  | .cons n none _ (.array _ _ _) fs, _, h, _ => by simp [VFields.scalars] at h
  | .cons n none _ (.record _ _ _) fs, _, h, _ => by simp [VFields.scalars] at h
  | .cons n none _ (.group _ _ _ _) fs, _, h, _ => by simp [VFields.scalars] at h
  | .padding _ _ _, _, h, _ => by simp [VFields.scalars] at h

/-- The map of a record of scalars in its byte order takes its bytes at once. -/
theorem flat_atomic {E : Env} {bare : List String} {t : VTy} (h : t.Flat) :
    t.Piecewise ∧ ∀ m, createMap E (openDefn bare t) = .ok m → Atomic m = true := by
  have key : ∀ {n : String} {big : Bool} {ds : List Defn} {m : DMap}, (∀ d ∈ ds, d.isComposite = false ∧
      (∀ h a, d ≠ .padding h a) ∧ (d.order? = some .native ∨ d.order? = some (orderOf big))) →
      createMap E (.struct { name := n, order := orderOf big } ds) = .ok m → Atomic m = true := by
    intro n big ds m hd hm
    obtain ⟨io, infos, maps, l, -, -, hl, rfl, -⟩ := createAs_struct hm
    replace hl : checkLinear (orderOf big) ds = .ok l := hl
    rw [checkLinear_even (w := orderOf big) (.inr rfl) hd] at hl
    cases hl
    rfl
  unfold VTy.Flat at h
  split at h
  · obtain ⟨l, hl, hb⟩ := h
    obtain ⟨h1, h2⟩ := scalars_even (bare := bare) hl hb
    rw [VTy.Piecewise, Ty.Piecewise, openDefn, openTyDefn]
    exact ⟨h1, fun m => key h2⟩
  · obtain ⟨l, hl, hb⟩ := h
    obtain ⟨h1, h2⟩ := vscalars_even (bare := bare) hl hb
    rw [VTy.Piecewise, openDefn]
    exact ⟨h1, fun m => key h2⟩
  · exact h.elim

mutual
theorem open_piece {E : Env} (bare : List String) (t : VTy) (hok : VTyOk E t) (h : t.Piecewise) :
    (openDefn bare t).Every (PieceDefn E) := by
  cases t with
  | fixed t =>
    rw [VTyOk] at hok
    rw [VTy.Piecewise] at h
    rw [openDefn]
    exact openTy_piece bare t hok h
  | block n e len =>
    rw [VTyOk] at hok
    rw [openDefn, Defn.Every]
    refine ⟨(len_piece bare (by simp) hok.2.2.1 hok.2.2.2).1, openTy_piece bare e hok.2.2.1 ?_⟩
    obtain ⟨_, _, _, _, rfl⟩ := hok.2.1
    rw [Ty.Piecewise]
    trivial
  | text n enc e len =>
    rw [VTyOk] at hok
    rw [openDefn, Defn.Every]
    refine ⟨(len_piece bare (by simp) hok.2.2.1 hok.2.2.2).1, openTy_piece bare e hok.2.2.1 ?_⟩
    obtain ⟨_, _, _, _, rfl⟩ := hok.2.1
    rw [Ty.Piecewise]
    trivial
  | array n e x =>
    rw [VTyOk] at hok
    rw [VTy.Piecewise] at h
    rw [openDefn, Defn.Every]
    exact ⟨⟨by simp [FullTerminators, countInfo], fun _ => by simp [Ordinary, countInfo],
      fun _ => .inr ⟨open_atOnce bare e hok.2.2.2 h.2, rfl⟩⟩, open_piece bare e hok.2.2.2 h.1⟩
  | list n e x => rw [VTy.Piecewise] at h; exact h.elim
  | record n b fs =>
    rw [VTyOk] at hok
    rw [VTy.Piecewise] at h
    rw [openDefn, Defn.Every]
    exact ⟨⟨trivial, fun hs => absurd rfl (hs _ _), fun hd => ⟨hd _ _ rfl, vfields_dropLast bare fs hok.2.2.2.2.2.2 h⟩⟩,
      openVFields_piece bare fs hok.2.2.2.2.2.2 h⟩
  | group n base ident ms =>
    rw [VTyOk] at hok
    rw [VTy.Piecewise] at h
    rw [openDefn, Defn.Every]
    exact ⟨⟨trivial, fun _ => trivial, fun _ => (flat_atomic h.1).2⟩,
      open_piece bare base hok.2.2.1 (flat_atomic (E := E) (bare := bare) h.1).1, openMembers_piece bare ident ms hok.2.2.2.2.2 h.2⟩
termination_by structural t
theorem openVFields_piece {E : Env} (bare : List String) (fs : VFields) (hok : VFieldsOk E fs) (h : fs.Piecewise) :
    everyDefn (PieceDefn E) (openVFieldDefns bare fs) := by
  cases fs with
  | nil => rw [openVFieldDefns]; trivial
  | cons n c vs t fs =>
    rw [VFieldsOk] at hok
    rw [VFields.Piecewise] at h
    rw [openVFieldDefns, everyDefn, Defn.Every]
    exact ⟨⟨member_piece, open_piece bare t hok.2.2.1 h.1⟩, openVFields_piece bare fs hok.2.2.2 h.2.2⟩
  | padding n a fs => rw [VFields.Piecewise] at h; exact h.elim
termination_by structural fs
theorem openMembers_piece {E : Env} (bare : List String) (ident : String) (ms : VMembers) (hok : VMembersOk E ident ms)
    (h : ms.Piecewise) :
    everyOptDefn (PieceDefn E) (openDefaultDefn bare ms) ∧ everyDefn (PieceDefn E) (openMemberDefns bare ms) := by
  cases ms with
  | nil => rw [openDefaultDefn, openMemberDefns]; exact ⟨trivial, trivial⟩
  | default t =>
    rw [VMembersOk] at hok
    rw [VMembers.Piecewise] at h
    rw [openDefaultDefn, openMemberDefns]
    exact ⟨open_piece bare t hok h, trivial⟩
  | cons t ms =>
    rw [VMembersOk] at hok
    rw [VMembers.Piecewise] at h
    rw [openDefaultDefn, openMemberDefns, everyDefn]
    have := openMembers_piece bare ident ms hok.2.2 h.2
    exact ⟨this.1, open_piece bare t hok.2.1 h.1, this.2⟩
termination_by structural ms
end

/-- The maps of types that can be read piece by piece meet the conditions of C30. -/
theorem piecewise_resumable {E : Env} (bare : List String) {t : VTy} (hok : VTyOk E t) (hs : t.Settled bare)
    (h : t.Piecewise) : ((openDefn bare t).Every fun d => FullTerminators d ∧ Ordinary d) ∧
      ∀ m, createMap E (openDefn bare t) = .ok m → m.Every Resumable := by
  have ho := open_orderly bare t hok (vty_even t hok hs)
  have hp := Defn.Every.and _ (open_piece bare t hok h) ho
  refine ⟨Defn.Every.imp ?_ _ hp, ?_⟩
  · rintro d ⟨⟨h1, h2, -⟩, h3⟩
    cases d with
    | struct hd ms => exact ⟨h1, h3.1⟩
    | _ => exact ⟨h1, h2 (by simp)⟩
  · intro m hm
    refine createAs_every continues_map _ _ _ m hm (Defn.Every.imp ?_ _ hp)
    rintro d ⟨⟨-, -, h1⟩, h3⟩
    refine h1 ?_
    rintro hd ms rfl
    exact h3.1

end Dtf
