import Verif.Variable
import Verif.VariableFold
/-!
What more bytes do to what a type of a definition file means: an outcome other than `short` stays the
same, and there are always bytes that end a `short`. Used by Props/Honest.lean.
-/
namespace Dtf
open Spec

/-- More bytes at the end do not change the outcome, unless there were too few. The first argument of the
reader is the number of bytes of the stream. -/
def Steady {α : Type} (R : Nat → Bytes → Outcome α) : Prop :=
  ∀ size bs ext, bs.length ≤ size →
    (∀ v rest, R size bs = .done v rest →
      rest.length ≤ bs.length ∧ R (size + ext.length) (bs ++ ext) = .done v (rest ++ ext)) ∧
    (R size bs = .invalid → R (size + ext.length) (bs ++ ext) = .invalid)

/-- There are bytes that can follow. -/
def Fillable {α : Type} (R : Nat → Bytes → Outcome α) : Prop :=
  ∀ size bs, bs.length ≤ size → ∃ ext, R (size + ext.length) (bs ++ ext) ≠ .short

/-! ### Lengths -/

theorem splitAt_steady {t : Bytes} (ht : t ≠ []) (ext : Bytes) : ∀ (n m : Nat) (bs b rest : Bytes), n ≤ m →
    splitAt t n bs = some (b, rest) →
    rest.length < bs.length ∧ splitAt t m (bs ++ ext) = some (b, rest ++ ext)
  | 0, _, _, _, _, _, h => by simp [splitAt] at h
  | n + 1, 0, _, _, _, h, _ => by omega
  | n + 1, m + 1, bs, b, rest, hm, h => by
    have hpos : 0 < t.length := List.length_pos_iff.mpr ht
    rw [splitAt] at h ⊢
    split at h
    · rename_i heq
      cases h
      have hl : t.length ≤ bs.length := by
        have := congrArg List.length heq
        rw [List.length_take] at this
        omega
      refine ⟨by rw [List.length_drop]; omega, ?_⟩
      rw [List.take_append_of_le_length hl, if_pos heq, List.drop_append_of_le_length hl]
    · rename_i hne
      split at h
      · cases h
      · rename_i b' rest' heq
        cases h
        obtain ⟨h1, h2⟩ := splitAt_steady ht ext n m _ _ _ (by omega) heq
        rw [List.length_drop] at h1
        have hl : t.length ≤ bs.length := by omega
        refine ⟨by omega, ?_⟩
        rw [List.take_append_of_le_length hl, if_neg hne, List.drop_append_of_le_length hl, h2]

theorem splitAt_reached {t : Bytes} (ht : t ≠ []) : ∀ (m n : Nat) (bs : Bytes), bs.length = m * t.length → m < n →
    splitAt t n (bs ++ t) ≠ none
  | _, 0, _, _, h => by omega
  | 0, n + 1, bs, h, _ => by
    have : bs = [] := List.length_eq_zero_iff.mp (by omega)
    subst this
    rw [splitAt]
    simp
  | m + 1, n + 1, bs, h, hn => by
    rw [Nat.succ_mul] at h
    have hl : t.length ≤ bs.length := by omega
    rw [splitAt]
    split
    · simp
    · have := splitAt_reached ht m n (bs.drop t.length) (by rw [List.length_drop]; omega) (by omega)
      rw [List.drop_append_of_le_length hl]
      split
      · rename_i he
        exact absurd he this
      · simp

theorem takeParts_steady (cut : Bytes → Bytes × Bytes) (n : Int) : Steady fun _ => takeParts cut n := by
  intro size bs ext _
  simp only [takeParts, takeBytes]
  by_cases hn : n < 0
  · simp [hn]
  · simp only [hn, if_false]
    by_cases hl : n ≤ bs.length
    · have hl' : n.toNat ≤ bs.length := by omega
      rw [if_pos hl, if_pos (by rw [List.length_append]; omega)]
      refine ⟨?_, fun h => nomatch h⟩
      intro v rest h
      cases h
      refine ⟨by rw [List.length_drop]; omega, ?_⟩
      simp only [List.take_append_of_le_length hl', List.drop_append_of_le_length hl']
    · rw [if_neg hl]
      exact ⟨fun _ _ h => (nomatch h), fun h => nomatch h⟩

theorem takeParts_fillable (cut : Bytes → Bytes × Bytes) (n : Int) : Fillable fun _ => takeParts cut n := by
  intro size bs _
  refine ⟨List.replicate n.toNat 0, ?_⟩
  simp only [takeParts, takeBytes]
  by_cases hn : n < 0
  · simp [hn]
  · rw [if_neg hn, if_pos (by rw [List.length_append, List.length_replicate]; omega)]
    exact fun h => nomatch h

theorem invalid_steady {α : Type} : Steady fun _ _ => (Outcome.invalid : Outcome α) :=
  fun _ _ _ _ => ⟨fun _ _ h => (nomatch h), fun _ => rfl⟩

theorem invalid_fillable {α : Type} : Fillable fun _ _ => (Outcome.invalid : Outcome α) :=
  fun _ _ _ => ⟨[], fun h => nomatch h⟩

theorem len_steady {E : Env} {e : Ty} {len : Len} (h : LenOk E e len) (unit : Nat) (s : Scope) :
    Steady fun _ bs => len.read unit s bs := by
  cases len with
  | upto t =>
    intro size bs ext _
    simp only [Len.read]
    refine ⟨?_, ?_⟩
    · intro v rest h'
      split at h' <;> cases h'
      rename_i b heq
      obtain ⟨h1, h2⟩ := splitAt_steady h.1 ext bs.length (bs ++ ext).length bs b rest
        (by rw [List.length_append]; omega) heq
      rw [h2]
      exact ⟨by omega, rfl⟩
    · intro h'
      split at h' <;> cases h'
  | bytes x => simp only [Len.read]; cases x.value s; exact invalid_steady; exact takeParts_steady _ _
  | count x => simp only [Len.read]; cases x.value s; exact invalid_steady; exact takeParts_steady _ _
  | bytesTo x t => simp only [Len.read]; cases x.value s; exact invalid_steady; exact takeParts_steady _ _
  | countTo x t => simp only [Len.read]; cases x.value s; exact invalid_steady; exact takeParts_steady _ _

theorem len_fillable {E : Env} {e : Ty} {len : Len} (h : LenOk E e len) (unit : Nat) (s : Scope) :
    Fillable fun _ bs => len.read unit s bs := by
  cases len with
  | upto t =>
    intro size bs _
    have hpos : 0 < t.length := List.length_pos_iff.mpr h.1
    have hpad : bs.length + (bs.length * t.length - bs.length) = bs.length * t.length := by
      have := Nat.le_mul_of_pos_right bs.length hpos
      omega
    refine ⟨List.replicate (bs.length * t.length - bs.length) 0 ++ t, ?_⟩
    simp only [Len.read, ← List.append_assoc]
    have := splitAt_reached h.1 bs.length (bs ++ List.replicate (bs.length * t.length - bs.length) 0 ++ t).length
      (bs ++ List.replicate (bs.length * t.length - bs.length) 0)
      (by rw [List.length_append, List.length_replicate, hpad])
      (by simp only [List.length_append, List.length_replicate]; omega)
    split
    · rename_i he
      exact absurd he this
    · exact fun h => nomatch h
  | bytes x => simp only [Len.read]; cases x.value s; exact invalid_fillable; exact takeParts_fillable _ _
  | count x => simp only [Len.read]; cases x.value s; exact invalid_fillable; exact takeParts_fillable _ _
  | bytesTo x t => simp only [Len.read]; cases x.value s; exact invalid_fillable; exact takeParts_fillable _ _
  | countTo x t => simp only [Len.read]; cases x.value s; exact invalid_fillable; exact takeParts_fillable _ _

/-! ### Elements -/

theorem append_ne_nil' {bs : Bytes} (h : bs ≠ []) (ext : Bytes) : bs ++ ext ≠ [] := by
  cases bs with
  | nil => exact absurd rfl h
  | cons b bs => simp

theorem repeated_steady {R : Nat → Bytes → Outcome Val} (hR : Steady R) : ∀ n : Nat,
    Steady fun size => repeated (R size) n
  | 0 => by
    intro size bs ext _
    simp only [repeated]
    exact ⟨fun _ _ h => by cases h; exact ⟨Nat.le_refl _, rfl⟩, fun h => nomatch h⟩
  | n + 1 => by
    intro size bs ext hl
    simp only [repeated]
    obtain ⟨h1, h2⟩ := hR size bs ext hl
    by_cases hb : bs = []
    · rw [if_pos hb]
      exact ⟨fun _ _ h => (nomatch h), fun h => nomatch h⟩
    rw [if_neg hb, if_neg (append_ne_nil' hb ext)]
    generalize hr : R size bs = r at h1 h2 ⊢
    cases r with
    | short => exact ⟨fun _ _ h => (nomatch h), fun h => nomatch h⟩
    | invalid => rw [h2 rfl]; exact ⟨fun _ _ h => (nomatch h), fun _ => rfl⟩
    | done v rest =>
      obtain ⟨h3, h4⟩ := h1 v rest rfl
      rw [h4]
      simp only
      obtain ⟨h5, h6⟩ := repeated_steady hR n size rest ext (by omega)
      simp only at h5 h6
      generalize repeated (R size) n rest = q at h5 h6 ⊢
      cases q with
      | short => exact ⟨fun _ _ h => (nomatch h), fun h => nomatch h⟩
      | invalid => rw [h6 rfl]; exact ⟨fun _ _ h => (nomatch h), fun _ => rfl⟩
      | done vs rest' =>
        obtain ⟨h7, h8⟩ := h5 vs rest' rfl
        simp only [h8]
        exact ⟨fun _ _ h => by cases h; exact ⟨by omega, rfl⟩, fun h => nomatch h⟩

theorem repeated_fillable {R : Nat → Bytes → Outcome Val} (hR : Steady R) (hF : Fillable R) : ∀ n : Nat,
    Fillable fun size => repeated (R size) n
  | 0 => fun _ _ _ => ⟨[], fun h => nomatch h⟩
  | n + 1 => by
    intro size bs hl
    obtain ⟨ext, hext⟩ := hF (size + 1) (bs ++ [0]) (by rw [List.length_append]; simp; omega)
    cases hr : R (size + 1 + ext.length) (bs ++ [0] ++ ext) with
    | short => exact absurd hr hext
    | invalid =>
      refine ⟨[0] ++ ext, ?_⟩
      have : size + ([0] ++ ext).length = size + 1 + ext.length := by simp; omega
      simp only [this, ← List.append_assoc, repeated]
      rw [if_neg (by simp), hr]
      exact fun h => nomatch h
    | done v rest =>
      have hle : (bs ++ [0] ++ ext).length ≤ size + 1 + ext.length := by simp; omega
      obtain ⟨ext', hext'⟩ := repeated_fillable hR hF n (size + 1 + ext.length) rest
        (by have := ((hR _ _ [] hle).1 v rest hr).1; omega)
      have h4 := ((hR _ _ ext' hle).1 v rest hr).2
      refine ⟨[0] ++ ext ++ ext', ?_⟩
      have : size + ([0] ++ ext ++ ext').length = size + 1 + ext.length + ext'.length := by simp; omega
      simp only [this, ← List.append_assoc, repeated]
      rw [if_neg (by simp), h4]
      simp only
      intro h
      apply hext'
      simp only
      split at h <;> first | assumption | cases h

/-- Every value takes bytes. -/
def Consuming (R : Nat → Bytes → Outcome Val) : Prop :=
  ∀ size bs v rest, R size bs = .done v rest → rest.length < bs.length

theorem covering_steady {R : Nat → Bytes → Outcome Val} (hR : Steady R) (last : Val → Bool) :
    ∀ (fuel fuel' n size : Nat) (bs ext : Bytes), fuel ≤ fuel' → bs.length ≤ size →
    (∀ v rest, covering (R size) last fuel n bs = .done v rest →
      rest.length ≤ bs.length ∧ covering (R (size + ext.length)) last fuel' n (bs ++ ext) = .done v (rest ++ ext)) ∧
    (covering (R size) last fuel n bs = .invalid →
      covering (R (size + ext.length)) last fuel' n (bs ++ ext) = .invalid)
  | fuel, fuel', 0, size, bs, ext, _, _ => by
    simp only [covering]
    exact ⟨fun _ _ h => by cases h; exact ⟨Nat.le_refl _, rfl⟩, fun h => nomatch h⟩
  | 0, fuel', n + 1, size, bs, ext, _, _ => by
    rw [show covering (R size) last 0 (n + 1) bs = .short from by simp [covering]]
    exact ⟨fun _ _ h => (nomatch h), fun h => nomatch h⟩
  | fuel + 1, 0, n + 1, size, bs, ext, h, _ => by omega
  | fuel + 1, fuel' + 1, n + 1, size, bs, ext, hf, hl => by
    simp only [covering]
    obtain ⟨h1, h2⟩ := hR size bs ext hl
    by_cases hb : bs = []
    · rw [if_pos hb]
      exact ⟨fun _ _ h => (nomatch h), fun h => nomatch h⟩
    rw [if_neg hb, if_neg (append_ne_nil' hb ext)]
    generalize hr : R size bs = r at h1 h2 ⊢
    cases r with
    | short => exact ⟨fun _ _ h => (nomatch h), fun h => nomatch h⟩
    | invalid => rw [h2 rfl]; exact ⟨fun _ _ h => (nomatch h), fun _ => rfl⟩
    | done v rest =>
      obtain ⟨h3, h4⟩ := h1 v rest rfl
      rw [h4]
      simp only
      by_cases hv : last v = true
      · rw [if_pos hv, if_pos hv]
        exact ⟨fun _ _ h => by cases h; exact ⟨h3, rfl⟩, fun h => nomatch h⟩
      rw [if_neg hv, if_neg hv]
      have hlen : (bs ++ ext).length - (rest ++ ext).length = bs.length - rest.length := by
        simp only [List.length_append]; omega
      rw [hlen]
      obtain ⟨h5, h6⟩ := covering_steady hR last fuel fuel' (n + 1 - (bs.length - rest.length)) size rest ext
        (by omega) (by omega)
      generalize covering (R size) last fuel (n + 1 - (bs.length - rest.length)) rest = q at h5 h6 ⊢
      cases q with
      | short => exact ⟨fun _ _ h => (nomatch h), fun h => nomatch h⟩
      | invalid => rw [h6 rfl]; exact ⟨fun _ _ h => (nomatch h), fun _ => rfl⟩
      | done vs rest' =>
        obtain ⟨h7, h8⟩ := h5 vs rest' rfl
        rw [h8]
        exact ⟨fun _ _ h => by cases h; exact ⟨by omega, rfl⟩, fun h => nomatch h⟩

theorem covering_fillable {R : Nat → Bytes → Outcome Val} (hR : Steady R) (hF : Fillable R) (hC : Consuming R)
    (last : Val → Bool) : ∀ (bound n size : Nat) (bs : Bytes), n ≤ bound → bs.length ≤ size →
    ∃ ext, ∀ fuel, (bs ++ ext).length ≤ fuel →
      covering (R (size + ext.length)) last fuel n (bs ++ ext) ≠ .short
  | _, 0, _, _, _, _ => ⟨[], fun _ _ => by simp [covering]⟩
  | 0, n + 1, _, _, h, _ => by omega
  | bound + 1, n + 1, size, bs, hb, hl => by
    obtain ⟨ext, hext⟩ := hF (size + 1) (bs ++ [0]) (by rw [List.length_append]; simp; omega)
    cases hr : R (size + 1 + ext.length) (bs ++ [0] ++ ext) with
    | short => exact absurd hr hext
    | invalid =>
      refine ⟨[0] ++ ext, ?_⟩
      intro fuel hfuel
      have : size + ([0] ++ ext).length = size + 1 + ext.length := by simp; omega
      cases fuel with
      | zero => simp at hfuel
      | succ fuel =>
        simp only [this, ← List.append_assoc, covering]
        rw [if_neg (by simp), hr]
        exact fun h => nomatch h
    | done v rest =>
      have hle : (bs ++ [0] ++ ext).length ≤ size + 1 + ext.length := by simp; omega
      have hc := hC _ _ _ _ hr
      obtain ⟨ext', hext'⟩ := covering_fillable hR hF hC last bound
        (n + 1 - ((bs ++ [0] ++ ext).length - rest.length)) (size + 1 + ext.length) rest (by omega) (by omega)
      have h4 := ((hR _ _ ext' hle).1 v rest hr).2
      refine ⟨[0] ++ ext ++ ext', ?_⟩
      intro fuel hfuel
      have : size + ([0] ++ ext ++ ext').length = size + 1 + ext.length + ext'.length := by simp; omega
      cases fuel with
      | zero => simp at hfuel
      | succ fuel =>
        simp only [this, ← List.append_assoc, covering]
        simp only [← List.append_assoc] at hfuel
        rw [if_neg (by simp), h4]
        simp only
        split
        · exact fun h => nomatch h
        have hlen : (bs ++ [0] ++ ext ++ ext').length - (rest ++ ext').length =
            (bs ++ [0] ++ ext).length - rest.length := by simp only [List.length_append]; omega
        rw [hlen]
        have := hext' fuel (by rw [List.length_append] at hfuel ⊢; omega)
        intro h
        apply this
        split at h <;> first | assumption | cases h

/-! ### Types -/

/-- A second reader goes on where the first stops. -/
def Follows {α β : Type} (R : Nat → Bytes → Outcome α) (S : α → Nat → Bytes → Outcome β)
    (T : Nat → Bytes → Outcome β) : Prop :=
  ∀ size bs, (R size bs = .short → T size bs = .short) ∧ (R size bs = .invalid → T size bs = .invalid) ∧
    ∀ v rest, R size bs = .done v rest → T size bs = S v size rest

theorem Steady.andThen {α β : Type} {R : Nat → Bytes → Outcome α} {S : α → Nat → Bytes → Outcome β}
    {T : Nat → Bytes → Outcome β} (hR : Steady R) (hS : ∀ v, Steady (S v)) (hT : Follows R S T) : Steady T := by
  intro size bs ext hl
  obtain ⟨h1, h2⟩ := hR size bs ext hl
  obtain ⟨t1, t2, t3⟩ := hT size bs
  obtain ⟨u1, u2, u3⟩ := hT (size + ext.length) (bs ++ ext)
  generalize R size bs = r at h1 h2 t1 t2 t3
  cases r with
  | short => rw [t1 rfl]; exact ⟨fun _ _ h => (nomatch h), fun h => nomatch h⟩
  | invalid => rw [t2 rfl, u2 (h2 rfl)]; exact ⟨fun _ _ h => (nomatch h), fun _ => rfl⟩
  | done v rest =>
    obtain ⟨h3, h4⟩ := h1 v rest rfl
    rw [t3 v rest rfl, u3 _ _ h4]
    obtain ⟨h5, h6⟩ := hS v size rest ext (by omega)
    refine ⟨?_, h6⟩
    intro w rest' h
    obtain ⟨h7, h8⟩ := h5 w rest' h
    exact ⟨by omega, h8⟩

theorem Fillable.andThen {α β : Type} {R : Nat → Bytes → Outcome α} {S : α → Nat → Bytes → Outcome β}
    {T : Nat → Bytes → Outcome β} (hR : Steady R) (hF : Fillable R) (hS : ∀ v, Fillable (S v))
    (hT : Follows R S T) : Fillable T := by
  intro size bs hl
  obtain ⟨ext, hext⟩ := hF size bs hl
  have hle : (bs ++ ext).length ≤ size + ext.length := by rw [List.length_append]; omega
  cases hr : R (size + ext.length) (bs ++ ext) with
  | short => exact absurd hr hext
  | invalid =>
    refine ⟨ext, ?_⟩
    rw [(hT _ _).2.1 hr]
    exact fun h => nomatch h
  | done v rest =>
    have h3 := ((hR _ _ [] hle).1 v rest hr).1
    obtain ⟨ext', hext'⟩ := hS v (size + ext.length) rest (by omega)
    have h4 := ((hR _ _ ext' hle).1 v rest hr).2
    refine ⟨ext ++ ext', ?_⟩
    have : size + (ext ++ ext').length = size + ext.length + ext'.length := by simp; omega
    rw [this, ← List.append_assoc, (hT _ _).2.2 _ _ h4]
    exact hext'

/-- Nothing more is read. -/
theorem done_steady {α : Type} (v : α) : Steady fun _ bs => .done v bs := by
  intro size bs ext _
  exact ⟨fun _ _ h => by cases h; exact ⟨Nat.le_refl _, rfl⟩, fun h => nomatch h⟩

theorem done_fillable {α : Type} (v : α) : Fillable fun _ bs => .done v bs :=
  fun _ _ _ => ⟨[], fun h => nomatch h⟩

theorem grab_append {n : Nat} {f : Bytes → Val} {bs rest : Bytes} {v : Val} (ext : Bytes)
    (h : grab n f bs = some (v, rest)) : grab n f (bs ++ ext) = some (v, rest ++ ext) := by
  unfold grab at h ⊢
  split at h
  · rename_i hl
    cases h
    rw [if_pos (by rw [List.length_append]; omega), List.take_append_of_le_length hl,
      List.drop_append_of_le_length hl]
  · cases h

theorem times_append {read : Bytes → Option (Val × Bytes)} (ext : Bytes)
    (hr : ∀ bs v rest, read bs = some (v, rest) → read (bs ++ ext) = some (v, rest ++ ext)) :
    ∀ (n : Nat) (bs rest : Bytes) (vs : List Val), times read n bs = some (vs, rest) →
      times read n (bs ++ ext) = some (vs, rest ++ ext)
  | 0, bs, rest, vs, h => by
    rw [times] at h ⊢
    cases h
    rfl
  | n + 1, bs, rest, vs, h => by
    rw [times] at h ⊢
    split at h
    · cases h
    rename_i h1
    split at h <;> cases h
    rename_i h2
    simp only [hr _ _ _ h1, times_append ext hr n _ _ _ h2]

mutual
theorem ty_read_longer (t : Ty) (ext : Bytes) : ∀ (bs rest : Bytes) (v : Val), t.read bs = some (v, rest) →
    t.read (bs ++ ext) = some (v, rest ++ ext) := by
  intro bs rest v h
  cases t with
  | scalar n b k s => rw [Ty.read] at h ⊢; exact grab_append ext h
  | uuid n b => rw [Ty.read] at h ⊢; exact grab_append ext h
  | stream n e s => rw [Ty.read] at h ⊢; exact grab_append ext h
  | sequence n e k =>
    rw [Ty.read] at h ⊢
    split at h <;> cases h
    rename_i h1
    simp only [times_append ext (fun bs v rest => ty_read_longer e ext bs rest v) k _ _ _ h1]
  | record n b fs =>
    rw [Ty.read] at h ⊢
    split at h <;> cases h
    rename_i h1
    simp only [fields_read_longer fs ext _ _ _ h1]
termination_by structural t
theorem fields_read_longer (fs : Fields) (ext : Bytes) : ∀ (bs rest : Bytes) (attrs : List (String × Val)),
    fs.read bs = some (attrs, rest) → fs.read (bs ++ ext) = some (attrs, rest ++ ext) := by
  intro bs rest attrs h
  cases fs with
  | nil => rw [Fields.read] at h ⊢; cases h; rfl
  | cons n t fs =>
    rw [Fields.read] at h ⊢
    split at h
    · cases h
    rename_i h1
    split at h <;> cases h
    rename_i h2
    simp only [ty_read_longer t ext _ _ _ h1, fields_read_longer fs ext _ _ _ h2]
termination_by structural fs
end

theorem fixed_steady (t : Ty) : Steady fun _ bs =>
    match t.read bs with
    | none => .short
    | some (v, rest) => .done v rest := by
  intro size bs ext _
  simp only
  have h1 := ty_takes t bs
  by_cases hl : t.size ≤ bs.length
  · rw [if_pos hl] at h1
    obtain ⟨v, hv⟩ := h1
    rw [hv, ty_read_longer t ext _ _ _ hv]
    refine ⟨?_, fun h => nomatch h⟩
    intro w rest h
    cases h
    exact ⟨by rw [List.length_drop]; omega, rfl⟩
  · rw [if_neg hl] at h1
    rw [h1]
    exact ⟨fun _ _ h => (nomatch h), fun h => nomatch h⟩

theorem fixed_fillable (t : Ty) : Fillable fun _ bs =>
    match t.read bs with
    | none => .short
    | some (v, rest) => .done v rest := by
  intro size bs _
  refine ⟨List.replicate t.size 0, ?_⟩
  have h1 := ty_takes t (bs ++ List.replicate t.size 0)
  rw [if_pos (by simp)] at h1
  obtain ⟨v, hv⟩ := h1
  simp only [hv]
  exact fun h => nomatch h

/-- Elements that are of no fixed size take bytes. -/
theorem listed_consuming {E : Env} {decode : String → Bytes → Option (List Nat)} {e : VTy} {x : Expr}
    (hok : VTyOk E e) (h : e.Listed x) (hu : e.unit = none) : Consuming fun size bs => e.read decode size [] bs := by
  have key : ∀ {u : Nat} {t bs b b' rest : Bytes}, t ≠ [] → (Len.upto t).read u [] bs = .done (b, b') rest →
      rest.length < bs.length := by
    intro u t bs b b' rest ht h
    simp only [Len.read] at h
    split at h <;> cases h
    rename_i heq
    exact (splitAt_steady ht [] _ _ _ _ _ (Nat.le_refl _) heq).1
  intro size bs v rest hr
  cases e with
  | fixed t => simp [VTy.unit] at hu
  | block n e len =>
    cases len with
    | upto t =>
      rw [VTyOk] at hok
      simp only [VTy.read] at hr
      split at hr <;> cases hr
      rename_i h1
      exact key hok.2.2.2.1 h1
    | _ => simp [VTy.Listed] at h
  | text n enc e len =>
    cases len with
    | upto t =>
      rw [VTyOk] at hok
      simp only [VTy.read] at hr
      split at hr
      · cases hr
      · cases hr
      rename_i h1
      split at hr <;> cases hr
      exact key hok.2.2.2.1 h1
    | _ => simp [VTy.Listed] at h
  | _ => simp [VTy.Listed] at h

mutual
theorem vty_steady {E : Env} {decode : String → Bytes → Option (List Nat)} (t : VTy) (hok : VTyOk E t) (s : Scope) :
    Steady fun size bs => t.read decode size s bs := by
  cases t with
  | fixed t => simp only [VTy.read]; exact fixed_steady t
  | block n e len =>
    rw [VTyOk] at hok
    simp only [VTy.read]
    exact Steady.andThen (S := fun p _ rest => .done (Val.bytes (p.1 ++ p.2)) rest) (len_steady hok.2.2.2 e.size s)
      (fun p => done_steady _)
          (fun size bs => ⟨fun h => by simp only [h], fun h => by simp only [h],
            fun v rest h => by simp only [h] <;> rfl⟩)
  | text n enc e len =>
    rw [VTyOk] at hok
    simp only [VTy.read]
    refine Steady.andThen (S := fun p _ rest => match decode enc p.1 with
      | none => .invalid
      | some cs => .done (Val.str cs) rest) (len_steady hok.2.2.2 e.size s) (fun p => ?_)
          (fun size bs => ⟨fun h => by simp only [h], fun h => by simp only [h],
            fun v rest h => by simp only [h] <;> rfl⟩)
    cases decode enc p.1 with
    | none => exact invalid_steady
    | some cs => exact done_steady _
  | array n e x =>
    rw [VTyOk] at hok
    simp only [VTy.read]
    cases x.value s with
    | none => exact invalid_steady
    | some n =>
      simp only
      split
      · exact invalid_steady
      exact Steady.andThen (S := fun vs _ rest => .done (Val.tuple vs) rest)
        (repeated_steady (vty_steady (decode := decode) e hok.2.2.2 []) n.toNat) (fun _ => done_steady _)
          (fun size bs => ⟨fun h => by simp only [h], fun h => by simp only [h],
            fun v rest h => by simp only [h] <;> rfl⟩)
  | list n e x =>
    rw [VTyOk] at hok
    simp only [VTy.read]
    cases x.value s with
    | none => exact invalid_steady
    | some n =>
      simp only
      split
      · exact invalid_steady
      cases e.unit with
      | some k =>
        exact Steady.andThen (S := fun vs _ rest => .done (Val.tuple vs) rest)
          (R := fun size => repeated (fun bs => e.read decode size [] bs) (n.toNat / k))
          (repeated_steady (vty_steady (decode := decode) e hok.2.2.2 []) (n.toNat / k)) (fun _ => done_steady _)
          (fun size bs => ⟨fun h => by simp only [h], fun h => by simp only [h],
            fun v rest h => by simp only [h] <;> rfl⟩)
      | none =>
        refine Steady.andThen (S := fun vs _ rest => .done (Val.tuple vs) rest)
          (R := fun size bs => covering (fun bs => e.read decode size [] bs) e.isLast bs.length n.toNat bs)
          ?_ (fun _ => done_steady _)
          (fun size bs => ⟨fun h => by simp only [h], fun h => by simp only [h],
            fun v rest h => by simp only [h] <;> rfl⟩)
        intro size bs ext hl
        exact covering_steady (vty_steady (decode := decode) e hok.2.2.2 []) e.isLast bs.length (bs ++ ext).length
          n.toNat size bs ext (by rw [List.length_append]; omega) hl
  | record name big fs =>
    rw [VTyOk] at hok
    simp only [VTy.read]
    have := Steady.andThen (S := fun attrs _ rest => .done (Val.struct name attrs) rest)
      (T := fun size bs => match fs.read decode size s name [] bs with
        | .short => .short
        | .invalid => .invalid
        | .done attrs rest => .done (Val.struct name attrs) rest)
      (vfields_steady (decode := decode) fs hok.2.2.2.2.2.2 s name []) (fun _ => done_steady _)
          (fun size bs => ⟨fun h => by simp only [h], fun h => by simp only [h],
            fun v rest h => by simp only [h] <;> rfl⟩)
    intro size bs ext hl
    have := this size bs ext hl
    simp only
    by_cases hf : bs.length < (fs.flat big).getD 0
    · rw [if_pos hf]
      exact ⟨fun _ _ h => (nomatch h), fun h => nomatch h⟩
    · rw [if_neg hf, if_neg (by rw [List.length_append]; omega)]
      exact this
  | group n base ident ms =>
    rw [VTyOk] at hok
    simp only [VTy.read]
    intro size bs ext hl
    obtain ⟨h1, h2⟩ := vty_steady (decode := decode) base hok.2.2.1 [] size bs ext hl
    simp only at h1 h2 ⊢
    generalize base.read decode size [] bs = r at h1 h2 ⊢
    cases r with
    | short => exact ⟨fun _ _ h => (nomatch h), fun h => nomatch h⟩
    | invalid => rw [h2 rfl]; exact ⟨fun _ _ h => (nomatch h), fun _ => rfl⟩
    | done v rest =>
      rw [(h1 v rest rfl).2]
      simp only
      cases numberField (some v) ident with
      | none => exact ⟨fun _ _ h => (nomatch h), fun _ => rfl⟩
      | some i => exact vmembers_steady ms hok.2.2.2.2.2 i size bs ext hl
termination_by structural t
theorem vfields_steady {E : Env} {decode : String → Bytes → Option (List Nat)} (fs : VFields) (hok : VFieldsOk E fs)
    (s : Scope) (name : String) (pre : List (String × Val)) :
    Steady fun size bs => fs.read decode size s name pre bs := by
  cases fs with
  | nil => simp only [VFields.read]; exact done_steady _
  | cons n c vs t fs =>
    rw [VFieldsOk] at hok
    simp only [VFields.read]
    cases present (s ++ [(name, .struct name pre)]) c with
    | none => exact invalid_steady
    | some b =>
      cases b with
      | false => exact vfields_steady fs hok.2.2.2 s name _
      | true =>
        refine Steady.andThen (S := fun v size rest => if allowed vs v then
          fs.read decode size s name (pre ++ [(n, v)]) rest else .invalid)
          (vty_steady (decode := decode) t hok.2.2.1 (s ++ [(name, .struct name pre)])) (fun v => ?_)
          (fun size bs => ⟨fun h => by simp only [h], fun h => by simp only [h],
            fun v rest h => by simp only [h] <;> rfl⟩)
        cases allowed vs v with
        | true => exact vfields_steady fs hok.2.2.2 s name _
        | false => exact invalid_steady
  | padding n a fs =>
    rw [VFieldsOk] at hok
    simp only [VFields.read]
    intro size bs ext hl
    have hg : gap (size + ext.length - (bs ++ ext).length) a = gap (size - bs.length) a := by
      rw [List.length_append]
      congr 1
      omega
    simp only [hg]
    by_cases hl' : gap (size - bs.length) a ≤ bs.length
    · rw [if_pos hl', if_pos (by rw [List.length_append]; omega), List.take_append_of_le_length hl',
        List.drop_append_of_le_length hl']
      obtain ⟨h1, h2⟩ := vfields_steady (decode := decode) fs hok.2 s name
        (pre ++ [(n, .bytes (bs.take (gap (size - bs.length) a)))]) size
        (bs.drop (gap (size - bs.length) a)) ext (by rw [List.length_drop]; omega)
      refine ⟨?_, h2⟩
      intro v rest h
      obtain ⟨h3, h4⟩ := h1 v rest h
      rw [List.length_drop] at h3
      exact ⟨by omega, h4⟩
    · rw [if_neg hl']
      exact ⟨fun _ _ h => (nomatch h), fun h => nomatch h⟩
termination_by structural fs
theorem vmembers_steady {E : Env} {decode : String → Bytes → Option (List Nat)} {ident : String} (ms : VMembers)
    (hok : VMembersOk E ident ms) (i : Int) : Steady fun size bs => ms.read decode size ident i bs := by
  cases ms with
  | nil => simp only [VMembers.read]; exact invalid_steady
  | default t =>
    rw [VMembersOk] at hok
    simp only [VMembers.read]
    exact vty_steady t hok []
  | cons t ms =>
    rw [VMembersOk] at hok
    simp only [VMembers.read]
    split
    · exact vty_steady t hok.2.1 []
    · exact vmembers_steady ms hok.2.2 i
termination_by structural ms
end

mutual
theorem vty_fillable {E : Env} {decode : String → Bytes → Option (List Nat)} (t : VTy) (hok : VTyOk E t) (s : Scope) :
    Fillable fun size bs => t.read decode size s bs := by
  cases t with
  | fixed t => simp only [VTy.read]; exact fixed_fillable t
  | block n e len =>
    rw [VTyOk] at hok
    simp only [VTy.read]
    exact Fillable.andThen (S := fun p _ rest => .done (Val.bytes (p.1 ++ p.2)) rest) (len_steady hok.2.2.2 e.size s)
      (len_fillable hok.2.2.2 e.size s) (fun p => done_fillable _)
          (fun size bs => ⟨fun h => by simp only [h], fun h => by simp only [h],
            fun v rest h => by simp only [h] <;> rfl⟩)
  | text n enc e len =>
    rw [VTyOk] at hok
    simp only [VTy.read]
    refine Fillable.andThen (S := fun p _ rest => match decode enc p.1 with
      | none => .invalid
      | some cs => .done (Val.str cs) rest) (len_steady hok.2.2.2 e.size s) (len_fillable hok.2.2.2 e.size s)
      (fun p => ?_)
          (fun size bs => ⟨fun h => by simp only [h], fun h => by simp only [h],
            fun v rest h => by simp only [h] <;> rfl⟩)
    cases decode enc p.1 with
    | none => exact invalid_fillable
    | some cs => exact done_fillable _
  | array n e x =>
    rw [VTyOk] at hok
    simp only [VTy.read]
    cases x.value s with
    | none => exact invalid_fillable
    | some n =>
      simp only
      split
      · exact invalid_fillable
      exact Fillable.andThen (S := fun vs _ rest => .done (Val.tuple vs) rest)
        (repeated_steady (vty_steady (decode := decode) e hok.2.2.2 []) n.toNat)
        (repeated_fillable (vty_steady (decode := decode) e hok.2.2.2 [])
          (vty_fillable (decode := decode) e hok.2.2.2 []) n.toNat)
        (fun _ => done_fillable _)
          (fun size bs => ⟨fun h => by simp only [h], fun h => by simp only [h],
            fun v rest h => by simp only [h] <;> rfl⟩)
  | list n e x =>
    rw [VTyOk] at hok
    simp only [VTy.read]
    cases x.value s with
    | none => exact invalid_fillable
    | some n =>
      simp only
      split
      · exact invalid_fillable
      cases hu : e.unit with
      | some k =>
        exact Fillable.andThen (S := fun vs _ rest => .done (Val.tuple vs) rest)
          (repeated_steady (vty_steady (decode := decode) e hok.2.2.2 []) (n.toNat / k))
          (repeated_fillable (vty_steady (decode := decode) e hok.2.2.2 [])
          (vty_fillable (decode := decode) e hok.2.2.2 []) (n.toNat / k))
          (fun _ => done_fillable _)
          (fun size bs => ⟨fun h => by simp only [h], fun h => by simp only [h],
            fun v rest h => by simp only [h] <;> rfl⟩)
      | none =>
        intro size bs hl
        obtain ⟨ext, hext⟩ := covering_fillable (vty_steady (decode := decode) e hok.2.2.2 [])
          (vty_fillable (decode := decode) e hok.2.2.2 []) (listed_consuming hok.2.2.2 hok.2.2.1 hu) e.isLast n.toNat
          n.toNat size bs (Nat.le_refl _) hl
        refine ⟨ext, ?_⟩
        have := hext _ (Nat.le_refl _)
        simp only
        intro h
        apply this
        split at h <;> first | assumption | cases h
  | record name big fs =>
    rw [VTyOk] at hok
    simp only [VTy.read]
    have := Fillable.andThen (S := fun attrs _ rest => .done (Val.struct name attrs) rest)
      (T := fun size bs => match fs.read decode size s name [] bs with
        | .short => .short
        | .invalid => .invalid
        | .done attrs rest => .done (Val.struct name attrs) rest)
      (vfields_steady (decode := decode) fs hok.2.2.2.2.2.2 s name [])
      (vfields_fillable (decode := decode) fs hok.2.2.2.2.2.2 s name []) (fun _ => done_fillable _)
          (fun size bs => ⟨fun h => by simp only [h], fun h => by simp only [h],
            fun v rest h => by simp only [h] <;> rfl⟩)
    intro size bs hl
    obtain ⟨ext, hext⟩ := this (size + (fs.flat big).getD 0) (bs ++ List.replicate ((fs.flat big).getD 0) 0)
      (by rw [List.length_append, List.length_replicate]; omega)
    refine ⟨List.replicate ((fs.flat big).getD 0) 0 ++ ext, ?_⟩
    have hs : size + (List.replicate ((fs.flat big).getD 0) (0 : UInt8) ++ ext).length =
      size + (fs.flat big).getD 0 + ext.length := by rw [List.length_append, List.length_replicate]; omega
    simp only [hs, ← List.append_assoc]
    rw [if_neg (by simp only [List.length_append, List.length_replicate]; omega)]
    exact hext
  | group n base ident ms =>
    rw [VTyOk] at hok
    simp only [VTy.read]
    intro size bs hl
    obtain ⟨ext, hext⟩ := vty_fillable (decode := decode) base hok.2.2.1 [] size bs hl
    have hle : (bs ++ ext).length ≤ size + ext.length := by rw [List.length_append]; omega
    simp only at hext ⊢
    cases hr : base.read decode (size + ext.length) [] (bs ++ ext) with
    | short => exact absurd hr hext
    | invalid => exact ⟨ext, by rw [hr]; exact fun h => nomatch h⟩
    | done v rest =>
      cases hi : numberField (some v) ident with
      | none => exact ⟨ext, by rw [hr]; simp only [hi]; exact fun h => nomatch h⟩
      | some i =>
        obtain ⟨ext', hext'⟩ := vmembers_fillable (decode := decode) ms hok.2.2.2.2.2 i _ _ hle
        refine ⟨ext ++ ext', ?_⟩
        have hs : size + (ext ++ ext').length = size + ext.length + ext'.length := by simp; omega
        have h4 := ((vty_steady (decode := decode) base hok.2.2.1 [] _ _ ext' hle).1 v rest hr).2
        simp only at h4
        rw [hs, ← List.append_assoc, h4]
        simp only [hi]
        exact hext'
termination_by structural t
theorem vfields_fillable {E : Env} {decode : String → Bytes → Option (List Nat)} (fs : VFields)
    (hok : VFieldsOk E fs) (s : Scope) (name : String) (pre : List (String × Val)) :
    Fillable fun size bs => fs.read decode size s name pre bs := by
  cases fs with
  | nil => simp only [VFields.read]; exact done_fillable _
  | cons n c vs t fs =>
    rw [VFieldsOk] at hok
    simp only [VFields.read]
    cases present (s ++ [(name, .struct name pre)]) c with
    | none => exact invalid_fillable
    | some b =>
      cases b with
      | false => exact vfields_fillable fs hok.2.2.2 s name _
      | true =>
        refine Fillable.andThen (S := fun v size rest => if allowed vs v then
          fs.read decode size s name (pre ++ [(n, v)]) rest else .invalid)
          (vty_steady (decode := decode) t hok.2.2.1 (s ++ [(name, .struct name pre)]))
          (vty_fillable (decode := decode) t hok.2.2.1 (s ++ [(name, .struct name pre)])) (fun v => ?_)
          (fun size bs => ⟨fun h => by simp only [h], fun h => by simp only [h],
            fun v rest h => by simp only [h] <;> rfl⟩)
        cases allowed vs v with
        | true => exact vfields_fillable fs hok.2.2.2 s name _
        | false => exact invalid_fillable
  | padding n a fs =>
    rw [VFieldsOk] at hok
    simp only [VFields.read]
    intro size bs hl
    generalize hg : gap (size - bs.length) a = g
    have hl' : g ≤ (bs ++ List.replicate g (0 : UInt8)).length := by simp
    obtain ⟨ext, hext⟩ := vfields_fillable (decode := decode) fs hok.2 s name
      (pre ++ [(n, .bytes ((bs ++ List.replicate g 0).take g))]) (size + g)
      ((bs ++ List.replicate g 0).drop g) (by rw [List.length_drop]; simp; omega)
    refine ⟨List.replicate g 0 ++ ext, ?_⟩
    have hs : size + (List.replicate g (0 : UInt8) ++ ext).length = size + g + ext.length := by
      rw [List.length_append, List.length_replicate]; omega
    have hg' : gap (size + g + ext.length - (bs ++ List.replicate g (0 : UInt8) ++ ext).length) a = g := by
      rw [← hg]
      congr 1
      simp only [List.length_append, List.length_replicate]
      omega
    simp only [hs, ← List.append_assoc, hg']
    rw [if_pos (by simp only [List.length_append, List.length_replicate]; omega),
      List.take_append_of_le_length hl', List.drop_append_of_le_length hl']
    exact hext
termination_by structural fs
theorem vmembers_fillable {E : Env} {decode : String → Bytes → Option (List Nat)} {ident : String} (ms : VMembers)
    (hok : VMembersOk E ident ms) (i : Int) : Fillable fun size bs => ms.read decode size ident i bs := by
  cases ms with
  | nil => simp only [VMembers.read]; exact invalid_fillable
  | default t =>
    rw [VMembersOk] at hok
    simp only [VMembers.read]
    exact vty_fillable t hok []
  | cons t ms =>
    rw [VMembersOk] at hok
    simp only [VMembers.read]
    split
    · exact vty_fillable t hok.2.1 []
    · exact vmembers_fillable ms hok.2.2 i
termination_by structural ms
end

end Dtf
