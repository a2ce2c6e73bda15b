import Verif.Props.FoldSize
/-!
# Property C95: the size of structures with padding

GetByteSize counts padding from the beginning of the structure, MapByteStream from the
beginning of the byte stream. Here: both agree where the structure starts at a multiple
of the alignment sizes. This extends C10 and C11, which leave padding out.
-/
namespace Dtf

open Spec

/-- **C95** When GetByteSize is `n` and MapByteStream succeeds where every structure with
padding is aligned, `context.byte_size` is `n`. -/
theorem C95_size (E : Env) (d : Defn) (hd : d.Every PlainPadded) (n : Int) (hn : d.byteSize = some n)
    (m : DMap) (hm : createMap E d = .ok m) (bs : Bytes) (off depth : Nat) (ha : Aligned off d)
    (c : Ctx) (hc : c.Clean) (v : Val) (hv : (mapStream E m bs off depth c).1 = .ok v) :
    ∃ k : Nat, (mapStream E m bs off depth c).2.byteSize = some k ∧ (k : Int) = n := by
  obtain ⟨k, hp, hb⟩ := mapStream_ok hc hv
  have := (parse_aligned E bs d hd n hn).2 _ _ m hm off depth c.values ha
  rw [hp] at this
  exact ⟨k, hb, this.1⟩

/-- **C95** There, fewer than `n` bytes never give a value and `n` bytes or more never
raise ByteStreamTooSmallError. -/
theorem C95_bytes (E : Env) (d : Defn) (hd : d.Every PlainPadded) (n : Int) (hn : d.byteSize = some n)
    (m : DMap) (hm : createMap E d = .ok m) (bs : Bytes) (off depth : Nat) (ha : Aligned off d)
    (c : Ctx) (hc : c.Clean) :
    ((bs.length : Int) < off + n → ∀ v, (mapStream E m bs off depth c).1 ≠ .ok v) ∧
    ((off : Int) + n ≤ bs.length → (mapStream E m bs off depth c).1 ≠ .error .tooSmall) := by
  have hx := (parse_aligned E bs d hd n hn).2 _ _ m hm off depth c.values ha
  refine ⟨fun hlt v hv => ?_, fun hle he => ?_⟩
  · obtain ⟨k, hp, -⟩ := mapStream_ok hc hv
    rw [hp] at hx
    have := hx.2
    omega
  · rw [mapStream_error hc] at he
    rw [he] at hx
    have := hx rfl
    omega

theorem alignedFrom_start {off : Int} {ms : List Defn}
    (hms : ∀ d ∈ ms, (∃ h a, d = .padding h (some (a + 1)) ∧ ((a + 1 : Nat) : Int) ∣ off) ∨ d.Every Plain)
    (pos : Int) : alignedFrom off pos ms := by
  induction ms generalizing pos with
  | nil => simp only [alignedFrom]
  | cons d ms ih =>
    have ih := ih fun d hd => hms d (List.mem_cons_of_mem _ hd)
    rcases hms d List.mem_cons_self with ⟨h, a, rfl, hdvd⟩ | hp
    · simp only [alignedFrom]
      exact ⟨hdvd, ih _⟩
    · rw [alignedFrom_cons]
      · exact ⟨(aligned_plain d hp).1 _, ih _⟩
      · rintro h a rfl
        exact hp.self

/-- **C95** A structure whose padding is all its own (not that of its members) is
aligned at every multiple of its alignment sizes; at the beginning of the byte stream
always. -/
theorem C95_multiple (h : Hdr) (ms : List Defn) (off : Int)
    (hms : ∀ d ∈ ms, (∃ h a, d = .padding h (some (a + 1)) ∧ ((a + 1 : Nat) : Int) ∣ off) ∨ d.Every Plain) :
    Aligned off (.struct h ms) := by
  simp only [Aligned]
  exact alignedFrom_start hms off

theorem structSize_append (xs ys : List Defn) (tot n : Int) (h : structSize tot (xs ++ ys) = some n) :
    ∃ t, structSize tot xs = some t ∧ structSize t ys = some n := by
  induction xs generalizing tot with
  | nil => exact ⟨tot, by simp [structSize], h⟩
  | cons d xs ih =>
    by_cases hpad : ∃ h a, d = .padding h (some (a + 1))
    · obtain ⟨h', a, rfl⟩ := hpad
      simp only [List.cons_append, structSize] at h ⊢
      exact ih _ h
    · have hpad : ∀ h a, d ≠ .padding h (some (a + 1)) := fun h a e => hpad ⟨h, a, e⟩
      rw [List.cons_append, structSize_cons hpad] at h
      rw [structSize_cons hpad]
      split at h
      · cases h
      · exact ih _ h

theorem paddingSize_fills (t : Int) (a : Nat) : ((a + 1 : Nat) : Int) ∣ t + paddingSize t (a + 1) := by
  unfold paddingSize
  have h1 := Int.emod_nonneg t (b := (a + 1 : Int)) (by omega)
  have h2 := Int.emod_add_mul_ediv t (a + 1)
  simp only
  split
  · refine ⟨t / (a + 1) + 1, ?_⟩
    push_cast
    rw [Int.mul_add]
    omega
  · refine ⟨t / (a + 1), ?_⟩
    push_cast
    omega

/-- **C95** A structure that ends with padding to a multiple of `a` has a size that is a
multiple of `a`, so that a sequence of such structures is aligned where its first is. -/
theorem C95_records (h hs hp : Hdr) (info : SeqInfo) (front : List Defn) (a : Nat) (n off : Int)
    (hn : (Defn.struct hs (front ++ [.padding hp (some (a + 1))])).byteSize = some n)
    (hoff : ((a + 1 : Nat) : Int) ∣ off)
    (hfront : ∀ d ∈ front, (∃ h b, d = .padding h (some (b + 1)) ∧ (b + 1) ∣ (a + 1)) ∨ d.Every Plain) :
    ((a + 1 : Nat) : Int) ∣ n ∧
      Aligned off (.seq h info (.struct hs (front ++ [.padding hp (some (a + 1))]))) := by
  have hsz : structSize 0 (front ++ [.padding hp (some (a + 1))]) = some n := by
    generalize hl : front ++ [Defn.padding hp (some (a + 1))] = l at hn ⊢
    cases l with
    | nil => simp at hl
    | cons d ms => simpa only [Defn.byteSize] using hn
  obtain ⟨t, -, ht⟩ := structSize_append _ _ _ _ hsz
  simp only [structSize, Option.some.injEq] at ht
  have hdvd : ((a + 1 : Nat) : Int) ∣ n := ht ▸ paddingSize_fills t a
  refine ⟨hdvd, ?_⟩
  simp only [Aligned]
  intro i
  have hpos : ((a + 1 : Nat) : Int) ∣
      off + i * (Defn.struct hs (front ++ [.padding hp (some (a + 1))])).byteSize.getD 0 := by
    rw [hn, Option.getD_some]
    exact Int.dvd_add hoff (Int.dvd_trans hdvd (Int.dvd_mul_left _ _))
  refine alignedFrom_start (fun d hd => ?_) _
  rw [List.mem_append, List.mem_singleton] at hd
  rcases hd with hd | rfl
  · rcases hfront d hd with ⟨h, b, rfl, hb⟩ | hpl
    · exact .inl ⟨h, b, rfl, Int.dvd_trans (Int.natCast_dvd_natCast.mpr hb) hpos⟩
    · exact .inr hpl
  · exact .inl ⟨hp, a, rfl, hpos⟩

theorem exPadded_plain : exPadded.Every PlainPadded := by
  simp only [exPadded, Defn.Every, everyDefn_iff, exU8, exUuid]
  refine ⟨.inr ?_, ?_⟩
  · have := exPadded_writable.self
    simpa only [exPadded, Plain, Writable, exU8, exUuid] using this
  · intro d hd
    simp only [List.mem_cons, List.not_mem_nil, or_false] at hd
    rcases hd with rfl | rfl | rfl
    · exact ⟨.inr trivial, .inr trivial⟩
    · exact .inl ⟨_, _, rfl⟩
    · exact ⟨.inr trivial, .inr trivial⟩

theorem exPadded_aligned : Aligned (4 : Nat) exPadded := by
  refine C95_multiple _ _ _ ?_
  intro d hd
  simp only [List.mem_cons, List.not_mem_nil, or_false] at hd
  rcases hd with rfl | rfl | rfl
  · exact .inr ⟨trivial, trivial⟩
  · exact .inl ⟨_, 3, rfl, 1, rfl⟩
  · exact .inr ⟨trivial, trivial⟩

/-- The structure of a byte, padding to a multiple of four and a UUID takes its 20 bytes
at the offset 4. -/
example : exPadded.Every PlainPadded ∧ exPadded.byteSize = some 20 ∧ Aligned (4 : Nat) exPadded ∧
    ∃ m, createMap exEnv exPadded = .ok m ∧
      (∃ v, (mapStream exEnv m (List.replicate 24 1) 4 0 {}).1 = .ok v) ∧
      (mapStream exEnv m (List.replicate 24 1) 4 0 {}).2.byteSize = some 20 ∧
      (mapStream exEnv m (List.replicate 23 1) 4 0 {}).1 = .error .tooSmall :=
  ⟨exPadded_plain, rfl, exPadded_aligned, _, rfl, ⟨_, rfl⟩, rfl, rfl⟩

/-- **C95** Elsewhere the sizes differ: at the offset 1 the same structure takes 19
bytes, and so it maps from fewer bytes than GetByteSize. -/
theorem C95_unaligned : exPadded.byteSize = some 20 ∧ ∃ m v, createMap exEnv exPadded = .ok m ∧
    (mapStream exEnv m (List.replicate 20 1) 1 0 {}).1 = .ok v ∧
    (mapStream exEnv m (List.replicate 20 1) 1 0 {}).2.byteSize = some 19 :=
  ⟨rfl, _, _, rfl, rfl, rfl⟩

/-- A byte and the structure with padding. -/
def exPaddedInside : Defn :=
  .struct { name := "outer", order := .little }
    [.member { name := "first" } exU8 none (some "uint8") none,
      .member { name := "inner" } exPadded none (some "record") none]

/-- **C95** Also at the beginning of the byte stream, for a structure with padding inside
of another. -/
theorem C95_inside : exPaddedInside.byteSize = some 21 ∧ ∃ m v, createMap exEnv exPaddedInside = .ok m ∧
    (mapStream exEnv m (List.replicate 21 1) 0 0 {}).1 = .ok v ∧
    (mapStream exEnv m (List.replicate 21 1) 0 0 {}).2.byteSize = some 20 :=
  ⟨rfl, _, _, rfl, rfl, rfl⟩

/-- A word, padding to a multiple of two, a byte and `last`; and a sequence of two of
these. -/
def exPaddedRow (last : List Defn) : Defn :=
  .struct { name := "row", order := .little }
    (.member { name := "word" } exU16 none (some "uint16") none ::
      .padding { name := "fill" } (some 2) ::
      .member { name := "byte" } exU8 none (some "uint8") none :: last)
def exPaddedRows (last : List Defn) : Defn :=
  .seq { name := "rows", order := .little }
    { kind := .sequence, elementDataType := some "row", numElements := some 2 } (exPaddedRow last)

/-- **C95** And for sequences of structures that do not end with padding: two structures
of three bytes take seven. With padding at the end two structures of four bytes take
eight. -/
theorem C95_rows : (exPaddedRows []).byteSize = some 6 ∧
    (∃ m v, createMap exEnv (exPaddedRows []) = .ok m ∧
      (mapStream exEnv m (List.replicate 8 1) 0 0 {}).1 = .ok v ∧
      (mapStream exEnv m (List.replicate 8 1) 0 0 {}).2.byteSize = some 7) ∧
    (exPaddedRows [.padding { name := "tail" } (some 2)]).byteSize = some 8 ∧
    (∃ m v, createMap exEnv (exPaddedRows [.padding { name := "tail" } (some 2)]) = .ok m ∧
      (mapStream exEnv m (List.replicate 8 1) 0 0 {}).1 = .ok v ∧
      (mapStream exEnv m (List.replicate 8 1) 0 0 {}).2.byteSize = some 8) :=
  ⟨rfl, ⟨_, _, rfl, rfl, rfl⟩, rfl, ⟨_, _, rfl, rfl, rfl⟩⟩

/-- The hypotheses of `C95_records` are met by the rows with padding at the end. -/
example : Aligned 0 (exPaddedRows [.padding { name := "tail" } (some 2)]) :=
  (C95_records _ _ _ _ [.member { name := "word" } exU16 none (some "uint16") none,
    .padding { name := "fill" } (some 2), .member { name := "byte" } exU8 none (some "uint8") none] 1 4 0
    rfl ⟨0, rfl⟩ (by
      intro d hd
      simp only [List.mem_cons, List.not_mem_nil, or_false] at hd
      rcases hd with rfl | rfl | rfl
      · exact .inr ⟨trivial, trivial⟩
      · exact .inl ⟨_, 1, rfl, 1, rfl⟩
      · exact .inr ⟨trivial, trivial⟩)).2

end Dtf
