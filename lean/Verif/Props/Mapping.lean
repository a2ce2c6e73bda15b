import Verif.ParseSize
import Verif.ParseShift
import Verif.Props.Primitive
/-!
# Properties C10 - C15: size, bounds, extension and offset of a mapping
-/
namespace Dtf

namespace Spec

/-- A stream or string that ends at a terminator only has a terminator of the
size of its elements, which is not empty. -/
def FullTerminators : Defn → Prop
  | .seq _ info e =>
    info.kind ≠ .sequence →
    info.dataSize = none → info.dataSizeExpr = none →
    info.numElements = none → info.numElementsExpr = none →
    ∀ t, info.terminator = some (.bytes t) → t ≠ [] ∧ e.byteSize = some (t.length : Int)
  | _ => True

/-- A terminator is not `None`, UUIDs have 16 bytes (if their size is known), and
structure members with the same type name have the same type. -/
def Ordinary : Defn → Prop
  | .seq _ info _ => info.terminator ≠ some .null
  | .uuid h s u => ∀ n, (Defn.uuid h s u).byteSize = some n → n = 16
  | .struct _ ms => DistinctTypes ms
  | _ => True

/-- The alignment size of a padding is a divisor of `k`. -/
def AlignmentDivides (k : Nat) : Defn → Prop
  | .padding _ (some a) => a ∣ k
  | _ => True

end Spec
open Spec

/-! ### The outcome of MapByteStream on a context without unfinished state -/

theorem mapStream_ok {E : Env} {m : DMap} {bs : Bytes} {off depth : Nat} {c : Ctx} (hc : c.Clean)
    {v : Val} (h : (mapStream E m bs off depth c).1 = .ok v) :
    ∃ n, parse E m bs off depth c.values = .ok (v, n) ∧
      (mapStream E m bs off depth c).2.byteSize = some n := by
  have hr := refines E m bs off depth c hc
  rcases hp : parse E m bs off depth c.values with e | ⟨v', n⟩ <;> rw [hp] at hr
  · have hr : _ = _ := hr
    rw [h] at hr; cases hr
  · obtain ⟨h1, h2, -⟩ := hr
    rw [h] at h1
    cases h1
    exact ⟨n, rfl, h2⟩

theorem mapStream_error {E : Env} {m : DMap} {bs : Bytes} {off depth : Nat} {c : Ctx} (hc : c.Clean)
    {e : Err} : (mapStream E m bs off depth c).1 = .error e ↔
      parse E m bs off depth c.values = .error e := by
  have hr := refines E m bs off depth c hc
  rcases hp : parse E m bs off depth c.values with e' | ⟨v', n⟩ <;> rw [hp] at hr
  · have hr : _ = _ := hr
    rw [hr]; simp
  · obtain ⟨h1, -⟩ := hr
    rw [h1]; simp

/-- Equal parses give equal values, errors and byte sizes. -/
theorem mapStream_congr {E : Env} {m m' : DMap} {bs bs' : Bytes} {off off' depth depth' : Nat}
    {c c' : Ctx} (hc : c.Clean) (hc' : c'.Clean)
    (h : parse E m bs off depth c.values = parse E m' bs' off' depth' c'.values) :
    (mapStream E m bs off depth c).1 = (mapStream E m' bs' off' depth' c').1 ∧
      ((∃ v, (mapStream E m bs off depth c).1 = .ok v) →
        (mapStream E m bs off depth c).2.byteSize = (mapStream E m' bs' off' depth' c').2.byteSize) := by
  have hr := refines E m bs off depth c hc
  have hr' := refines E m' bs' off' depth' c' hc'
  rw [← h] at hr'
  rcases hp : parse E m bs off depth c.values with e | ⟨v, n⟩ <;> rw [hp] at hr hr'
  · have hr : _ = _ := hr
    have hr' : _ = _ := hr'
    rw [hr, hr']
    exact ⟨rfl, by simp⟩
  · obtain ⟨h1, h2, -⟩ := hr
    obtain ⟨h1', h2', -⟩ := hr'
    rw [h1, h1', h2, h2']
    exact ⟨rfl, fun _ => rfl⟩

/-! ### C10, C11: definitions of fixed size -/

/-- **C10** When GetByteSize is `n` and MapByteStream succeeds from a context
without unfinished state, `context.byte_size` is `n`. -/
theorem C10_mapped_size (E : Env) (d : Defn) (hd : d.Every Plain) (n : Int)
    (hn : d.byteSize = some n) (m : DMap) (hm : createMap E d = .ok m)
    (bs : Bytes) (off depth : Nat) (c : Ctx) (hc : c.Clean) (v : Val)
    (hv : (mapStream E m bs off depth c).1 = .ok v) :
    ∃ k : Nat, (mapStream E m bs off depth c).2.byteSize = some k ∧ (k : Int) = n := by
  obtain ⟨k, hp, hb⟩ := mapStream_ok hc hv
  have := (parse_exact E bs d hd n hn).2 _ _ m hm off depth c.values
  rw [hp] at this
  exact ⟨k, hb, this.1⟩

/-- **C11** For a definition of fixed size `n`: with fewer than `n` bytes available
MapByteStream never succeeds, with at least `n` bytes it never raises
ByteStreamTooSmallError. -/
theorem C11_exact_size (E : Env) (d : Defn) (hd : d.Every Plain) (n : Int)
    (hn : d.byteSize = some n) (m : DMap) (hm : createMap E d = .ok m)
    (bs : Bytes) (off depth : Nat) (c : Ctx) (hc : c.Clean) :
    ((bs.length : Int) < off + n → ∀ v, (mapStream E m bs off depth c).1 ≠ .ok v) ∧
    ((off : Int) + n ≤ bs.length → (mapStream E m bs off depth c).1 ≠ .error .tooSmall) := by
  have hx := (parse_exact E bs d hd n hn).2 _ _ m hm off depth c.values
  refine ⟨fun hlt v hv => ?_, fun hle he => ?_⟩
  · obtain ⟨k, hp, -⟩ := mapStream_ok hc hv
    rw [hp] at hx
    have := hx.2
    omega
  · rw [mapStream_error hc] at he
    rw [he] at hx
    have := hx rfl
    omega

/-- The types of the examples: `struct { uint8 a; uint16 b[3]; uuid u; }`. -/
def exU8 : Defn := .prim { name := "uint8" } (.integer true) (.bytes 1) "bytes"
def exU16 : Defn := .prim { name := "uint16", order := .little } (.integer true) (.bytes 2) "bytes"
def exUuid : Defn := .uuid { name := "uuid", order := .big } (.bytes 16) "bytes"
def exSeq : Defn :=
  .seq { name := "b" } { kind := .sequence, elementDataType := some "uint16", numElements := some 3 } exU16
def exStruct : Defn :=
  .struct { name := "T" }
    [.member { name := "a" } exU8 none (some "uint8") none, exSeq,
      .member { name := "u" } exUuid none (some "uuid") none]

theorem exStruct_plain : exStruct.Every Plain := by
  simp [Defn.Every, everyDefn, exStruct, exSeq, exU8, exU16, exUuid, Plain, DistinctTypes, Defn.target,
    Defn.name, Defn.hdr]

/-- A structure of 23 bytes maps 23 of 24 bytes and refuses 22. -/
example : exStruct.Every Plain ∧ exStruct.byteSize = some 23 ∧ ∃ m, createMap exEnv exStruct = .ok m ∧
    (∃ v, (mapStream exEnv m (List.replicate 24 1) 1 0 {}).1 = .ok v) ∧
    (mapStream exEnv m (List.replicate 24 1) 1 0 {}).2.byteSize = some 23 ∧
    (mapStream exEnv m (List.replicate 23 1) 1 0 {}).1 = .error .tooSmall :=
  ⟨exStruct_plain, rfl, _, rfl, ⟨_, rfl⟩, rfl, rfl⟩

/-- Without the condition that a sequence with a number of elements has no
terminator, GetByteSize can be 3 while one byte is mapped. -/
theorem C10_terminator_and_count :
    ∃ d n m v, d.byteSize = some n ∧ createMap exEnv d = .ok m ∧ n = 3 ∧
      (mapStream exEnv m [0, 1, 1] 0 0 {}).1 = .ok v ∧
      (mapStream exEnv m [0, 1, 1] 0 0 {}).2.byteSize = some 1 :=
  ⟨.seq { name := "s" }
      { kind := .sequence, elementDataType := some "uint8", terminator := some (.int 0),
        numElements := some 3 } exU8, 3, _, _, rfl, rfl, rfl, rfl, rfl⟩

/-- Without the condition that the element size divides the data size,
GetByteSize can be 3 while no byte is mapped. -/
theorem C10_data_size_not_multiple :
    ∃ d n m v, d.byteSize = some n ∧ createMap exEnv d = .ok m ∧ n = 3 ∧
      (mapStream exEnv m (List.replicate 40 0) 0 0 {}).1 = .ok v ∧
      (mapStream exEnv m (List.replicate 40 0) 0 0 {}).2.byteSize = some 0 :=
  ⟨.seq { name := "s" } { kind := .sequence, elementDataType := some "uuid", dataSize := some 3 }
      exUuid, 3, _, _, rfl, rfl, rfl, rfl, rfl⟩

/-! ### C12: a successful map stays inside the byte stream -/

theorem termFull_of_full {E : Env} (d : Defn) (nm : String) (o : Order) (m : DMap)
    (hm : createAs E nm o d = .ok m) (h : FullTerminators d) : termFull m := by
  cases d with
  | seq hh info e =>
    obtain ⟨n', eo, em, -, -, rfl, -⟩ := createAs_seq hm
    intro hk h1 h2 t ht
    simp only [SeqInfo.hasDataSize, SeqInfo.hasNumElements, Bool.or_eq_false_iff,
      Option.isSome_eq_false_iff, Option.isNone_iff_eq_none] at h1 h2
    exact h hk h1.1 h1.2 h2.1 h2.2 t ht
  | struct hh ms =>
    obtain ⟨io, infos, maps, l, -, -, -, rfl, -⟩ := createAs_struct hm
    trivial
  | group hh base ident dflt ms =>
    obtain ⟨dm, bm, keys, maps, -, -, -, -, rfl⟩ := createAs_group hm
    trivial
  | prim hh k s u =>
    simp only [createAs] at hm
    split at hm <;> cases hm
    trivial
  | _ => simp only [createAs, Except.ok.injEq] at hm; subst hm; trivial

/-- **C12** When MapByteStream succeeds at an offset inside the stream,
`context.byte_size` is set and `byte_offset + context.byte_size <= len(byte_stream)`. -/
theorem C12_stays_inside (E : Env) (d : Defn) (hd : d.Every FullTerminators) (m : DMap)
    (hm : createMap E d = .ok m) (bs : Bytes) (off depth : Nat) (hoff : off ≤ bs.length)
    (c : Ctx) (hc : c.Clean) (v : Val) (hv : (mapStream E m bs off depth c).1 = .ok v) :
    ∃ k : Nat, (mapStream E m bs off depth c).2.byteSize = some k ∧ off + k ≤ bs.length := by
  obtain ⟨k, hp, hb⟩ := mapStream_ok hc hv
  have := parse_bound E m (createAs_every termFull_of_full d _ _ m hm hd) bs off depth c.values v k hp
  exact ⟨k, hb, by omega⟩

/-- A zero-terminated stream of 16-bit elements. -/
def exZ (t : Bytes) : Defn :=
  .seq { name := "z" } { kind := .stream, elementDataType := some "uint16", terminator := some (.bytes t) } exU16

example : (exZ [0, 0]).Every FullTerminators ∧ ∃ m, createMap exEnv (exZ [0, 0]) = .ok m ∧
    (mapStream exEnv m [9, 1, 0, 0, 0, 5] 1 0 {}).1 = .ok (.bytes [1, 0, 0, 0]) ∧
    (mapStream exEnv m [9, 1, 0, 0, 0, 5] 1 0 {}).2.byteSize = some 4 := by
  refine ⟨?_, _, rfl, rfl, rfl⟩
  simp [Defn.Every, exZ, exU16, FullTerminators, Defn.byteSize, fixedByteSize]

/-- A terminator shorter than an element can match at the very end: one byte is
left and `byte_size` is 2. -/
theorem C12_short_terminator : ∃ m v, createMap exEnv (exZ [0]) = .ok m ∧
    (mapStream exEnv m [0] 0 0 {}).1 = .ok v ∧ (mapStream exEnv m [0] 0 0 {}).2.byteSize = some 2 :=
  ⟨_, _, rfl, rfl, rfl⟩

/-! ### C13: appending bytes never changes a verdict -/

theorem extendable_of {E : Env} (d : Defn) (nm : String) (o : Order) (m : DMap)
    (hm : createAs E nm o d = .ok m) (h : FullTerminators d ∧ Ordinary d ∧
      ∀ i e h, d = .seq h i e → Ordinary e) : Extendable m := by
  refine ⟨termFull_of_full d nm o m hm h.1, ?_, ?_, ?_⟩
  · cases d with
    | seq hh info e =>
      obtain ⟨n', eo, em, -, -, rfl, -⟩ := createAs_seq hm
      refine ⟨h.2.1, ?_⟩
      have he := h.2.2 _ _ _ rfl
      cases e <;> simp [Defn.terminator?]
      exact he
    | struct hh ms => obtain ⟨io, infos, maps, l, -, -, -, rfl, -⟩ := createAs_struct hm; trivial
    | group hh base ident dflt ms =>
      obtain ⟨dm, bm, keys, maps, -, -, -, -, rfl⟩ := createAs_group hm; trivial
    | prim hh k s u =>
      simp only [createAs] at hm
      split at hm <;> cases hm
      trivial
    | _ => simp only [createAs, Except.ok.injEq] at hm; subst hm; trivial
  · cases d with
    | seq hh info e => obtain ⟨n', eo, em, -, -, rfl, -⟩ := createAs_seq hm; trivial
    | struct hh ms => obtain ⟨io, infos, maps, l, -, -, -, rfl, -⟩ := createAs_struct hm; trivial
    | group hh base ident dflt ms =>
      obtain ⟨dm, bm, keys, maps, -, -, -, -, rfl⟩ := createAs_group hm; trivial
    | prim hh k s u =>
      simp only [createAs] at hm
      split at hm <;> cases hm
      trivial
    | uuid hh s u =>
      simp only [createAs, Except.ok.injEq] at hm; subst hm
      cases hf : fixedByteSize s u with
      | none => exact .inl hf
      | some n =>
        have : n = 16 := h.2.1 n (by simpa [Defn.byteSize] using hf)
        subst this
        exact .inr hf
    | _ => simp only [createAs, Except.ok.injEq] at hm; subst hm; trivial
  · cases d with
    | seq hh info e =>
      obtain ⟨n', eo, em, -, -, heq, -⟩ := createAs_seq hm
      have hm' := hm
      rw [heq] at hm' ⊢
      intro hk hlin op n hop hbsz
      have hcomp : e.isComposite = false := by
        simp only [seqLinear, Bool.not_eq_true', Bool.or_eq_false_iff] at hlin
        exact hlin.1.1.1
      obtain ⟨h', k, sz, u, c, N, ec, he, -, -, -, hcs, hcodes, hN, hds, hnum⟩ :=
        seq_op hk hm' hcomp op hop
      rw [hcodes, codesSize_replicate, hcs]
      simp only [Defn.byteSize] at hbsz
      split at hbsz
      · rename_i ht
        obtain ⟨-, hdiv⟩ := hds ht
        rw [hbsz] at hdiv
        simp only [Option.map_some, Option.some.injEq] at hdiv
        have h0 : (0 : Int) ≤ sz := by omega
        have := Int.mul_ediv_self_le (x := n) (k := (sz : Int))
        rw [Int.fdiv_eq_ediv_of_nonneg _ h0] at hdiv
        rw [hdiv] at this
        rcases Nat.eq_zero_or_pos sz with hz | hz
        · subst hz
          simp at hdiv
          omega
        · have := this (by omega)
          push_cast
          rw [Int.mul_comm]
          exact this
      · rename_i ht
        have := hnum (by simpa using ht)
        split at hbsz
        · split at hbsz
          · split at hbsz
            · cases hbsz
            · rename_i s hs _
              rw [this] at hbsz
              simp only [Option.map_some, Option.some.injEq] at hbsz
              subst he
              simp only [Defn.byteSize, fixedByteSize] at hs
              split at hs
              · cases hs
                push_cast
                rw [← hbsz, Int.mul_comm]
                exact Int.le_refl _
              · cases hs
          · cases hbsz
        · cases hbsz
    | struct hh ms =>
      obtain ⟨io, infos, maps, l, -, -, -, heq, -⟩ := createAs_struct hm
      subst heq
      intro hl op n hop hbsz
      subst hl
      rw [hbsz] at hm hop
      have := struct_op_size h.2.1 hm op hop
      omega
    | group hh base ident dflt ms =>
      obtain ⟨dm, bm, keys, maps, -, -, -, -, rfl⟩ := createAs_group hm; trivial
    | prim hh k s u =>
      simp only [createAs] at hm
      split at hm <;> cases hm
      trivial
    | _ => simp only [createAs, Except.ok.injEq] at hm; subst hm; trivial

theorem every_elem {P : Defn → Prop} (d : Defn) (h : d.Every P) :
    d.Every (fun d => P d ∧ ∀ i e h, d = .seq h i e → P e) := by
  induction d using Defn.ind with
  | seq hh i e ih =>
    simp only [Defn.Every] at h ⊢
    refine ⟨⟨h.1, ?_⟩, ih h.2⟩
    intro i' e' h' heq
    cases heq
    exact h.2.self
  | struct hh ms ih =>
    simp only [Defn.Every, everyDefn_iff] at h ⊢
    exact ⟨⟨h.1, by simp⟩, fun d hd => ih d hd (h.2 d hd)⟩
  | union hh ms ih =>
    simp only [Defn.Every, everyDefn_iff] at h ⊢
    exact ⟨⟨h.1, by simp⟩, fun d hd => ih d hd (h.2 d hd)⟩
  | family hh b ms ih1 ih2 =>
    simp only [Defn.Every, everyDefn_iff] at h ⊢
    exact ⟨⟨h.1, by simp⟩, ih1 h.2.1, fun d hd => ih2 d hd (h.2.2 d hd)⟩
  | group hh b i dflt ms ih1 ih2 ih3 =>
    simp only [Defn.Every, everyDefn_iff, everyOptDefn_iff] at h ⊢
    exact ⟨⟨h.1, by simp⟩, ih1 h.2.1, fun d hd => ih2 d hd (h.2.2.1 d hd),
      fun d hd => ih3 d hd (h.2.2.2 d hd)⟩
  | member hh d c dt vs ih =>
    simp only [Defn.Every] at h ⊢
    exact ⟨⟨h.1, by simp⟩, ih h.2⟩
  | _ => simp only [Defn.Every] at h ⊢; exact ⟨h, by simp⟩

/-- **C13** If MapByteStream gives a value or any error other than
ByteStreamTooSmallError, it gives the same value or error, and the same
`context.byte_size` after success, on the byte stream followed by further bytes. -/
theorem C13_append (E : Env) (d : Defn) (hd : d.Every fun d => FullTerminators d ∧ Ordinary d)
    (m : DMap) (hm : createMap E d = .ok m) (bs ext : Bytes) (off depth : Nat) (c : Ctx)
    (hc : c.Clean) (hne : (mapStream E m bs off depth c).1 ≠ .error .tooSmall) :
    (mapStream E m (bs ++ ext) off depth c).1 = (mapStream E m bs off depth c).1 ∧
    ((∃ v, (mapStream E m bs off depth c).1 = .ok v) →
      (mapStream E m (bs ++ ext) off depth c).2.byteSize =
        (mapStream E m bs off depth c).2.byteSize) := by
  have hev : m.Every Extendable := by
    refine createAs_every extendable_of d _ _ m hm ?_
    refine Defn.Every.imp ?_ d (every_elem d hd)
    rintro d ⟨⟨h1, h2⟩, h3⟩
    exact ⟨h1, h2, fun i e h heq => (h3 i e h heq).2⟩
  have hp : parse E m bs off depth c.values ≠ .error .tooSmall := by
    rw [Ne, mapStream_error hc] at hne
    exact hne
  have h := mapStream_congr hc hc (parse_append E m hev bs ext off depth c.values hp).symm
  exact ⟨h.1.symm, fun hv => (h.2 hv).symm⟩

/-- The example structure meets the conditions, and 23 bytes decide it. -/
example : (exStruct.Every fun d => FullTerminators d ∧ Ordinary d) ∧
    ∃ m, createMap exEnv exStruct = .ok m ∧
      (mapStream exEnv m (List.replicate 23 1) 0 0 {}).1 ≠ .error .tooSmall := by
  refine ⟨?_, _, rfl, ?_⟩
  · simp [Defn.Every, everyDefn, exStruct, exSeq, exU8, exU16, exUuid, FullTerminators, Ordinary,
      DistinctTypes, Defn.target, Defn.name, Defn.hdr, Defn.byteSize, fixedByteSize]
  · intro h; cases h

/-! ### C14: byte_offset means slicing -/

theorem alignDvd_of {E : Env} (k : Nat) (d : Defn) (nm : String) (o : Order) (m : DMap)
    (hm : createAs E nm o d = .ok m) (h : AlignmentDivides k d) : alignDvd k m := by
  cases d with
  | seq hh info e => obtain ⟨n', eo, em, -, -, rfl, -⟩ := createAs_seq hm; trivial
  | struct hh ms => obtain ⟨io, infos, maps, l, -, -, -, rfl, -⟩ := createAs_struct hm; trivial
  | group hh base ident dflt ms =>
    obtain ⟨dm, bm, keys, maps, -, -, -, -, rfl⟩ := createAs_group hm; trivial
  | prim hh k s u =>
    simp only [createAs] at hm
    split at hm <;> cases hm
    trivial
  | padding hh a =>
    simp only [createAs, Except.ok.injEq] at hm
    subst hm
    cases a
    · trivial
    · exact h
  | _ => simp only [createAs, Except.ok.injEq] at hm; subst hm; trivial

/-- **C14** Mapping at offset `k + off` gives the same value or error, and the same
`context.byte_size` after success, as mapping the bytes from `k` on at offset
`off`, when every alignment size divides `k`. -/
theorem C14_offset (E : Env) (d : Defn) (m : DMap) (hm : createMap E d = .ok m) (bs : Bytes)
    (k off depth : Nat) (hk : k ≤ bs.length) (hd : d.Every (AlignmentDivides k)) (c : Ctx)
    (hc : c.Clean) :
    (mapStream E m bs (k + off) depth c).1 = (mapStream E m (bs.drop k) off depth c).1 ∧
    ((∃ v, (mapStream E m bs (k + off) depth c).1 = .ok v) →
      (mapStream E m bs (k + off) depth c).2.byteSize =
        (mapStream E m (bs.drop k) off depth c).2.byteSize) :=
  mapStream_congr hc hc
    (parse_shift E m bs k hk (createAs_every (alignDvd_of k) d _ _ m hm hd) off depth c.values).symm

/-- `struct { uint8 a; padding to 4; uint8 b; }`: offset 4 is slicing, offset 1 is not. -/
def exPad : Defn :=
  .struct { name := "P" } [.member { name := "a" } exU8 none (some "uint8") none,
    .padding { name := "p" } (some 4), .member { name := "b" } exU8 none (some "uint8") none]

example : exPad.Every (AlignmentDivides 4) ∧ ∃ m, createMap exEnv exPad = .ok m ∧
    (mapStream exEnv m [9, 9, 9, 9, 1, 2, 3, 4, 5, 6] 4 0 {}).2.byteSize = some 5 ∧
    (mapStream exEnv m [9, 1, 2, 3, 4, 5, 6] 1 0 {}).2.byteSize = some 4 := by
  refine ⟨?_, _, rfl, rfl, rfl⟩
  simp [Defn.Every, everyDefn, exPad, exU8, AlignmentDivides]

/-! ### C15: contexts are transparent and reusable -/

/-- **C15a** Any context without unfinished state gives the result of a fresh
context with the same values; a call without context is a call with `{}`. -/
theorem C15_fresh (E : Env) (m : DMap) (bs : Bytes) (off depth : Nat) (c : Ctx) (hc : c.Clean) :
    (mapStream E m bs off depth c).1 = (mapStream E m bs off depth { values := c.values }).1 ∧
    ((∃ v, (mapStream E m bs off depth c).1 = .ok v) →
      (mapStream E m bs off depth c).2.byteSize =
        (mapStream E m bs off depth { values := c.values }).2.byteSize) :=
  mapStream_congr hc (Ctx.clean_fresh _) rfl

/-- **C15b** After a successful mapping the state is empty and `byte_size` is set
(how many bytes it counts is C10 - C13), and mapping any type with the used context gives the
same as with a fresh one with the original values. -/
theorem C15_reuse (E : Env) (m : DMap) (bs : Bytes) (off depth : Nat) (c : Ctx) (hc : c.Clean)
    (v : Val) (hv : (mapStream E m bs off depth c).1 = .ok v) :
    (mapStream E m bs off depth c).2.Clean ∧
    (∃ n, (mapStream E m bs off depth c).2.byteSize = some n) ∧
    ∀ (m' : DMap) (bs' : Bytes) (off' depth' : Nat),
      (mapStream E m' bs' off' depth' (mapStream E m bs off depth c).2).1 =
        (mapStream E m' bs' off' depth' { values := c.values }).1 ∧
      ((∃ v, (mapStream E m' bs' off' depth' { values := c.values }).1 = .ok v) →
        (mapStream E m' bs' off' depth' (mapStream E m bs off depth c).2).2.byteSize =
          (mapStream E m' bs' off' depth' { values := c.values }).2.byteSize) := by
  obtain ⟨n, hp, hb⟩ := mapStream_ok hc hv
  have hr := refines E m bs off depth c hc
  rw [hp] at hr
  obtain ⟨-, -, hcl, hvals⟩ := hr
  refine ⟨hcl, ⟨n, hb⟩, ?_⟩
  intro m' bs' off' depth'
  have h := mapStream_congr (E := E) (m := m') (m' := m') (bs := bs') (bs' := bs') (off := off')
    (off' := off') (depth := depth') (depth' := depth') hcl (Ctx.clean_fresh c.values) (by
      rcases hvals with hv | ⟨-, hv⟩
      · rw [hv]
      · rw [hv, parse_builtins_all])
  exact ⟨h.1, fun hv => h.2 (by rw [h.1]; exact hv)⟩

/-- A structure mapped twice with one context. -/
example : ∃ m, createMap exEnv exStruct = .ok m ∧
    (∃ v, (mapStream exEnv m (List.replicate 23 1) 0 0 {}).1 = .ok v) ∧
    (mapStream exEnv m (List.replicate 30 2) 0 0
      (mapStream exEnv m (List.replicate 23 1) 0 0 {}).2).2.byteSize = some 23 :=
  ⟨_, rfl, ⟨_, rfl⟩, rfl⟩

end Dtf
