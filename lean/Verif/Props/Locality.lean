import Verif.Bounds
import Verif.Props.Termination
import Verif.Props.Groups
/-!
# Properties C62 and C63: the bytes a value depends on, and how many they are
-/
namespace Dtf

namespace Spec

/-- Two byte streams hold the same `n` bytes from `off` on. -/
def SameBytes (bs bs' : Bytes) (off n : Nat) : Prop :=
  off + n ≤ bs'.length ∧ ∀ i, i < n → bs'[off + i]? = bs[off + i]?

/-- The elements of a sequence that are mapped one by one take bytes, and the base
of a group takes no more bytes than each of its members. -/
def LooksAtItsBytes : Defn → Prop
  | .seq _ info e => info.kind = .sequence → oneRead info e = false → 0 < fewest e
  | .group _ base _ dflt ms => ∃ b, greatest base = some b ∧
      (∀ d, dflt = some d → b ≤ fewest d) ∧ ∀ d ∈ ms, b ≤ fewest d
  | _ => True

end Spec
open Spec

theorem Defn.Every.every {P : Defn → Prop} (d : Defn) (h : d.Every P) :
    d.Every (fun d => d.Every P) := by
  have h' := h
  induction d using Defn.ind with
  | seq hh i e ih => simp only [Defn.Every] at h' ⊢; exact ⟨h', ih h'.2 h'.2⟩
  | struct hh ms ih =>
    simp only [Defn.Every, everyDefn_iff] at h' ⊢
    exact ⟨h', fun d hd => ih d hd (h'.2 d hd) (h'.2 d hd)⟩
  | union hh ms ih =>
    simp only [Defn.Every, everyDefn_iff] at h' ⊢
    exact ⟨h', fun d hd => ih d hd (h'.2 d hd) (h'.2 d hd)⟩
  | family hh b ms ih1 ih2 =>
    simp only [Defn.Every, everyDefn_iff] at h' ⊢
    exact ⟨h', ih1 h'.2.1 h'.2.1, fun d hd => ih2 d hd (h'.2.2 d hd) (h'.2.2 d hd)⟩
  | group hh b i dflt ms ih1 ih2 ih3 =>
    simp only [Defn.Every, everyDefn_iff, everyOptDefn_iff] at h' ⊢
    exact ⟨h', ih1 h'.2.1 h'.2.1, fun d hd => ih2 d hd (h'.2.2.1 d hd) (h'.2.2.1 d hd),
      fun d hd => ih3 d hd (h'.2.2.2 d hd) (h'.2.2.2 d hd)⟩
  | member hh d c dt vs ih => simp only [Defn.Every] at h' ⊢; exact ⟨h', ih h'.2 h'.2⟩
  | _ => simp only [Defn.Every] at h' ⊢; exact h'

theorem Spec.Ordinary.sizes {d : Defn} (h : Ordinary d) :
    (∀ h i e, d = .seq h i e → i.terminator ≠ some .null) ∧
      (∀ h ms, d = .struct h ms → DistinctTypes ms) := by
  constructor
  · rintro _ _ _ rfl; exact h
  · rintro _ _ rfl; exact h

/-- The size of what an ordinary type maps is within its bounds. -/
theorem ordinary_within {E : Env} {d : Defn} (hd : d.Every Ordinary) {nm : String} {o : Order}
    {m : DMap} (hm : createAs E nm o d = .ok m) (bs : Bytes) : SizeWithin E bs d m :=
  parse_within E d (Defn.Every.imp (fun _ h => Spec.Ordinary.sizes h) d hd) bs nm o m hm

theorem sameBytes_same {bs bs' : Bytes} {off n : Nat} (h : SameBytes bs bs' off n) : Same bs bs' off n := by
  refine ⟨h.1, ?_⟩
  apply List.ext_getElem?
  intro i
  unfold window
  rw [List.getElem?_take, List.getElem?_take]
  split
  · rename_i hi
    rw [List.getElem?_drop, List.getElem?_drop]
    exact h.2 i hi
  · rfl

theorem moves_of {E : Env} (d : Defn) (nm : String) (o : Order) (m : DMap)
    (hm : createAs E nm o d = .ok m) (h : d.Every Ordinary ∧ LooksAtItsBytes d) :
    seqMoves E m ∧ groupCovers E m := by
  cases d with
  | seq hh info e =>
    obtain ⟨n', eo, em, hem, -, rfl, -⟩ := createAs_seq hm
    refine ⟨?_, trivial⟩
    intro hk hl bs off depth ns v hp
    have h1 := h.2 hk hl
    simp only [Defn.Every] at h
    have := (ordinary_within h.1.2 hem bs _ _ _ _ _ hp).1
    omega
  | struct hh ms =>
    obtain ⟨io, infos, maps, l, -, -, -, rfl, -⟩ := createAs_struct hm
    exact ⟨trivial, trivial⟩
  | group hh base ident dflt ms =>
    obtain ⟨dm, bm, keys, maps, hdm, hbm, -, hg, rfl⟩ := createAs_group hm
    refine ⟨trivial, ?_⟩
    obtain ⟨b, hb, h1, h2⟩ := h.2
    have he := h.1
    simp only [Defn.Every, everyDefn_iff, everyOptDefn_iff] at he
    intro m hmem bs off depth v k x n hpb hp
    have hk := (ordinary_within he.2.1 hbm bs _ _ _ _ _ hpb).2 b hb
    rcases hmem with rfl | hmem
    · cases dflt with
      | none => simp [createOpt] at hdm
      | some d =>
        simp only [createOpt] at hdm
        split at hdm
        · cases hdm
        rename_i y hy
        cases hdm
        have := (ordinary_within (he.2.2.1 d rfl) hy bs _ _ _ _ _ hp).1
        have := h1 d rfl
        omega
    · obtain ⟨d, hd, hf⟩ := createGroup_all E ident (fun m => ∃ d ∈ ms, SizeWithin E bs d m) ms
        (fun d hdm n o m hm => ⟨d, hdm, ordinary_within (he.2.2.2 d hdm) hm bs⟩) _ _ _ hg m hmem
      have := (hf _ _ _ _ _ hp).1
      have := h2 d hd
      omega
  | prim hh k s u =>
    simp only [createAs] at hm
    split at hm <;> cases hm
    exact ⟨trivial, trivial⟩
  | _ => simp only [createAs, Except.ok.injEq] at hm; subst hm; exact ⟨trivial, trivial⟩

/-! ### C62: a value depends on its own bytes -/

/-- **C62** If MapByteStream gives a value and reports `n` bytes in
`context.byte_size`, every byte stream with the same `n` bytes at that offset,
whatever comes before and after them, gives the same value and size. Missing:
types with elements that may take no bytes, and groups with a base that may be
larger than a member; the claim fails for those, see below. -/
theorem C62_bytes_partial (E : Env) (d : Defn)
    (hd : d.Every fun d => FullTerminators d ∧ Ordinary d ∧ LooksAtItsBytes d)
    (m : DMap) (hm : createMap E d = .ok m) (bs bs' : Bytes) (off depth n : Nat) (c : Ctx)
    (hc : c.Clean) (v : Val) (hv : (mapStream E m bs off depth c).1 = .ok v)
    (hn : (mapStream E m bs off depth c).2.byteSize = some n)
    (hs : SameBytes bs bs' off n) :
    (mapStream E m bs' off depth c).1 = .ok v ∧
    (mapStream E m bs' off depth c).2.byteSize = some n := by
  have hext : m.Every Extendable := by
    refine createAs_every extendable_of d _ _ m hm ?_
    refine Defn.Every.imp ?_ d (every_elem d hd)
    rintro d ⟨⟨h1, h2, h4⟩, h3⟩
    exact ⟨h1, h2, fun i e h heq => (h3 i e h heq).2.1⟩
  have hmov : m.Every fun m => seqMoves E m ∧ groupCovers E m := by
    refine createAs_every moves_of d _ _ m hm ?_
    exact Defn.Every.imp (fun d h => ⟨Defn.Every.imp (fun d h => h.2.1) d h, h.self.2.2⟩) d
      (Defn.Every.every d hd)
  obtain ⟨n', hp, hn'⟩ := mapStream_ok hc hv
  rw [hn] at hn'
  cases hn'
  have hp' := parse_sameBytes E m (DMap.Every.and m hext hmov) bs bs' off depth c.values v n hp
    (sameBytes_same hs)
  exact mapStream_of_parse hc hp'

/-- The byte stream may be cut after the bytes reported. -/
theorem C62_cut_partial (E : Env) (d : Defn)
    (hd : d.Every fun d => FullTerminators d ∧ Ordinary d ∧ LooksAtItsBytes d)
    (m : DMap) (hm : createMap E d = .ok m) (bs : Bytes) (off depth n : Nat) (c : Ctx)
    (hc : c.Clean) (v : Val) (hv : (mapStream E m bs off depth c).1 = .ok v)
    (hn : (mapStream E m bs off depth c).2.byteSize = some n) (hl : off + n ≤ bs.length) :
    (mapStream E m (bs.take (off + n)) off depth c).1 = .ok v ∧
    (mapStream E m (bs.take (off + n)) off depth c).2.byteSize = some n := by
  refine C62_bytes_partial E d hd m hm bs _ off depth n c hc v hv hn ⟨by simp; omega, ?_⟩
  intro i hi
  rw [List.getElem?_take, if_pos (by omega)]

/-- A structure with a condition, a terminated sequence and a terminated stream. -/
def exLocal : Defn :=
  .struct { name := "T", order := .little }
    [.member { name := "a" } exU8 none (some "uint8") none,
      .member { name := "b" } exU16 (some "T.a == 1") (some "uint16") none,
      .member { name := "s" } exSeqT none (some "z") none,
      .member { name := "t" }
        (.seq { name := "y" }
          { kind := .stream, elementDataType := some "uint16", terminator := some (.bytes [0, 0]) } exU16)
        none (some "y") none]

/-- The conditions are met by the structure and by the example group; the other
bytes of the streams differ. -/
example : ((exGroup (some exDef) [exOne, exTwo]).Every
      fun d => FullTerminators d ∧ Ordinary d ∧ LooksAtItsBytes d) ∧
    (∃ m, createMap exEnv (exGroup (some exDef) [exOne, exTwo]) = .ok m ∧
      (mapStream exEnv m [7, 3, 1, 2, 8] 1 0 {}).1 =
        .ok (.struct "two" [("kind", .int 3), ("y", .int 513)]) ∧
      (mapStream exEnv m [7, 3, 1, 2, 8] 1 0 {}).2.byteSize = some 3) ∧
    SameBytes [7, 3, 1, 2, 8] [0, 3, 1, 2] 1 3 := by
  refine ⟨?_, ⟨_, rfl, rfl, rfl⟩, by decide, ?_⟩
  · simp [Defn.Every, everyDefn, everyOptDefn, exGroup, exBase, exDef, exOne, exTwo, exMem, exU8,
      exU16, FullTerminators, Ordinary, LooksAtItsBytes, DistinctTypes, Defn.target, Defn.name,
      Defn.hdr, greatest, greatestSum, fewest, fewestSum, fixedByteSize, optAdd, truthyStr]
  · intro i hi
    have : i = 0 ∨ i = 1 ∨ i = 2 := by omega
    rcases this with rfl | rfl | rfl <;> rfl

example : (exLocal.Every fun d => FullTerminators d ∧ Ordinary d ∧ LooksAtItsBytes d) ∧
    (∃ m, createMap exEnvE exLocal = .ok m ∧
      (mapStream exEnvE m [7, 1, 2, 0, 5, 6, 0, 9, 9, 0, 0, 8] 1 0 {}).1 =
        .ok (.struct "T" [("a", .int 1), ("b", .int 2), ("s", .tuple [.int 5, .int 6, .int 0]),
          ("t", .bytes [9, 9, 0, 0])]) ∧
      (mapStream exEnvE m [7, 1, 2, 0, 5, 6, 0, 9, 9, 0, 0, 8] 1 0 {}).2.byteSize = some 10) := by
  refine ⟨?_, _, rfl, rfl, rfl⟩
  simp [Defn.Every, everyDefn, exLocal, exSeqT, exU8, exU16, FullTerminators, Ordinary,
    LooksAtItsBytes, DistinctTypes, Defn.target, Defn.name, Defn.hdr, Defn.byteSize, oneRead, fewest,
    fixedByteSize]

/-- Two structures `struct { uint8 a if T.a == 1; }`, which take no bytes. -/
def exTwoEmpty : Defn :=
  .seq { name := "s" } { kind := .sequence, elementDataType := some "T", numElements := some 2 }
    (.struct { name := "T", order := .little }
      [.member { name := "a" } exU8 (some "T.a == 1") (some "uint8") none])

/-- **C62 does not hold in general** Two elements without bytes are mapped if a byte
follows, though `context.byte_size` says no byte was taken, but not at the end of
the byte stream. -/
theorem C62_empty_elements_refuted : ∃ m v, createMap exEnvE exTwoEmpty = .ok m ∧
    (mapStream exEnvE m [5] 0 0 {}).1 = .ok v ∧
    (mapStream exEnvE m [5] 0 0 {}).2.byteSize = some 0 ∧
    SameBytes [5] [] 0 0 ∧
    (mapStream exEnvE m [] 0 0 {}).1 = .error .tooSmall :=
  ⟨_, .tuple [.struct "T" [("a", .pyNone)], .struct "T" [("a", .pyNone)]], rfl, rfl, rfl,
    ⟨by decide, by intro i hi; omega⟩, rfl⟩

/-- A group with the base `struct { uint8 kind; uint16 x; }` and the member
`struct { uint8 kind in (1); }`. -/
def exWideBase : Defn :=
  .group { name := "g" } (.struct { name := "base" } [exMem "kind" exU8 none, exMem "x" exU16 none])
    "kind" none [.struct { name := "one" } [exMem "kind" exU8 (some [.int 1])]]

/-- **C62 does not hold in general** A group needs the bytes of its base, even those
its value does not cover. -/
theorem C62_base_refuted : ∃ m v, createMap exEnv exWideBase = .ok m ∧
    (mapStream exEnv m [1, 2, 3] 0 0 {}).1 = .ok v ∧
    (mapStream exEnv m [1, 2, 3] 0 0 {}).2.byteSize = some 1 ∧
    SameBytes [1, 2, 3] [1] 0 1 ∧
    (mapStream exEnv m [1] 0 0 {}).1 = .error .tooSmall :=
  ⟨_, .struct "one" [("kind", .int 1)], rfl, rfl, rfl,
    ⟨by decide, by intro i hi; obtain rfl : i = 0 := by omega
                   rfl⟩, rfl⟩

/-! ### C63: how many bytes a value takes -/

/-- **C63** The number of bytes MapByteStream reports lies between the least and the
greatest number that follow from the declared sizes. -/
theorem C63_bounds (E : Env) (d : Defn) (hd : d.Every Ordinary) (m : DMap)
    (hm : createMap E d = .ok m) (bs : Bytes) (off depth n : Nat) (c : Ctx) (hc : c.Clean) (v : Val)
    (hv : (mapStream E m bs off depth c).1 = .ok v)
    (hn : (mapStream E m bs off depth c).2.byteSize = some n) :
    fewest d ≤ n ∧ ∀ k, greatest d = some k → n ≤ k := by
  obtain ⟨n', hp, hn'⟩ := mapStream_ok hc hv
  rw [hn] at hn'
  cases hn'
  exact ordinary_within hd hm bs off depth c.values v n hp

/-- Both bounds are met by the structure with a condition. -/
example : exCond.Every Ordinary ∧ fewest exCond = 2 ∧ greatest exCond = some 4 ∧
    ∃ m, createMap exEnvE exCond = .ok m ∧
      (mapStream exEnvE m [1, 2, 0, 5] 0 0 {}).2.byteSize = some 4 ∧
      (mapStream exEnvE m [0, 7, 0, 5] 0 0 {}).2.byteSize = some 2 := by
  refine ⟨?_, rfl, rfl, _, rfl, rfl, rfl⟩
  simp [Defn.Every, everyDefn, exCond, exU8, exU16, Ordinary, DistinctTypes, Defn.target, Defn.name,
    Defn.hdr]

/-- Sequence, terminated stream, padding and group. -/
example : fewest exStruct = 23 ∧ greatest exStruct = some 23 ∧ fewest exLocal = 4 ∧
    greatest exLocal = none ∧ fewest exPad = 2 ∧ greatest exPad = some 5 ∧
    fewest (exGroup (some exDef) [exOne, exTwo]) = 1 ∧
    greatest (exGroup (some exDef) [exOne, exTwo]) = some 3 := by
  refine ⟨rfl, rfl, rfl, rfl, rfl, rfl, rfl, rfl⟩

namespace Spec

/-- `Advances` from declared sizes alone: a sequence has a known number of elements
or elements with a least size, and the elements of a terminated stream have a size. -/
def Progresses (E : Env) : Defn → Prop
  | .seq _ info e =>
    match info.kind with
    | .sequence => Counted E info e.byteSize ∨ 0 < fewest e
    | _ => ∀ es, e.byteSize = some es → 0 < es
  | _ => True

end Spec

/-- A type with a positive least size always takes bytes. -/
theorem C63_takes_bytes (E : Env) (d : Defn) (hd : d.Every Ordinary) (h0 : 0 < fewest d)
    (nm : String) (o : Order) (m : DMap) (hm : createAs E nm o d = .ok m) : TakesBytes E m := by
  intro bs off depth c v hc hv hb
  obtain ⟨k, hp, hb'⟩ := mapStream_ok hc hv
  rw [hb] at hb'
  cases hb'
  have := (ordinary_within hd hm bs off depth c.values v 0 hp).1
  omega

theorem advances_of {E : Env} {d : Defn} (hd : d.Every fun d => Ordinary d ∧ Progresses E d) :
    Advances E d := by
  cases d with
  | seq h info e =>
    have hp := hd.self.2
    simp only [Defn.Every] at hd
    have he := Defn.Every.imp (fun d (h : Ordinary d ∧ Progresses E d) => h.1) e hd.2
    simp only [Progresses, Advances] at hp ⊢
    split at hp
    · rename_i hk
      simp only [hk]
      exact hp.imp id fun h0 n o em hm => C63_takes_bytes E e he h0 n o em hm
    · split
      · contradiction
      · exact hp
  | _ => trivial

/-- **C63, for termination** MapByteStream terminates if every sequence in the
definition has a known number of elements or elements with a positive least size. -/
theorem C63_terminates (E : Env) (d : Defn) (hd : d.Every fun d => Ordinary d ∧ Progresses E d)
    (m : DMap) (hm : createMap E d = .ok m) (bs : Bytes) (off depth : Nat) (c : Ctx) (hc : c.Clean) :
    (mapStream E m bs off depth c).1 ≠ .error .diverge :=
  C28_terminates E d (Defn.Every.imp (fun _ h => advances_of h) d (Defn.Every.every d hd)) m hm bs off
    depth c hc

/-- A terminated sequence of structures of different sizes. -/
example (E : Env) : (Defn.seq { name := "s" }
      { kind := .sequence, elementDataType := some "T", terminator := some (.int 0) } exCond).Every fun d => Ordinary d ∧ Progresses E d := by
  simp [Defn.Every, everyDefn, exCond, exU8, exU16, Ordinary, DistinctTypes, Defn.target, Defn.name,
    Defn.hdr, Progresses, fewest, fewestSum, fixedByteSize, truthyStr]

end Dtf
