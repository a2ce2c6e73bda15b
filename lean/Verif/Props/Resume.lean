import Verif.Resume
import Verif.Props.Groups
import Verif.Props.Sequences
/-!
C30: going on with a context after ByteStreamTooSmallError.
-/
namespace Dtf

namespace Spec

/-- Handing over data piece by piece. Every call of MapByteStream gets the bytes not
used so far (`pend`) followed by the next piece, in a byte stream where anything may
stand before them, at their offset, with the same context object. `Feeds E m c pend
pieces v` if after a number of calls that raise ByteStreamTooSmallError one returns
`v`. A piece is given with what stands before it in the byte stream. -/
inductive Feeds (E : Env) (m : DMap) : Ctx → Bytes → List (Bytes × Bytes) → Val → Prop
  | done (c : Ctx) (pend pre piece : Bytes) (rest : List (Bytes × Bytes)) (v : Val)
      (h : (mapStream E m (pre ++ (pend ++ piece)) pre.length 0 c).1 = .ok v) :
      Feeds E m c pend ((pre, piece) :: rest) v
  | more (c : Ctx) (pend pre piece : Bytes) (rest : List (Bytes × Bytes)) (v : Val)
      (h : (mapStream E m (pre ++ (pend ++ piece)) pre.length 0 c).1 = .error .tooSmall)
      (hu : used m c (mapStream E m (pre ++ (pend ++ piece)) pre.length 0 c).2 ≤ (pend ++ piece).length)
      (t : Feeds E m (mapStream E m (pre ++ (pend ++ piece)) pre.length 0 c).2
        ((pend ++ piece).drop (used m c (mapStream E m (pre ++ (pend ++ piece)) pre.length 0 c).2)) rest v) :
      Feeds E m c pend ((pre, piece) :: rest) v

end Spec
open Spec

theorem feeds_of_resumes (E : Env) (m : DMap) (hg : Good m) (ns : Namespace) (pieces : List (Bytes × Bytes))
    (hne : pieces ≠ []) (hpc : ∀ p ∈ pieces, p.2 ≠ []) (c : Ctx) (pend : Bytes) (v : Val) (n : Nat)
    (h : Resumes E m 0 ns (pend ++ (pieces.map (·.2)).flatten) c v n) : Feeds E m c pend pieces v := by
  induction pieces generalizing c pend n with
  | nil => exact absurd rfl hne
  | cons p rest ih =>
    obtain ⟨pre, piece⟩ := p
    have hp : piece ≠ [] := hpc (pre, piece) List.mem_cons_self
    have hlen : 0 < piece.length := List.length_pos_iff.mpr hp
    have hst := steps E m hg (pre ++ (pend ++ piece)) pre.length 0 ns _ c v n ((rest.map (·.2)).flatten) h
      (.inr (by simp only [List.length_append]; omega)) (by simp) (by simp)
    rw [show (pre ++ (pend ++ piece)).length - pre.length = (pend ++ piece).length by simp] at hst
    rcases hst with ⟨h1, -⟩ | ⟨h1, h2, h3, h4, h5⟩
    · exact .done _ _ _ _ _ _ h1
    · have h5' := h5
      rw [show pend ++ (((pre, piece) :: rest).map (·.2)).flatten =
        (pend ++ piece) ++ (rest.map (·.2)).flatten by simp,
        List.drop_append_of_le_length h3] at h5'
      refine .more _ _ _ _ _ _ h1 h3 (ih ?_ (fun p hp => hpc p (List.mem_cons_of_mem _ hp)) _ _ _ h5')
      rintro rfl; exact h2 rfl

/-- **C30**, for data types without padding members whose sequences mapped element by
element come last: if a data type maps the bytes `bs` to `v`, then handing over `bs` in
pieces, every call with the context the previous call left and with the bytes following
those used, gives `v`.

Missing: other data types, for which this does not hold (`C30_sequence_refuted`,
`C30_padding_refuted`, `C30_group_refuted`). -/
theorem C30_resume_partial (E : Env) (d : Defn) (hd : d.Every fun d => FullTerminators d ∧ Ordinary d)
    (m : DMap) (hm : createMap E d = .ok m) (hr : m.Every Resumable) (ns : Namespace) (bs : Bytes) (v : Val)
    (hv : (mapStream E m bs 0 0 { values := ns }).1 = .ok v) (pieces : List (Bytes × Bytes))
    (hne : pieces ≠ []) (hpc : ∀ p ∈ pieces, p.2 ≠ []) (hbs : (pieces.map (·.2)).flatten = bs) :
    Feeds E m { values := ns } [] pieces v := by
  have hev : m.Every Extendable := by
    refine createAs_every extendable_of d _ _ m hm ?_
    refine Defn.Every.imp ?_ d (every_elem d hd)
    rintro d ⟨⟨h1, h2⟩, h3⟩
    exact ⟨h1, h2, fun i e h heq => (h3 i e h heq).2⟩
  obtain ⟨n, hp⟩ := mapStream_ok (Ctx.clean_fresh ns) hv
  refine feeds_of_resumes E m (DMap.Every.and m hr hev) ns pieces hne hpc _ [] v n ?_
  rw [List.nil_append, hbs]
  exact .start (Ctx.clean_fresh ns) (SameNs.refl _) hp.1

/-- `struct { uint8 a; struct { uint8 x; uuid u; } i; uint8 z[] until 0; }`. -/
def exResume : Defn :=
  .struct { name := "T", order := .little }
    [exMem "a" exU8 none,
      exMem "i" (.struct { name := "I", order := .little } [exMem "x" exU8 none, exMem "u" exUuid none]) none,
      exMem "z" exSeqT none]

/-- Four pieces: the first ends before the identifier, the second within it, the third
within the sequence. -/
example : (exResume.Every fun d => FullTerminators d ∧ Ordinary d) ∧
    ∃ m, createMap exEnv exResume = .ok m ∧ m.Every Resumable ∧
      (mapStream exEnv m ([7, 8] ++ List.replicate 10 1 ++ List.replicate 6 1 ++ [3, 4] ++ [5, 0]) 0 0 {}).1 =
        .ok (.struct "T" [("a", .int 7),
          ("i", .struct "I" [("x", .int 8), ("u", .uuid (List.replicate 16 1))]),
          ("z", .tuple [.int 3, .int 4, .int 5, .int 0])]) := by
  refine ⟨?_, _, rfl, ?_, rfl⟩
  · simp [Defn.Every, everyDefn, exResume, exMem, exSeqT, exU8, exUuid, FullTerminators, Ordinary,
      DistinctTypes, Defn.target, Defn.name, Defn.hdr, Defn.byteSize, fixedByteSize]
  · simp [DMap.Every, everyMap, Resumable, NoLoop, Atomic, seqLinear]

/-! ### Where resuming goes wrong -/

/-- `struct { uint8 z[] until 0; uint8 a; }`. -/
def exSplit : Defn :=
  .struct { name := "T", order := .little } [exMem "z" exSeqT none, exMem "a" exU8 none]

/-- **C30**, refuted when a sequence mapped element by element is followed by another
member: a resumed sequence reports the size of all its elements, including those mapped
by earlier calls, and the next member is read that far on. -/
theorem C30_sequence_refuted : ∃ m, createMap exEnv exSplit = .ok m ∧
    (mapStream exEnv m ([1, 2] ++ [0, 7, 8, 9]) 0 0 {}).1 =
      .ok (.struct "T" [("z", .tuple [.int 1, .int 2, .int 0]), ("a", .int 7)]) ∧
    Feeds exEnv m {} [] [([], [1, 2]), ([], [0, 7, 8, 9])]
      (.struct "T" [("z", .tuple [.int 1, .int 2, .int 0]), ("a", .int 9)]) :=
  ⟨_, rfl, rfl, .more _ _ _ _ _ _ rfl (by decide) (.done _ _ _ _ _ _ rfl)⟩

/-- **C30**, refuted with padding members: the size of the padding depends on the offset
in the byte stream given to the call. -/
theorem C30_padding_refuted : ∃ m, createMap exEnv exPad = .ok m ∧
    (mapStream exEnv m ([1, 0] ++ [3, 4, 5]) 0 0 {}).1 =
      .ok (.struct "P" [("a", .int 1), ("p", .bytes [0, 3, 4]), ("b", .int 5)]) ∧
    Feeds exEnv m {} [] [([], [1, 0]), ([], [3, 4, 5])]
      (.struct "P" [("a", .int 1), ("p", .bytes []), ("b", .int 0)]) :=
  ⟨_, rfl, rfl, .more _ _ _ _ _ _ rfl (by decide) (.done _ _ _ _ _ _ rfl)⟩

/-- `struct { uint8 x; uint8 y; }`. -/
def exPair : Defn := .struct { name := "P", order := .little } [exMem "x" exU8 none, exMem "y" exU8 none]

/-- A group of structures `{ P p; uint8 kind; }`. -/
def exPairGroup : Defn :=
  .group { name := "g" } (.struct { name := "base", order := .little } [exMem "p" exPair none, exMem "kind" exU8 none])
    "kind" none
    [.struct { name := "one", order := .little } [exMem "p" exPair none, exMem "kind" exU8 (some [.int 1])]]

/-- **C30**, refuted for groups with a base mapped member by member: the base goes on
where it stopped, while the member of the group is mapped from the start of the bytes
given, so that no part of the bytes can be given to get the value. -/
theorem C30_group_refuted : ∃ m v, createMap exEnv exPairGroup = .ok m ∧
    (mapStream exEnv m [7, 8, 1] 0 0 {}).1 = .ok v ∧
    (mapStream exEnv m [7, 8] 0 0 {}).1 = .error .tooSmall ∧
    ∀ k, (mapStream exEnv m (([7, 8, 1] : Bytes).drop k) 0 0 (mapStream exEnv m [7, 8] 0 0 {}).2).1 ≠ .ok v := by
  refine ⟨_, .struct "one" [("p", .struct "P" [("x", .int 7), ("y", .int 8)]), ("kind", .int 1)], rfl, rfl, rfl, ?_⟩
  intro k
  match k with
  | 0 => intro h; cases h
  | 1 => intro h; cases h
  | 2 => intro h; cases h
  | k + 3 =>
    rw [show ([7, 8, 1] : Bytes).drop (k + 3) = [] by simp]
    intro h; cases h

end Dtf
