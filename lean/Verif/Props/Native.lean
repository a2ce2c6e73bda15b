import Verif.Native
import Verif.Props.Orders
/-!
# Property C112: a byte order left open everywhere is that of the platform

`d.inOrder o` is `d` with the byte order `o` written everywhere.
-/
namespace Dtf

namespace Spec

/-- The byte order of the platform. -/
def _root_.Dtf.Env.order (E : Env) : Order := if E.nativeLittle then .little else .big

end Spec
open Spec

/-- **C112** A definition that leaves all byte orders open is the same to a user as the
definition with the byte order of the platform written everywhere. -/
theorem C112_platform (E : Env) (d : Defn) (hd : d.Every LeftOpen) : Interchangeable E d (d.inOrder E.order) := by
  have hmade : ∀ o, createMap E (d.inOrder o) = (createMap E d).map (·.inOrder o) := fun o =>
    createOwn_inOrder hd (createAs_inOrder E o d hd)
  have hl : E.isLittle .native = E.isLittle E.order := by
    unfold Env.order
    rcases h : E.nativeLittle with _ | _ <;> simp [Env.isLittle, h]
  refine ⟨(inOrder_byteSize _ d).symm, ?_, ?_⟩
  · intro x
    rw [hmade]
    rcases createMap E d with y | m <;> simp [Except.map]
  · intro m m' hm hm'
    have hn := hmade .native
    rw [inOrder_native d hd, hm] at hn
    rw [hmade, hm] at hm'
    simp only [Except.map, Except.ok.injEq] at hn hm'
    subst hm'
    have hu := createAs_noUuid hm hd
    refine ⟨?_, ?_, ?_, ?_⟩
    · intro bs off ctx
      have := mapStream_little E hl m hu bs off 0 ctx
      rwa [← hn] at this
    · intro v values
      have := fold_little E hl m hu v values
      rwa [← hn] at this
    · intro ctx
      unfold getSizeHint
      rw [sizeHint_inOrder]
      cases m <;> rfl
    · intro args kw
      cases m <;> rfl

/-- **C112** With the other byte order written everywhere the definition is not the same:
numbers of several bytes are read the other way round. -/
theorem C112_other : ∃ d m m', d.Every LeftOpen ∧ createMap (exEnv.on true) d = .ok m ∧
    createMap (exEnv.on true) (d.inOrder .big) = .ok m' ∧
    (mapStream (exEnv.on true) m [1, 0] 0 0 {}).1 = .ok (.int 1) ∧
    (mapStream (exEnv.on true) m' [1, 0] 0 0 {}).1 = .ok (.int 256) := by
  refine ⟨exN16, _, _, ?_, rfl, rfl, rfl, rfl⟩
  simp [exN16, Defn.Every, LeftOpen, Defn.orderOrNative, Defn.order?]

/-- **C112** (what `LeftOpen` leaves out) UUIDs are not read at all if the byte order is
left open. -/
theorem C112_uuid : ∃ d, d.orderOrNative = .native ∧ ¬ Interchangeable (exEnv.on true) d (d.inOrder (exEnv.on true).order) := by
  refine ⟨.uuid { name := "u" } (.bytes 16) "bytes", rfl, ?_⟩
  intro h
  have h1 := (h.maps _ _ rfl rfl).1 (List.replicate 16 0) 0 {}
  have h2 := congrArg Prod.fst h1
  change (Except.ok Val.pyNone : Except Err Val) = .ok (.uuid _) at h2
  cases h2

/-- A structure that leaves all byte orders open, with a number, a sequence of numbers
and a nested structure. -/
def exOpenAll : Defn :=
  .struct { name := "T" }
    [.member { name := "a" } exN16 none (some "n16") none,
     .member { name := "b" } (.seq { name := "s" } { kind := .sequence, elementDataType := some "n16", numElements := some 2 } exN16)
       none (some "s") none,
     .member { name := "c" } (.struct { name := "N" } [.member { name := "x" } exN16 none (some "n16") none]) none (some "N") none]

example : exOpenAll.Every LeftOpen ∧ exOpenAll.inOrder .big ≠ exOpenAll ∧
    (∃ m, createMap (exEnv.on false) exOpenAll = .ok m ∧ (mapStream (exEnv.on false) m [0, 1, 0, 2, 0, 3, 0, 4] 0 0 {}).1 =
      .ok (.struct "T" [("a", .int 1), ("b", .tuple [.int 2, .int 3]), ("c", .struct "N" [("x", .int 4)])])) ∧
    ∃ m, createMap (exEnv.on true) (exOpenAll.inOrder .big) = .ok m ∧
      (mapStream (exEnv.on true) m [0, 1, 0, 2, 0, 3, 0, 4] 0 0 {}).1 =
        .ok (.struct "T" [("a", .int 1), ("b", .tuple [.int 2, .int 3]), ("c", .struct "N" [("x", .int 4)])]) := by
  refine ⟨?_, ?_, ⟨_, rfl, rfl⟩, _, rfl, rfl⟩
  · simp [exOpenAll, exN16, Defn.Every, everyDefn, LeftOpen, Defn.orderOrNative, Defn.order?]
  · simp [exOpenAll, Defn.inOrder]

end Dtf
