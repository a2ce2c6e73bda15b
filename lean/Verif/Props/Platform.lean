import Verif.Platform
import Verif.Props.Orders
/-!
# Property C111: definitions that tell their byte orders mean the same on every platform

`E.on little` is the same Python on a platform whose own byte order is little-endian or
not.
-/
namespace Dtf
open Spec

/-- **C111** (partial) Maps of a definition that tells the byte orders of its numbers map
and fold on any two platforms alike: the same values, errors and contexts. Structures
that leave their byte order open are restricted in `Portable`: see `C111_refuted`. -/
theorem C111_partial (E : Env) (little : Bool) (d : Defn) (hd : Portable d.orderOrNative d) (m : DMap)
    (hm : createMap (E.on little) d = .ok m) :
    (∀ bs off ctx, mapStream (E.on little) m bs off 0 ctx = mapStream E m bs off 0 ctx) ∧
    ∀ v values, fold (E.on little) m v values = fold E m v values := by
  have hf : Free m := createAs_free d _ _ m hm hd
  exact ⟨fun bs off ctx => mapStream_on E little m hf bs off 0 ctx, fold_on E little m hf⟩

/-- **C111** Whether a map can be created, which map it is and what its size hints are
does not depend on the platform, whatever the definition. -/
theorem C111_anyway (E : Env) (little : Bool) (d : Defn) :
    createMap (E.on little) d = createMap E d ∧
    ∀ m, createMap E d = .ok m → ∀ ctx, getSizeHint (E.on little) m ctx = getSizeHint E m ctx := by
  refine ⟨createAs_on E little d _ _, ?_⟩
  intro m _ ctx
  unfold getSizeHint
  rw [sizeHint_on]

/-- **C111** Nor does what is read from definition files, errors included, and the map a
name gives. -/
theorem C111_files (E : Env) (little : Bool) :
    (∀ file, fabric (E.on little) file = fabric E file) ∧
    (∀ reg f, readFileObject (E.on little) reg f = readFileObject E reg f) ∧
    ∀ reg name, Registry.createDataTypeMap (E.on little) reg name = Registry.createDataTypeMap E reg name := by
  refine ⟨fun file => ?_, readFileObject_on E little, fun reg name => ?_⟩
  · cases file with
    | none => rfl
    | some f => simp only [fabric, readFileObject_on]
  · unfold Registry.createDataTypeMap
    rw [show reg.getByName (E.on little) name = reg.getByName E name from rfl]
    cases reg.getByName E name with
    | none => rfl
    | some d => exact (C111_anyway E little d).1

/-- A structure that leaves its byte order open and has one member, a little-endian
number of two bytes. -/
def exLeftOpen : Defn :=
  .struct { name := "T" } [.member { name := "a" } exU16 none (some "u16") none]

/-- **C111** (refuted without the restriction) A structure whose only number is declared
little-endian is read differently on different platforms: the declared byte order is not
looked at, as the structure leaves its own open. -/
theorem C111_refuted : ∃ d m, d.Every (fun x => ∀ h k s u, x = .prim h k s u → h.order ≠ .native) ∧
    createMap (exEnv.on true) d = .ok m ∧ createMap (exEnv.on false) d = .ok m ∧
    (mapStream (exEnv.on true) m [1, 0] 0 0 {}).1 = .ok (.struct "T" [("a", .int 1)]) ∧
    (mapStream (exEnv.on false) m [1, 0] 0 0 {}).1 = .ok (.struct "T" [("a", .int 256)]) := by
  refine ⟨exLeftOpen, _, ?_, rfl, rfl, rfl, rfl⟩
  simp [exLeftOpen, Defn.Every, everyDefn, exU16]
  rintro h _ _ _ rfl _ _ _ h'
  cases h'

/-- A structure that leaves its byte order open with a byte, a big-endian number and three
little-endian numbers of two bytes, one more of them in a nested structure with a byte order
of its own, which the number leaves open. -/
def exTraveller : Defn :=
  .struct { name := "T" }
    [.member { name := "a" } exU8 none (some "u8") none,
     .member { name := "b" } exBE none (some "be16") none,
     .member { name := "c" } (.seq { name := "s" } { kind := .sequence, elementDataType := some "u16", numElements := some 3 } exU16)
       none (some "s") none,
     .member { name := "d" } (.struct { name := "N", order := .little }
       [.member { name := "x" } exN16 none (some "n16") none]) none (some "N") none]

example : Portable exTraveller.orderOrNative exTraveller ∧
    ∃ m, createMap exEnv exTraveller = .ok m ∧ ∀ little, (mapStream (exEnv.on little) m [7, 0, 1, 1, 0, 2, 0, 3, 0, 4, 0] 0 0 {}).1 =
      .ok (.struct "T" [("a", .int 7), ("b", .int 1), ("c", .tuple [.int 1, .int 2, .int 3]),
        ("d", .struct "N" [("x", .int 4)])]) := by
  refine ⟨?_, _, rfl, fun little => by cases little <;> rfl⟩
  simp [exTraveller, Portable, portableMembers, exU8, exBE, exU16, exN16, Defn.orderOrNative, Defn.order?,
    Defn.target, effective, Defn.isComposite]

/-- A native number of two bytes is not portable. -/
example : ¬ Portable exN16.orderOrNative exN16 ∧
    (∃ m, createMap exEnv exN16 = .ok m ∧ (mapStream (exEnv.on true) m [1, 0] 0 0 {}).1 = .ok (.int 1) ∧
      (mapStream (exEnv.on false) m [1, 0] 0 0 {}).1 = .ok (.int 256)) := by
  refine ⟨?_, _, rfl, rfl, rfl⟩
  simp [Portable, exN16, Defn.orderOrNative, Defn.order?]

end Dtf
