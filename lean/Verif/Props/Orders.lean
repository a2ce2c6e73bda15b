import Verif.Orders
import Verif.Props.Structures
/-!
# Property C75: byte orders left open are those of the structure or sequence

`settle .native d` is the definition `d` with the byte orders that count written out.
-/
namespace Dtf

namespace Spec

/-- Two definitions are the same to a user: they have the same byte size, creating a map
raises the same error for both or none, and the maps map, fold and guess the size of all
byte streams alike and create the same structure values. -/
structure Interchangeable (E : Env) (d d' : Defn) : Prop where
  size : d.byteSize = d'.byteSize
  error : ∀ x, createMap E d = .error x ↔ createMap E d' = .error x
  maps : ∀ m m', createMap E d = .ok m → createMap E d' = .ok m' →
    (∀ bs off ctx, mapStream E m bs off 0 ctx = mapStream E m' bs off 0 ctx) ∧
    (∀ v values, fold E m v values = fold E m' v values) ∧
    (∀ ctx, getSizeHint E m ctx = getSizeHint E m' ctx) ∧
    ∀ args kw, createValues m args kw = createValues m' args kw

end Spec
open Spec

theorem createValues_same {m m' : DMap} (h : SameMap m m') (args kw) : createValues m args kw = createValues m' args kw := by
  cases h with
  | struct hn ho hm => unfold createValues; simp only [hn]
  | _ => rfl

theorem getSizeHint_same (E : Env) {m m' : DMap} (h : SameMap m m') (ctx : Ctx) :
    getSizeHint E m ctx = getSizeHint E m' ctx := by
  unfold getSizeHint
  rw [sizeHint_same E h]
  cases h <;> rfl

theorem interchangeable_of {E : Env} {d d' : Defn} (hs : d.byteSize = d'.byteSize)
    (h : SameOutcome (createMap E d) (createMap E d')) : Interchangeable E d d' := by
  generalize hr : createMap E d = r at h
  generalize hr' : createMap E d' = r' at h
  cases h with
  | error x => exact ⟨hs, fun y => by rw [hr, hr'], fun m m' hm => by rw [hr] at hm; cases hm⟩
  | ok h =>
    refine ⟨hs, fun y => by rw [hr, hr']; simp, ?_⟩
    intro m m' hm hm'
    rw [hr] at hm
    rw [hr'] at hm'
    cases hm
    cases hm'
    exact ⟨fun bs off ctx => mapStream_sameMap E h bs off 0 ctx, fold_same E h, getSizeHint_same E h, createValues_same h⟩

/-- **C75** Writing out the byte orders that count changes nothing. -/
theorem C75_written (E : Env) (d : Defn) (hd : d.Every Orderly) : Interchangeable E d (settle .native d) :=
  interchangeable_of (settle_byteSize d .native).symm (createAs_settle E d hd .native _ _ _ _ (placed_native d))

/-- **C75** Definitions that say the same once the byte orders that count are written
out are the same to a user. -/
theorem C75_same (E : Env) (d d' : Defn) (hd : d.Every Orderly) (hd' : d'.Every Orderly)
    (h : settle .native d = settle .native d') : Interchangeable E d d' :=
  interchangeable_of (by rw [← settle_byteSize d .native, h, settle_byteSize]) (createMap_settled E hd hd' h)

/-! ### An example -/

/-- A big-endian structure of a number, a UUID and three numbers, without a byte order
in the number, the UUID and the elements, or with it. -/
def exOpen (o : Order) : Defn :=
  .struct { name := "T", order := .big }
    [.member { name := "a", order := o } (.prim { name := "n16", order := o } (.integer true) (.bytes 2) "bytes")
      none (some "n16") none,
     .member { name := "b", order := o } (.uuid { name := "id", order := o } (.bytes 16) "bytes") none (some "id") none,
     .member { name := "c", order := o } (.seq { name := "list", order := o }
      { kind := .sequence, elementDataType := some "n16", numElements := some 3 }
      (.prim { name := "n16", order := o } (.integer true) (.bytes 2) "bytes")) none (some "list") none]

theorem exOpen_orderly (o : Order) : (exOpen o).Every Orderly := by
  simp only [exOpen, Defn.Every, everyDefn, Orderly, and_true]
  refine ⟨⟨?_, ?_⟩, ?_⟩
  · intro x hx y hy
    simp only [List.mem_cons, List.not_mem_nil, or_false] at hx hy
    rcases hx with rfl | rfl | rfl <;> rcases hy with rfl | rfl | rfl <;>
      simp [Defn.target, Defn.name, Defn.hdr]
  · intro x hx
    simp only [List.mem_cons, List.not_mem_nil, or_false] at hx
    rcases hx with rfl | rfl | rfl <;> simp [Defn.target, Defn.name, Defn.hdr]
  · intro _
    refine ⟨?_, ?_⟩
    · intro m hm h' ms'
      simp only [List.mem_cons, List.not_mem_nil, or_false] at hm
      rcases hm with rfl | rfl | rfl <;> simp [Defn.target]
    · intro h
      have := (h _ (.tail _ (.head _))).1
      simp [Defn.isComposite] at this

theorem exOpen_settle : settle .native (exOpen .native) = settle .native (exOpen .big) := rfl

/-- The bytes of the example: 258, a UUID, 1, 2 and 772. -/
def exOpenBytes : Bytes := [1, 2] ++ List.replicate 15 0 ++ [9, 0, 1, 0, 2, 3, 4]

/-- Both definitions map the bytes to the same, big-endian, numbers. -/
example : Interchangeable exEnv (exOpen .native) (exOpen .big) ∧
    ∃ m m', createMap exEnv (exOpen .native) = .ok m ∧ createMap exEnv (exOpen .big) = .ok m' ∧
      (mapStream exEnv m exOpenBytes 0 0 {}).1 = .ok (.struct "T" [("a", .int 258),
        ("b", .uuid (List.replicate 15 0 ++ [9])), ("c", .tuple [.int 1, .int 2, .int 772])]) :=
  ⟨C75_same _ _ _ (exOpen_orderly _) (exOpen_orderly _) exOpen_settle, _, _, rfl, rfl, rfl⟩

/-! ### Elements that are no primitive types -/

/-- A big-endian structure of a sequence of UUIDs that leave the byte order open. -/
def exOpenIds (o : Order) : Defn :=
  .struct { name := "T", order := .big }
    [.member { name := "ids" } (.seq { name := "list" }
      { kind := .sequence, elementDataType := some "id", numElements := some 1 }
      (.uuid { name := "id", order := o } (.bytes 16) "bytes")) none (some "list") none]

/-- UUIDs do not take the byte order of the sequence they are elements of, nor that of
the structure: without a byte order they are mapped to None, so `settle` has to leave
them alone. -/
theorem C75_elements : settle .native (exOpenIds .native) ≠ settle .native (exOpenIds .big) ∧
    ∃ m m', createMap exEnv (exOpenIds .native) = .ok m ∧ createMap exEnv (exOpenIds .big) = .ok m' ∧
      (mapStream exEnv m (List.replicate 16 1) 0 0 {}).1 = .ok (.struct "T" [("ids", .tuple [.pyNone])]) ∧
      (mapStream exEnv m' (List.replicate 16 1) 0 0 {}).1 =
        .ok (.struct "T" [("ids", .tuple [.uuid (List.replicate 16 1)])]) :=
  ⟨by simp [settle, settleAll, exOpenIds, effective, Defn.isComposite], _, _, rfl, rfl, rfl, rfl⟩

/-! ### The conditions are needed -/

/-- Without `Orderly` the byte orders that count are others, see C24: a structure of
numbers, one of which has another byte order than the structure, is read in one byte
order. -/
theorem C75_mixed : ∃ d : Defn, ¬ Interchangeable exEnv d (settle .native d) := by
  refine ⟨.struct { name := "T", order := .little } [.member { name := "a" } exN16 none (some "n16") none,
    .member { name := "b" } exBE none (some "be16") none], ?_⟩
  generalize hd : Defn.struct _ _ = d
  obtain ⟨m, m', hm, hm', h1, h2⟩ : ∃ m m', createMap exEnv d = .ok m ∧ createMap exEnv (settle .native d) = .ok m' ∧
      (mapStream exEnv m [0, 1, 0, 1] 0 0 {}).1 = .ok (.struct "T" [("a", .int 256), ("b", .int 256)]) ∧
      (mapStream exEnv m' [0, 1, 0, 1] 0 0 {}).1 = .ok (.struct "T" [("a", .int 256), ("b", .int 1)]) := by
    subst hd
    exact ⟨_, _, rfl, rfl, rfl, rfl⟩
  intro h
  rw [(h.maps _ _ hm hm').1, h2] at h1
  simp at h1

end Dtf
