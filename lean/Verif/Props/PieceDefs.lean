import Verif.ResumeDefs
import Verif.Props.VariableParts
/-!
C78: reading types of a definition file piece by piece, from end to end.
-/
namespace Dtf
open Spec

/-- A program that maps data with a type of the file as it arrives, piece by piece, ends
with the value the type means: every call gets the context the call before it left, and the
bytes following those used so far. The types are those of `VTy.Piecewise`. -/
theorem C78_resume (E : Env) (A : Arithmetic E) (ds : List VDecl) (ts : List VTy)
    (h : fileTypes ds = some ts) (hn : (ds.map (E.lower ·.name)).Nodup) (hu : ∀ d ∈ ds, d.Usable E) :
    ∃ reg, fabric E (some { docs := ds.map VDecl.doc }) = .ok reg ∧
      ∀ t ∈ ts, t.Settled (bareOf ds) → t.height ≤ 11 → t.Piecewise → ∃ m, reg.createDataTypeMap E t.name = .ok m ∧
        ∀ bs ns v rest, (ns.map (·.1)).Nodup → t.Scoped (given ns) → t.read E.decode bs.length ns bs = .done v rest →
          ∀ pieces : List (Bytes × Bytes), pieces ≠ [] → (∀ p ∈ pieces, p.2 ≠ []) → (pieces.map (·.2)).flatten = bs →
            Feeds E m { values := ns } [] pieces v := by
  have hnm := vtypes_nodup h hn
  obtain ⟨-, hok⟩ := vfile_library A ds h (by simpa using hnm) hu (bareOf_iff hn) (by simp) (by simp)
  obtain ⟨-, hlook⟩ := vfile_read A h hn hu
  obtain ⟨reg, hreg, hmap⟩ := C71_fabric E A ds ts h hn hu
  have hreg' := fabric_some (vfile_read A h hn hu).1
  rw [hreg] at hreg'
  cases hreg'
  refine ⟨_, hreg, ?_⟩
  intro t ht hset hh hr
  obtain ⟨m, hm, hread⟩ := hmap t ht hset hh
  have hm' : createMap E (openDefn (bareOf ds) t) = .ok m := by
    unfold Registry.createDataTypeMap at hm
    rw [hlook t ht] at hm
    exact hm
  refine ⟨m, hm, ?_⟩
  intro bs ns v rest hd hs hv pieces hne hpc hbs
  have h1 := hread bs 0 { values := ns } (Ctx.clean_fresh ns) (Nat.zero_le _) hd hs
  rw [List.drop_zero] at h1
  rw [hv] at h1
  obtain ⟨h2, -⟩ := h1
  obtain ⟨h3, h4⟩ := piecewise_resumable (bareOf ds) (hok t ht).1 hset hr
  exact C30_resume_partial E _ h3 m hm' (h4 m hm') ns bs v h2 pieces hne hpc hbs

theorem exP_piecewise : exPItem.Piecewise := by
  rw [exPItem, VTy.Piecewise]
  refine ⟨⟨_, rfl, by decide⟩, ?_⟩
  simp [VMembers.Piecewise, VTy.Piecewise, VFields.Piecewise, VTy.Unlooped, Ty.Unlooped, Ty.Piecewise, Fields.Unlooped,
    Fields.Piecewise, exGU8, exPPair]

/-- The list arrives in three pieces: the first ends after its number of pairs, the second
within the second pair. -/
example : ∃ reg m, fabric arithEnv (some { docs := exPDecls.map VDecl.doc }) = .ok reg ∧
    reg.createDataTypeMap arithEnv "item" = .ok m ∧
      Feeds arithEnv m {} [] [([], [2, 3]), ([2, 3], [0, 1, 7, 1]), ([], [0, 8, 9])]
        (.struct "list" [("kind", .int 2), ("count", .int 3), ("pairs", .tuple [.struct "pair" [("x", .int 1), ("y", .int 7)],
          .struct "pair" [("x", .int 256), ("y", .int 8)]])]) := by
  obtain ⟨reg, hf, h⟩ := C78_resume arithEnv arithmetic_exists exPDecls _ rfl (by decide) exPDecls_usable
  obtain ⟨m, hm, hr⟩ := h exPItem (List.mem_of_getElem? (i := 7) rfl) exP_settled.1 (by decide) exP_piecewise
  exact ⟨reg, m, hf, hm, hr [2, 3, 0, 1, 7, 1, 0, 8, 9] [] _ _ (by decide) exP_scoped.1 exP_read _ (by simp) (by decide) rfl⟩

end Dtf
