import Verif.Honest
import Verif.Props.Variable
import Verif.Props.Complete
/-!
C86: ByteStreamTooSmallError means that there are bytes that help.
-/
namespace Dtf
open Spec

/-- **C86** The fabric of a definition file of types whose size depends on the data, as in C71. If mapping
a byte stream raises ByteStreamTooSmallError, then there are bytes to append to it with which mapping
has an outcome that is not ByteStreamTooSmallError, and that is the outcome whatever bytes follow
them. -/
theorem C86_more (E : Env) (A : Arithmetic E) (ds : List VDecl) (ts : List VTy)
    (h : fileTypes ds = some ts) (hn : (ds.map (E.lower ·.name)).Nodup) (hu : ∀ d ∈ ds, d.Usable E) :
    ∃ reg, fabric E (some { docs := ds.map VDecl.doc }) = .ok reg ∧
      ∀ t ∈ ts, t.Settled (bareOf ds) → t.height ≤ 11 → ∃ m, reg.createDataTypeMap E t.name = .ok m ∧
        ∀ bs off (c : Ctx), c.Clean → off ≤ bs.length → (c.values.map (·.1)).Nodup → t.Scoped (given c.values) →
          (mapStream E m bs off 0 c).1 = .error .tooSmall →
          ∃ ext r, r ≠ .error .tooSmall ∧ ∀ more, (mapStream E m (bs ++ ext ++ more) off 0 c).1 = r := by
  have hnm := vtypes_nodup h hn
  obtain ⟨-, hok⟩ := vfile_library A ds h (by simpa using hnm) hu (bareOf_iff hn) (by simp) (by simp)
  obtain ⟨reg, hf, hr⟩ := C71_fabric E A ds ts h hn hu
  refine ⟨reg, hf, ?_⟩
  intro t ht hset hh
  obtain ⟨m, hm, hr⟩ := hr t ht hset hh
  refine ⟨m, hm, ?_⟩
  intro bs off c hc hoff hd hs _
  obtain ⟨ext, hext⟩ := vty_fillable (decode := E.decode) t (hok t ht).1 c.values bs.length (bs.drop off)
    (by rw [List.length_drop]; omega)
  have hst := fun more => vty_steady (decode := E.decode) t (hok t ht).1 c.values (bs.length + ext.length)
    (bs.drop off ++ ext) more (by rw [List.length_append, List.length_drop]; omega)
  have hmap := fun more => hr (bs ++ ext ++ more) off c hc (by simp only [List.length_append]; omega) hd hs
  have hsize : ∀ more, (bs ++ ext ++ more).length = bs.length + ext.length + more.length := by
    simp [Nat.add_assoc]
  have hdrop : ∀ more, (bs ++ ext ++ more).drop off = bs.drop off ++ ext ++ more := by
    intro more
    rw [List.append_assoc, List.drop_append_of_le_length hoff, List.append_assoc]
  simp only [hsize, hdrop] at hmap
  simp only at hext hst
  refine ⟨ext, ?_⟩
  generalize t.read E.decode (bs.length + ext.length) c.values (bs.drop off ++ ext) = o at hext hst
  cases o with
  | short => exact absurd rfl hext
  | invalid =>
    refine ⟨.error .mapping, by simp, fun more => ?_⟩
    have := hmap more
    rw [(hst more).2 rfl] at this
    exact this
  | done v rest =>
    refine ⟨.ok v, by simp, fun more => ?_⟩
    have := hmap more
    rw [((hst more).1 v rest rfl).2] at this
    exact this.1

/-- The hypotheses of `C86_more`: the second name of the packet does not end. With more bytes it
does. -/
example : ∃ reg m, fabric arithEnv (some { docs := exVDecls.map VDecl.doc }) = .ok reg ∧
    reg.createDataTypeMap arithEnv "packet" = .ok m ∧
      (mapStream arithEnv m [2, 5, 97, 98, 0, 99] 0 0 { values := [("header", .int 3)] }).1 = .error .tooSmall ∧
      (∃ ext r, r ≠ .error .tooSmall ∧ ∀ more,
        (mapStream arithEnv m ([2, 5, 97, 98, 0, 99] ++ ext ++ more) 0 0 { values := [("header", .int 3)] }).1 = r) ∧
      (mapStream arithEnv m ([2, 5, 97, 98, 0, 99] ++ [0, 7, 8, 9]) 0 0 { values := [("header", .int 3)] }).1 =
        .ok (.struct "packet" [("count", .int 2), ("size", .int 5), ("names", .tuple [.str [97, 98], .str [99]]),
          ("sum", .int 7), ("rest", .bytes [8, 9])]) := by
  obtain ⟨reg, hf, h⟩ := C71_fabric arithEnv arithmetic_exists exVDecls _ rfl (by decide) exVDecls_usable
  obtain ⟨reg', hf', h'⟩ := C86_more arithEnv arithmetic_exists exVDecls _ rfl (by decide) exVDecls_usable
  obtain rfl : reg = reg' := by rw [hf] at hf'; cases hf'; rfl
  obtain ⟨m, hm, hr⟩ := h exVPacket (.tail _ (.tail _ (.tail _ (.tail _ (.head _))))) (settled_nil _) (by decide)
  obtain ⟨m', hm', hr'⟩ := h' exVPacket (.tail _ (.tail _ (.tail _ (.tail _ (.head _))))) (settled_nil _) (by decide)
  obtain rfl : m = m' := by rw [hm] at hm'; cases hm'; rfl
  have hd : ((([("header", .int 3)] : Namespace)).map (·.1)).Nodup := by decide
  have h1 := hr [2, 5, 97, 98, 0, 99] 0 { values := [("header", .int 3)] } rfl (by decide) hd exV_scoped
  have h2 := hr ([2, 5, 97, 98, 0, 99] ++ [0, 7, 8, 9]) 0 { values := [("header", .int 3)] } rfl (by decide) hd exV_scoped
  rw [List.drop_zero, show arithEnv.decode = exEnv.decode from rfl] at h1 h2
  rw [show ([2, 5, 97, 98, 0, 99] : Bytes).length = 6 from rfl, exV_short] at h1
  have h3 : exVPacket.read exEnv.decode ([2, 5, 97, 98, 0, 99] ++ [0, 7, 8, 9] : Bytes).length [("header", .int 3)]
      ([2, 5, 97, 98, 0, 99] ++ [0, 7, 8, 9]) =
    .done (.struct "packet" [("count", .int 2), ("size", .int 5), ("names", .tuple [.str [97, 98], .str [99]]),
      ("sum", .int 7), ("rest", .bytes [8, 9])]) [] := rfl
  rw [h3] at h2
  exact ⟨reg, m, hf, hm, h1, hr' _ 0 { values := [("header", .int 3)] } rfl (by decide) hd exV_scoped h1, h2.1⟩

/-! ### Other types -/

theorem never_ends {bs : Bytes} {step : Nat → PRes}
    (hstep : ∀ p, p < bs.length → ∃ i : Int, i < 256 ∧ step p = .ok (.int i, 1)) :
    ∀ (fuel off used index : Nat) (last : Val), pyEq last (.int 300) = false → 0 < fuel → bs.length < off + fuel →
      seqParse step bs.length none none (some (.int 300)) fuel off used index last = .error .tooSmall
  | 0, _, _, _, _, _, h, _ => by omega
  | fuel + 1, off, used, index, last, hl, _, hf => by
    rw [seqParse]
    split
    · simp [seqEnd, hl, atDataSize]
    · rename_i ho
      have ho : off < bs.length := by simp [atNumber, atDataSize] at ho; exact ho
      obtain ⟨i, hi, hs⟩ := hstep off ho
      have hne : pyEq (.int i) (.int 300) = false := by
        have : i ≠ 300 := by omega
        simp [pyEq, Val.num?, Lit.num?, Num.eq, this]
      rw [hs]
      simp only [atTerm, hne, Bool.false_eq_true, if_false,
        never_ends hstep fuel (off + 1) (used + 1) (index + 1) (.int i) hne (by omega) (by omega)]

/-- **C86** Why it says so for the types of these files only: a sequence of bytes that ends at the
number 300 has a map. Mapping with it raises ByteStreamTooSmallError whatever the byte
stream. -/
theorem C86_never :
    ∃ (E : Env) (h : Hdr) (info : SeqInfo) (m : DMap), info.kind = .sequence ∧ info.terminator = some (.int 300) ∧
      createMap E (.seq h info exU8) = .ok m ∧ ∀ bs off, (mapStream E m bs off 0 {}).1 = .error .tooSmall := by
  let e : DMap := .prim { name := "uint8", order := .native } (.integer true) (.bytes 1) "bytes"
  let info : SeqInfo := { kind := .sequence, elementDataType := some "uint8", terminator := some (.int 300) }
  refine ⟨exEnv, { name := "row" }, info, .seq { name := "row", order := .native } info ⟨some 1, false, none⟩ none e,
    rfl, rfl, rfl, ?_⟩
  intro bs off
  rw [mapStream_error (show Ctx.Clean {} from rfl)]
  have hstep : ∀ p, p < bs.length → ∃ i : Int, i < 256 ∧
      parse exEnv e bs p 1 [] = .ok (.int i, 1) := by
    intro p hp
    obtain ⟨i, h1, h2, -, h3⟩ := C01_integer_map exEnv { name := "uint8", order := .native } true 1 (.inl rfl) _ rfl
      bs p 1 {} (by omega)
    exact ⟨i, h3.2, (mapped_iff (show Ctx.Clean {} from rfl)).1 ⟨h1, h2⟩⟩
  have := never_ends hstep (seqFuel bs.length off none 0) off 0 0 .pyNone rfl
    (by simp [seqFuel]) (by simp only [seqFuel]; omega)
  have hr : (seqRules exEnv info ⟨some 1, false, none⟩ []).1 = .ok (none, some (.int 300), none) := rfl
  rw [parse]
  simp only [show info.kind = .sequence from rfl, show seqLinear info ⟨some 1, false, none⟩ = false from rfl,
    Bool.false_eq_true, if_false, compositeSeqParse, hr]
  simp only [this]
  rfl

end Dtf
