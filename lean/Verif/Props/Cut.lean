import Verif.Props.Locality
/-!
# Property C115: the mapped bytes are exactly those that are needed
-/
namespace Dtf
open Spec

/-- **C115** If MapByteStream gives a value and reports `n` bytes, the byte stream that is cut off anywhere
within these bytes raises ByteStreamTooSmallError: never another error, and never another value. -/
theorem C115_cut (E : Env) (d : Defn) (hd : d.Every fun d => FullTerminators d ∧ Ordinary d)
    (m : DMap) (hm : createMap E d = .ok m) (bs : Bytes) (off depth n : Nat) (hoff : off ≤ bs.length) (c : Ctx)
    (hc : c.Clean) (v : Val) (hv : (mapStream E m bs off depth c).1 = .ok v)
    (hn : (mapStream E m bs off depth c).2.byteSize = some n) (k : Nat) (hk : k < n) :
    (mapStream E m (bs.take (off + k)) off depth c).1 = .error .tooSmall := by
  apply Classical.byContradiction
  intro hne
  obtain ⟨h1, h2⟩ := C13_append E d hd m hm (bs.take (off + k)) (bs.drop (off + k)) off depth c hc hne
  rw [List.take_append_drop] at h1 h2
  rw [hv] at h1
  have h2 := h2 ⟨v, h1.symm⟩
  obtain ⟨n', h3, h4⟩ := C12_stays_inside E d (Defn.Every.imp (fun _ h => h.1) d hd) m hm (bs.take (off + k)) off depth
    (by simp; omega) c hc v h1.symm
  rw [← h2, hn] at h3
  cases h3
  simp only [List.length_take] at h4
  omega

/-- **C115** So `context.byte_size` is the number of bytes needed: cut off after `k` bytes, the byte
stream gives the same value and size if `k` is at least that number, and else raises
ByteStreamTooSmallError. -/
theorem C115_needed (E : Env) (d : Defn)
    (hd : d.Every fun d => FullTerminators d ∧ Ordinary d ∧ LooksAtItsBytes d)
    (m : DMap) (hm : createMap E d = .ok m) (bs : Bytes) (off depth n : Nat) (hoff : off ≤ bs.length) (c : Ctx)
    (hc : c.Clean) (v : Val) (hv : (mapStream E m bs off depth c).1 = .ok v)
    (hn : (mapStream E m bs off depth c).2.byteSize = some n) (k : Nat) :
    (n ≤ k → (mapStream E m (bs.take (off + k)) off depth c).1 = .ok v ∧
      (mapStream E m (bs.take (off + k)) off depth c).2.byteSize = some n) ∧
    (k < n → (mapStream E m (bs.take (off + k)) off depth c).1 = .error .tooSmall) := by
  refine ⟨fun hk => ?_, C115_cut E d (Defn.Every.imp (fun _ h => ⟨h.1, h.2.1⟩) d hd) m hm bs off depth n hoff c hc v hv hn k⟩
  obtain ⟨n', h3, h4⟩ := C12_stays_inside E d (Defn.Every.imp (fun _ h => h.1) d hd) m hm bs off depth hoff c hc v hv
  rw [hn] at h3
  cases h3
  refine C62_bytes_partial E d hd m hm bs _ off depth n c hc v hv hn ⟨by simp; omega, fun i hi => ?_⟩
  rw [List.getElem?_take, if_pos (by omega)]

/-- **C115** No mapped bytes are the beginning of other mapped bytes: where a byte stream begins with the
bytes of a value, no value of another size is mapped. -/
theorem C115_prefix (E : Env) (d : Defn)
    (hd : d.Every fun d => FullTerminators d ∧ Ordinary d ∧ LooksAtItsBytes d)
    (m : DMap) (hm : createMap E d = .ok m) (bs bs' : Bytes) (off depth n n' : Nat) (c : Ctx) (hc : c.Clean) (v v' : Val)
    (hv : (mapStream E m bs off depth c).1 = .ok v) (hn : (mapStream E m bs off depth c).2.byteSize = some n)
    (hv' : (mapStream E m bs' off depth c).1 = .ok v') (hn' : (mapStream E m bs' off depth c).2.byteSize = some n')
    (hs : SameBytes bs bs' off n) : v' = v ∧ n' = n := by
  obtain ⟨h1, h2⟩ := C62_bytes_partial E d hd m hm bs bs' off depth n c hc v hv hn hs
  rw [hv'] at h1
  rw [hn'] at h2
  cases h1
  cases h2
  exact ⟨rfl, rfl⟩

/-- The structure of C62 with a condition, a terminated sequence and a terminated stream; its bytes are
cut off within the sequence and within the last terminator. -/
example : (exLocal.Every fun d => FullTerminators d ∧ Ordinary d ∧ LooksAtItsBytes d) ∧
    ∃ m, createMap exEnvE exLocal = .ok m ∧
      (mapStream exEnvE m [7, 1, 2, 0, 5, 6, 0, 9, 9, 0, 0, 8] 1 0 {}).2.byteSize = some 10 ∧
      (mapStream exEnvE m [7, 1, 2, 0, 5] 1 0 {}).1 = .error .tooSmall ∧
      (mapStream exEnvE m [7, 1, 2, 0, 5, 6, 0, 9, 9, 0] 1 0 {}).1 = .error .tooSmall ∧
      (mapStream exEnvE m [7, 1, 2, 0, 5, 6, 0, 9, 9, 0, 0] 1 0 {}).1 =
        .ok (.struct "T" [("a", .int 1), ("b", .int 2), ("s", .tuple [.int 5, .int 6, .int 0]),
          ("t", .bytes [9, 9, 0, 0])]) := by
  refine ⟨?_, _, rfl, rfl, rfl, rfl, rfl⟩
  simp [Defn.Every, everyDefn, exLocal, exSeqT, exU8, exU16, FullTerminators, Ordinary,
    LooksAtItsBytes, DistinctTypes, Defn.target, Defn.name, Defn.hdr, Defn.byteSize, oneRead, fewest,
    fixedByteSize]

/-- **C115** It does not hold of terminators that are shorter than an element: two bytes are reported, but
one is enough. -/
theorem C115_short_terminator : ∃ m, createMap exEnv (exZ [0]) = .ok m ∧
    (mapStream exEnv m [0] 0 0 {}).2.byteSize = some 2 ∧
    (mapStream exEnv m (([0] : Bytes).take (0 + 1)) 0 0 {}).1 = .ok (.bytes [0]) :=
  ⟨_, rfl, rfl, rfl⟩

end Dtf
