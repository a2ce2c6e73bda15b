import Verif.SpecLemmas
/-! Facts about the primitive maps. -/
namespace Dtf

theorem createMap_prim (E : Env) (h : Hdr) (k : PrimKind) (s : Size) (u : String) (m : DMap)
    (hm : createMap E (.prim h k s u) = .ok m) : m = .prim h k s u := by
  unfold createMap createAs at hm
  split at hm <;> simp [Defn.name, Defn.hdr, Defn.orderOrNative, Defn.order?] at hm <;> exact hm.symm

theorem createMap_uuid (E : Env) (h : Hdr) (s : Size) (u : String) (m : DMap)
    (hm : createMap E (.uuid h s u) = .ok m) : m = .uuid h s u := by
  simp [createMap, createAs, Defn.name, Defn.hdr, Defn.orderOrNative, Defn.order?] at hm
  exact hm.symm

theorem primCode_size {k : PrimKind} {n : Nat} {c : Code} (h : primCode k (.bytes n) = some c) :
    c.size = n := by
  unfold primCode at h
  split at h <;> simp_all [Code.size] <;> (subst h; rfl)

theorem tooSmall_eq (bs : Bytes) (off n : Nat) : tooSmall bs off n = decide (bs.length < off + n) := by
  unfold tooSmall
  rcases Nat.lt_or_ge bs.length (off + n) with h | h
  · simp [h]; omega
  · simp [Nat.not_lt.mpr h]; omega

/-- MapByteStream of a primitive map with enough bytes. -/
theorem prim_map_eq (E : Env) (h : Hdr) (k : PrimKind) (n : Nat) (c : Code)
    (hc : primCode k (.bytes n) = some c) (bs : Bytes) (off d : Nat) (ctx : Ctx)
    (hl : off + n ≤ bs.length) :
    mapStream E (.prim h k (.bytes n) "bytes") bs off d ctx =
      match mapValue k (unpackOne E h.order c (Spec.window bs off n)) with
      | none => (.error .mapping, { ctx with byteSize := none, requestedSize := some (n : Int) })
      | some v => (.ok v, { ctx with byteSize := some n, requestedSize := some (n : Int) }) := by
  have hs := primCode_size hc
  subst hs
  unfold mapStream primMap
  simp only [fixedByteSize, beq_self_eq_true, if_true, tooSmall_eq]
  rw [if_neg (by simp; omega)]
  unfold primRead
  rw [hc]
  simp only [List.length_drop]
  rw [if_neg (by omega)]
  show _ = _
  simp only [Spec.window]
  cases mapValue k (unpackOne E h.order c ((bs.drop off).take c.size)) <;> simp

theorem prim_fold_eq (E : Env) (h : Hdr) (k : PrimKind) (s : Size) (u : String) (c : Code)
    (hc : primCode k s = some c) (v : Val) (ns : Namespace) :
    fold E (.prim h k s u) v ns =
      match (foldValue k v).bind (packOne E h.order c) with
      | some b => .ok (.bytes b)
      | none => .error .folding := by
  unfold fold primFold
  rw [hc]
  cases foldValue k v <;> simp
  cases packOne E h.order c _ <;> rfl

theorem intCode_some {u : Bool} {n : Nat} (hn : n = 1 ∨ n = 2 ∨ n = 4 ∨ n = 8) :
    ∃ c, primCode (.integer u) (.bytes n) = some c ∧
      (∀ E o bs, unpackOne E o c bs =
        .int (if u then (unsignedOf (E.isLittle o) bs : Int)
              else toSigned n (unsignedOf (E.isLittle o) bs))) ∧
      (∀ E o v, packOne E o c v = v.toIndex.bind (packInt (E.isLittle o) n (!u))) := by
  rcases hn with rfl | rfl | rfl | rfl <;> cases u
  · exact ⟨.b, rfl, fun _ _ _ => rfl, fun _ _ _ => rfl⟩
  · exact ⟨.B, rfl, fun _ _ _ => rfl, fun _ _ _ => rfl⟩
  · exact ⟨.h, rfl, fun _ _ _ => rfl, fun _ _ _ => rfl⟩
  · exact ⟨.H, rfl, fun _ _ _ => rfl, fun _ _ _ => rfl⟩
  · exact ⟨.i, rfl, fun _ _ _ => rfl, fun _ _ _ => rfl⟩
  · exact ⟨.I, rfl, fun _ _ _ => rfl, fun _ _ _ => rfl⟩
  · exact ⟨.q, rfl, fun _ _ _ => rfl, fun _ _ _ => rfl⟩
  · exact ⟨.Q, rfl, fun _ _ _ => rfl, fun _ _ _ => rfl⟩

end Dtf
