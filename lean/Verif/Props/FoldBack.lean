import Verif.FoldMap
/-!
C59: mapping what was folded gives the value back.
-/
namespace Dtf
open Spec

/-- **C59** When a value agrees with its type and folds to bytes, mapping these bytes,
wherever they are put, gives the value, and the context reports exactly their number. -/
theorem C59_back (E : Env) (d : Defn) (hd : d.Every TypesDistinct) (m : DMap) (hm : createMap E d = .ok m)
    (c : Ctx) (hc : c.Clean) (depth : Nat) (v : Val) (n : Nat) (pre post b : Bytes)
    (hv : Fits E m pre.length depth c.values v n) (fs : Namespace) (hf : fold E m v fs = .ok (.bytes b)) :
    b.length = n ∧
    (mapStream E m (pre ++ b ++ post) pre.length depth c).1 = .ok v ∧
    (mapStream E m (pre ++ b ++ post) pre.length depth c).2.byteSize = some n := by
  have hok := createAs_every (Q := NodeOk) (fun d nm o m => nodeOk_of_create d nm o m) d _ _ _ hm hd
  obtain ⟨h1, h2⟩ := fold_forth m hok pre.length depth c.values fs v n b hv hf pre post rfl
  exact ⟨h1, mapStream_of_parse hc h2⟩

/-- **C59** Different values that agree with a type in the same place and with the same
names never fold to the same bytes. -/
theorem C59_injective (E : Env) (d : Defn) (hd : d.Every TypesDistinct) (m : DMap) (hm : createMap E d = .ok m)
    (off depth : Nat) (ns fs gs : Namespace) (v w : Val) (n k : Nat) (b : Bytes)
    (hv : Fits E m off depth ns v n) (hw : Fits E m off depth ns w k)
    (hfv : fold E m v fs = .ok (.bytes b)) (hfw : fold E m w gs = .ok (.bytes b)) : v = w := by
  have hok := createAs_every (Q := NodeOk) (fun d nm o m => nodeOk_of_create d nm o m) d _ _ _ hm hd
  have h1 := (fold_forth m hok off depth ns fs v n b hv hfv (List.replicate off 0) [] (by simp)).2
  have h2 := (fold_forth m hok off depth ns gs w k b hw hfw (List.replicate off 0) [] (by simp)).2
  rw [h1] at h2
  cases h2
  rfl

/-- The value of `exSized` with one byte in the stream, so the conditional member is
there, agrees with the type: 8 bytes at offset 1. -/
example : ∃ h bsz linear io infos maps,
    createMap exEnvE exSized = .ok (.struct h bsz linear io infos maps) ∧
    Fits exEnvE (.struct h bsz linear io infos maps) 1 0 []
      (.struct "T" [("a", .int 1), ("s", .bytes [7]), ("w", .int 2), ("u", .struct "U" [("x", .int 3), ("y", .int 4)])]) 8 ∧
    fold exEnvE (.struct h bsz linear io infos maps)
      (.struct "T" [("a", .int 1), ("s", .bytes [7]), ("w", .int 2), ("u", .struct "U" [("x", .int 3), ("y", .int 4)])]) [] =
      .ok (.bytes [1, 7, 2, 0, 3, 0, 4, 0]) ∧
    -- with another number of bytes in the stream the conditional member is not there
    Fits exEnvE (.struct h bsz linear io infos maps) 1 0 []
      (.struct "T" [("a", .int 2), ("s", .bytes [7, 9]), ("w", .pyNone),
        ("u", .struct "U" [("x", .int 3), ("y", .int 4)])]) 7 ∧
    fold exEnvE (.struct h bsz linear io infos maps)
      (.struct "T" [("a", .int 2), ("s", .bytes [7, 9]), ("w", .pyNone),
        ("u", .struct "U" [("x", .int 3), ("y", .int 4)])]) [] =
      .ok (.bytes [2, 7, 9, 3, 0, 4, 0]) := by
  refine ⟨_, _, _, _, _, _, rfl, ?_, rfl, ?_, rfl⟩
  · rw [Fits]
    refine ⟨rfl, [.int 1, .bytes [7], .int 2, .struct "U" [("x", .int 3), ("y", .int 4)]], rfl, ?_⟩
    rw [if_neg (by decide)]
    refine ⟨by decide, by simp, ?_⟩
    rw [FitsMembers]
    refine .inr ⟨.always (.inl rfl), by simp, (by intro vs h; cases h), 1, 7, rfl, ?_, ?_⟩
    · rw [Fits]; exact ⟨rfl, 1, rfl⟩
    rw [FitsMembers]
    refine .inr ⟨.always (.inl rfl), by simp, (by intro vs h; cases h), 1, 6, rfl, ?_, ?_⟩
    · rw [Fits]; exact ⟨[7], rfl, rfl, .inl (.inl ⟨by decide, .inr ⟨rfl, _, _, rfl, by decide, rfl, .int⟩⟩)⟩
    rw [FitsMembers]
    refine .inr ⟨.cond rfl (by decide) rfl, by simp, (by intro vs h; cases h), 2, 4, rfl, ?_, ?_⟩
    · rw [Fits]; exact ⟨rfl, 2, rfl⟩
    rw [FitsMembers]
    refine .inr ⟨.always (.inl rfl), by simp, (by intro vs h; cases h), 4, 0, rfl, ?_, ?_⟩
    · rw [Fits]
      refine ⟨rfl, [.int 3, .int 4], rfl, ?_⟩
      rw [if_pos rfl]
      exact ⟨rfl, .cons ⟨3, rfl⟩ (by intro vs h; cases h) (.cons ⟨4, rfl⟩ (by intro vs h; cases h) .nil)⟩
    rw [FitsMembers]
    exact ⟨rfl, rfl, rfl⟩
  · rw [Fits]
    refine ⟨rfl, [.int 2, .bytes [7, 9], .pyNone, .struct "U" [("x", .int 3), ("y", .int 4)]], rfl, ?_⟩
    rw [if_neg (by decide)]
    refine ⟨by decide, by simp, ?_⟩
    rw [FitsMembers]
    refine .inr ⟨.always (.inl rfl), by simp, (by intro vs h; cases h), 1, 6, rfl, ?_, ?_⟩
    · rw [Fits]; exact ⟨rfl, 2, rfl⟩
    rw [FitsMembers]
    refine .inr ⟨.always (.inl rfl), by simp, (by intro vs h; cases h), 2, 4, rfl, ?_, ?_⟩
    · rw [Fits]; exact ⟨[7, 9], rfl, rfl, .inl (.inl ⟨by decide, .inr ⟨rfl, _, _, rfl, by decide, rfl, .int⟩⟩)⟩
    rw [FitsMembers]
    refine .inl ⟨.cond rfl (by decide) rfl, rfl, ?_⟩
    rw [FitsMembers]
    refine .inr ⟨.always (.inl rfl), by simp, (by intro vs h; cases h), 4, 0, rfl, ?_, ?_⟩
    · rw [Fits]
      refine ⟨rfl, [.int 3, .int 4], rfl, ?_⟩
      rw [if_pos rfl]
      exact ⟨rfl, .cons ⟨3, rfl⟩ (by intro vs h; cases h) (.cons ⟨4, rfl⟩ (by intro vs h; cases h) .nil)⟩
    rw [FitsMembers]
    exact ⟨rfl, rfl, rfl⟩

/-- Agreeing with the type is needed: folding does not check the supported values of a
member and leaves out a member that is `None` though it has no condition, and what it
makes of these values of `exCond` cannot be mapped. -/
example : ∃ m, createMap exEnvE exCond = .ok m ∧
    fold exEnvE m (.struct "T" [("a", .int 0), ("b", .pyNone), ("c", .int 9)]) [] = .ok (.bytes [0, 9]) ∧
    (mapStream exEnvE m [0, 9] 0 0 {}).1 = .error .mapping ∧
    fold exEnvE m (.struct "T" [("a", .int 0), ("b", .pyNone), ("c", .pyNone)]) [] = .ok (.bytes [0]) ∧
    (mapStream exEnvE m [0] 0 0 {}).1 = .error .tooSmall :=
  ⟨_, rfl, rfl, rfl, rfl, rfl⟩

end Dtf
