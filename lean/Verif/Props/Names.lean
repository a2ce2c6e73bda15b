import Verif.RenameCreate
import Verif.RenameFold
import Verif.RenameArith
import Verif.Props.Complete
/-!
# Property C104: the names of members are only names

`R.member` gives every member another name, different ones for different members, and `R.expr`
rewrites the expressions to go with it; `R.defn d` is the definition with the other names,
`renamed R.member v` the value with the other names for its attributes.
-/
namespace Dtf
open Spec

/-- **C104** A definition whose structure members get other names, also in the expressions and in
the identifiers of structure groups, maps every byte stream to the same value as before but for
the names of the attributes, with the same size, or to the same error. -/
theorem C104_mapped (E : Env) (R : Renaming) (hf : ∀ a b, R.member a = R.member b → a = b) (d : Defn)
    (hd : d.Every fun x => WellNamed x ∧ ∀ s ∈ exprsOf x, Rewritten E R s) (hd' : (R.defn d).Every WellNamed)
    {m m' : DMap} (hm : createMap E d = .ok m) (hm' : createMap E (R.defn d) = .ok m') (bs : Bytes)
    (off depth : Nat) {c c' : Ctx} (hc : c.Clean) (hc' : c'.Clean) (hv : c'.values = renamedValues R.member c.values) :
    (∀ v n, ((mapStream E m bs off depth c).1 = .ok v ∧ (mapStream E m bs off depth c).2.byteSize = some n) →
      (mapStream E m' bs off depth c').1 = .ok (renamed R.member v) ∧
        (mapStream E m' bs off depth c').2.byteSize = some n) ∧
    (∀ w, (mapStream E m' bs off depth c').1 = .ok w →
      ∃ v, w = renamed R.member v ∧ (mapStream E m bs off depth c).1 = .ok v) ∧
    ∀ e, (mapStream E m' bs off depth c').1 = .error e ↔ (mapStream E m bs off depth c).1 = .error e := by
  have hs : SameMap (R.map m) m' := createOwn_renamed (createAs_renaming hf d) hd hd' hm hm'
  have hfo : m.Every (MapFollows E R) := createAs_follows hm (Both.follows hd)
  have hp := parse_renamed hf m hfo bs off depth c.values
  rw [← hv] at hp
  rw [← mapStream_sameMap E hs bs off depth c']
  refine ⟨fun v n h => ?_, fun w h => ?_, fun e => ?_⟩
  · rw [mapped_iff hc] at h
    rw [mapped_iff hc', hp, h]
    rfl
  · obtain ⟨n, hn, -⟩ := mapStream_ok hc' h
    rw [hp] at hn
    cases hq : parse E m bs off depth c.values with
    | error e => rw [hq] at hn; cases hn
    | ok r =>
      rw [hq] at hn
      cases hn
      exact ⟨r.1, rfl, (mapStream_of_parse hc hq).1⟩
  · rw [mapStream_error hc, mapStream_error hc', hp]
    cases parse E m bs off depth c.values with
    | error x => rfl
    | ok r => exact ⟨(fun h => nomatch h), (fun h => nomatch h)⟩

/-- Folding a value with the other names for its attributes gives the same bytes as before, or the
same error. Attributes `bytes` and `bytes_le`, which are those of a `UUID`, keep their names. -/
theorem C104_folded (E : Env) (R : Renaming) (hf : ∀ a b, R.member a = R.member b → a = b)
    (h1 : R.member "bytes" = "bytes") (h2 : R.member "bytes_le" = "bytes_le") (d : Defn)
    (hd : d.Every fun x => WellNamed x ∧ ∀ s ∈ exprsOf x, Rewritten E R s) (hd' : (R.defn d).Every WellNamed)
    {m m' : DMap} (hm : createMap E d = .ok m) (hm' : createMap E (R.defn d) = .ok m') (v : Val) (ns : Namespace) :
    (∀ b, fold E m' (renamed R.member v) (renamedValues R.member ns) = .ok (.bytes b) ↔
      fold E m v ns = .ok (.bytes b)) ∧
    ∀ e, fold E m' (renamed R.member v) (renamedValues R.member ns) = .error e ↔ fold E m v ns = .error e := by
  have hs : SameMap (R.map m) m' := createOwn_renamed (createAs_renaming hf d) hd hd' hm hm'
  have hfo : m.Every (MapFollows E R) := createAs_follows hm (Both.follows hd)
  rw [← fold_same E hs, fold_renamed hf h1 h2 m hfo]
  cases fold E m v ns with
  | error e => exact ⟨fun b => ⟨(fun h => nomatch h), (fun h => nomatch h)⟩, fun _ => Iff.rfl⟩
  | ok x =>
    refine ⟨fun b => ?_, fun e => ⟨(fun h => nomatch h), (fun h => nomatch h)⟩⟩
    simp only [renamedFold, Except.ok.injEq]
    cases x <;> simp [renamed]

/-- The size of a definition does not depend on the names of members. -/
theorem C104_size (E : Env) (R : Renaming) (d : Defn)
    (hd : d.Every fun x => ∀ s ∈ exprsOf x, Rewritten E R s) : (R.defn d).byteSize = d.byteSize :=
  defn_size hd

/-! ### An example -/

/-- Two names change places. -/
def exSwap (s : String) : String := if s = "count" then "n" else if s = "n" then "count" else s

theorem exSwap_self (s : String) : exSwap (exSwap s) = s := by
  unfold exSwap
  by_cases h1 : s = "count"
  · subst h1; decide
  · by_cases h2 : s = "n"
    · subst h2; decide
    · simp [h1, h2]

theorem exSwap_injective (a b : String) (h : exSwap a = exSwap b) : a = b := by
  rw [← exSwap_self a, h, exSwap_self]

/-- As many bytes as the first byte tells, and one more, and a byte if there are more than two. -/
def exCounted : Defn :=
  .struct { name := "T" }
    [.member { name := "count" }
      (.prim { name := "uint8" } (.integer false) (.bytes 1) "bytes") none (some "uint8") none,
     .member { name := "data" } (.seq { name := "list" }
      { kind := .sequence
        elementDataType := some "uint8"
        numElementsExpr := some (Expr.plus (.field "T" "count") (.number 1)).text }
      (.prim { name := "uint8" } (.integer false) (.bytes 1) "bytes")) none (some "list") none,
     .member { name := "n" } (.prim { name := "uint8" } (.integer false) (.bytes 1) "bytes")
      (some (Test.compare .lt (.number 2) (.field "T" "count")).text) (some "uint8") none]

theorem exNames_usable {n : String} (h1 : ∀ c ∈ n.toList, c.isAlphanum = true) (h2 : n.toList ≠ [])
    (h3 : ∀ c, n.toList.head? = some c → c.isDigit = false) (h4 : arithEnv.isKeyword n = false) :
    Spec.Usable arithEnv n :=
  ⟨⟨h2, h3, fun c hc => .inl (h1 c hc)⟩, h4, rfl⟩

theorem exNames_T : Spec.Usable arithEnv "T" := exNames_usable (by decide +kernel) (by decide +kernel) (by decide +kernel) (by decide)
theorem exNames_count : Spec.Usable arithEnv "count" := exNames_usable (by decide +kernel) (by decide +kernel) (by decide +kernel) (by decide)
theorem exNames_n : Spec.Usable arithEnv "n" := exNames_usable (by decide +kernel) (by decide +kernel) (by decide +kernel) (by decide)

theorem exNames_size : Rewritten arithEnv (arithRenaming exSwap) (Expr.plus (.field "T" "count") (.number 1)).text :=
  follows_expr exSwap_injective ⟨⟨exNames_T, exNames_count⟩, trivial⟩ ⟨⟨exNames_T, exNames_n⟩, trivial⟩

theorem exNames_condition : Rewritten arithEnv (arithRenaming exSwap) (Test.compare .lt (.number 2) (.field "T" "count")).text :=
  follows_test exSwap_injective ⟨trivial, exNames_T, exNames_count⟩ ⟨trivial, exNames_T, exNames_n⟩

theorem exCounted_named : exCounted.Every fun x =>
    WellNamed x ∧ ∀ s ∈ exprsOf x, Rewritten arithEnv (arithRenaming exSwap) s := by
  have h0 : ∀ s ∈ ([] : List String), Rewritten arithEnv (arithRenaming exSwap) s := by simp
  have h1 : ∀ s ∈ [(Expr.plus (.field "T" "count") (.number 1)).text], Rewritten arithEnv (arithRenaming exSwap) s := by
    intro s hs; rw [List.mem_singleton.mp hs]; exact exNames_size
  have h2 : ∀ s ∈ [(Test.compare .lt (.number 2) (.field "T" "count")).text],
      Rewritten arithEnv (arithRenaming exSwap) s := by
    intro s hs; rw [List.mem_singleton.mp hs]; exact exNames_condition
  refine ⟨⟨⟨⟨?_, ?_⟩, ?_, ?_, ?_, ?_⟩, h2⟩, ⟨⟨trivial, h0⟩, trivial, h0⟩, ⟨⟨trivial, h0⟩, ⟨trivial, h1⟩, trivial, h0⟩,
    ⟨⟨trivial, h2⟩, trivial, h0⟩, trivial⟩
  · simp [Defn.target, Defn.name, Defn.hdr]
  · simp only [List.forall_mem_cons]; decide +kernel
  · decide +kernel
  · decide +kernel
  · decide +kernel
  · simp

theorem exCounted_swapped : ((arithRenaming exSwap).defn exCounted).Every WellNamed := by
  refine ⟨⟨⟨?_, ?_⟩, ?_, ?_, ?_, ?_⟩, ⟨trivial, trivial⟩, ⟨trivial, trivial, trivial⟩, ⟨trivial, trivial⟩, trivial⟩
  · simp [Renaming.members, Renaming.defn, called, Defn.target, Defn.name, Defn.hdr]
  · simp [Renaming.members, Renaming.defn, called, Defn.target, Defn.name, Defn.hdr]
  · simp only [Renaming.members, Renaming.defn, called]; decide +kernel
  · simp only [Renaming.members, Renaming.defn, called]; decide +kernel
  · decide +kernel
  · simp [Renaming.members, Renaming.defn, called]

/-- What the theorem says for this definition: `count` and `n` change places. -/
example : ∃ m m', createMap arithEnv exCounted = .ok m ∧ createMap arithEnv ((arithRenaming exSwap).defn exCounted) = .ok m' ∧
    (mapStream arithEnv m [3, 5, 6, 7, 8, 9] 0 0 {}).1 =
      .ok (.struct "T" [("count", .int 3), ("data", .tuple [.int 5, .int 6, .int 7, .int 8]), ("n", .int 9)]) ∧
    (mapStream arithEnv m' [3, 5, 6, 7, 8, 9] 0 0 {}).1 =
      .ok (.struct "T" [("n", .int 3), ("data", .tuple [.int 5, .int 6, .int 7, .int 8]), ("count", .int 9)]) := by
  have h : ∃ m, createMap arithEnv exCounted = .ok m ∧
      (mapStream arithEnv m [3, 5, 6, 7, 8, 9] 0 0 {}).1 =
        .ok (.struct "T" [("count", .int 3), ("data", .tuple [.int 5, .int 6, .int 7, .int 8]), ("n", .int 9)]) ∧
      (mapStream arithEnv m [3, 5, 6, 7, 8, 9] 0 0 {}).2.byteSize = some 6 := ⟨_, rfl, rfl, rfl⟩
  have h' : ∃ m', createMap arithEnv ((arithRenaming exSwap).defn exCounted) = .ok m' := ⟨_, rfl⟩
  obtain ⟨m, hm, h1, h2⟩ := h
  obtain ⟨m', hm'⟩ := h'
  exact ⟨m, m', hm, hm', h1, ((C104_mapped arithEnv (arithRenaming exSwap) exSwap_injective exCounted exCounted_named
    exCounted_swapped hm hm' _ 0 0 (c := {}) (c' := {}) rfl rfl rfl).1 _ _ ⟨h1, h2⟩).1⟩

/-- A number of two bytes and one of a byte. -/
def exNamedPair : Defn :=
  .struct { name := "P", order := .big }
    [.member { name := "count" } (.prim { name := "uint16", order := .big } (.integer false) (.bytes 2) "bytes") none
      (some "uint16") none,
     .member { name := "n" } (.prim { name := "uint8", order := .big } (.integer false) (.bytes 1) "bytes") none
      (some "uint8") none]

theorem exNamedPair_named : exNamedPair.Every fun x =>
    WellNamed x ∧ ∀ s ∈ exprsOf x, Rewritten arithEnv (arithRenaming exSwap) s := by
  have h0 : ∀ s ∈ ([] : List String), Rewritten arithEnv (arithRenaming exSwap) s := by simp
  refine ⟨⟨⟨⟨?_, ?_⟩, ?_, ?_, ?_, ?_⟩, h0⟩, ⟨⟨trivial, h0⟩, trivial, h0⟩, ⟨⟨trivial, h0⟩, trivial, h0⟩, trivial⟩
  · simp [Defn.target, Defn.name, Defn.hdr]
  · simp [Defn.target, Defn.name, Defn.hdr]
  · decide +kernel
  · decide +kernel
  · decide +kernel
  · simp

theorem exNamedPair_swapped : ((arithRenaming exSwap).defn exNamedPair).Every WellNamed := by
  refine ⟨⟨⟨?_, ?_⟩, ?_, ?_, ?_, ?_⟩, ⟨trivial, trivial⟩, ⟨trivial, trivial⟩, trivial⟩
  · simp [Renaming.members, Renaming.defn, called, Defn.target, Defn.name, Defn.hdr]
  · simp [Renaming.members, Renaming.defn, called, Defn.target, Defn.name, Defn.hdr]
  · simp only [Renaming.members, Renaming.defn, called]; decide +kernel
  · simp only [Renaming.members, Renaming.defn, called]; decide +kernel
  · decide +kernel
  · simp [Renaming.members, Renaming.defn, called]

/-- The same bytes from a value whose attributes have the other names. -/
example : ∃ m m', createMap arithEnv exNamedPair = .ok m ∧ createMap arithEnv ((arithRenaming exSwap).defn exNamedPair) = .ok m' ∧
    fold arithEnv m (.struct "P" [("count", .int 258), ("n", .int 3)]) [] = .ok (.bytes [1, 2, 3]) ∧
    fold arithEnv m' (.struct "P" [("n", .int 258), ("count", .int 3)]) [] = .ok (.bytes [1, 2, 3]) := by
  have h : ∃ m, createMap arithEnv exNamedPair = .ok m ∧
      fold arithEnv m (.struct "P" [("count", .int 258), ("n", .int 3)]) [] = .ok (.bytes [1, 2, 3]) := ⟨_, rfl, rfl⟩
  have h' : ∃ m', createMap arithEnv ((arithRenaming exSwap).defn exNamedPair) = .ok m' := ⟨_, rfl⟩
  obtain ⟨m, hm, h1⟩ := h
  obtain ⟨m', hm'⟩ := h'
  exact ⟨m, m', hm, hm', h1, ((C104_folded arithEnv (arithRenaming exSwap) exSwap_injective (by decide) (by decide) exNamedPair
    exNamedPair_named exNamedPair_swapped hm hm' _ []).1 _).mpr h1⟩

/-- And the same size. -/
example : ((arithRenaming exSwap).defn exNamedPair).byteSize = some 3 :=
  (C104_size arithEnv (arithRenaming exSwap) exNamedPair (Defn.Every.imp (fun _ h => h.2) _ exNamedPair_named)).trans rfl

end Dtf
