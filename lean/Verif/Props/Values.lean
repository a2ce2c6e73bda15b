import Verif.Props.Growth
import Verif.Props.Mapping
import Verif.Props.Expressions
/-!
# Property C94: only expressions see the values of the context

`namesUsedBy d` (C83) are the conditions and the expressions for sizes of a definition, without
those of the elements of sequences and of the structures of a group.
-/
namespace Dtf

namespace Spec

/-- The value of an expression is determined by the values of its names. -/
def ByNames (E : Env) (names : String → List String) : Prop :=
  ∀ x ns ns', (∀ k ∈ names x, nsGet ns k = nsGet ns' k) → E.evalExpr x ns = E.evalExpr x ns'

/-- A map gives the same with the values `ns` as with the values `ns'`: the same value or error
for every byte stream and offset, with the same number of bytes taken. -/
def SameWith (E : Env) (m : DMap) (ns ns' : Namespace) : Prop :=
  ∀ bs off, (mapStream E m bs off 0 { values := ns }).1 = (mapStream E m bs off 0 { values := ns' }).1 ∧
    ∀ v, (mapStream E m bs off 0 { values := ns }).1 = .ok v →
      (mapStream E m bs off 0 { values := ns }).2.byteSize = (mapStream E m bs off 0 { values := ns' }).2.byteSize

end Spec
open Spec

theorem sameWith_of_parse {E : Env} {m : DMap} {ns ns' : Namespace}
    (h : ∀ bs off, parse E m bs off 0 ns = parse E m bs off 0 ns') : SameWith E m ns ns' := by
  intro bs off
  have h1 := refines E m bs off 0 _ (Ctx.clean_fresh ns)
  have h2 := refines E m bs off 0 _ (Ctx.clean_fresh ns')
  have h := h bs off
  simp only at h1 h2
  rw [← h] at h2
  rcases hp : parse E m bs off 0 ns with e | ⟨v, n⟩
  · rw [hp] at h1 h2
    simp only [Refines] at h1 h2
    exact ⟨h1.trans h2.symm, fun v hv => by rw [h1] at hv; cases hv⟩
  · rw [hp] at h1 h2
    exact ⟨h1.1.trans h2.1.symm, fun _ _ => h1.2.1.trans h2.2.1.symm⟩

/-- **C94** MapByteStream depends on the values of the context only through the conditions and
expressions for sizes of the type. -/
theorem C94_expressions (E : Env) (d : Defn) (m : DMap) (hm : createMap E d = .ok m) (ns ns' : Namespace)
    (h : ∀ x ∈ namesUsedBy d, Indifferent E ns ns' x) : SameWith E m ns ns' :=
  sameWith_of_parse fun bs off =>
    createAs_unmoved E d (namesUsedBy d) (fun _ h => h) _ _ m (.inl hm) bs off 0 ns ns' h

/-- A type without expressions of its own ignores the values of the context, whatever the
expressions in the elements of its sequences and in the structures of a group are. -/
theorem C94_no_expressions (E : Env) (d : Defn) (m : DMap) (hm : createMap E d = .ok m) (h : namesUsedBy d = [])
    (ns ns' : Namespace) : SameWith E m ns ns' :=
  C94_expressions E d m hm ns ns' (by simp [h])

theorem nsGet_inside {fs : List (String × List (String × Val))} {ns ns' : Namespace} (hn : (ns.map (·.1)).Nodup)
    (hn' : (ns'.map (·.1)).Nodup) {k : String} (h : nsGet ns k = nsGet ns' k) :
    nsGet (inside fs ns) k = nsGet (inside fs ns') k ∧ ((inside fs ns).map (·.1)).Nodup ∧
      ((inside fs ns').map (·.1)).Nodup := by
  induction fs with
  | nil => exact ⟨h, hn, hn'⟩
  | cons f fs ih =>
    obtain ⟨n, a⟩ := f
    obtain ⟨h1, h2, h3⟩ := ih
    refine ⟨?_, nsUpdate_nodup (by simp) _, nsUpdate_nodup (by simp) _⟩
    simp only [inside]
    cases hv : nsGet (inside fs ns) k with
    | none =>
      rw [hv] at h1
      rw [nsGet_nsUpdate_ne hv, nsGet_nsUpdate_ne h1.symm]
    | some v =>
      rw [hv] at h1
      rw [nsGet_nsUpdate h2 hv, nsGet_nsUpdate h3 h1.symm]

/-- If expressions are evaluated by their names, only the values of the names in the expressions
of the type matter. -/
theorem C94_names (E : Env) (names : String → List String) (hE : ByNames E names) (d : Defn) (m : DMap)
    (hm : createMap E d = .ok m) (ns ns' : Namespace) (hn : (ns.map (·.1)).Nodup) (hn' : (ns'.map (·.1)).Nodup)
    (h : ∀ x ∈ namesUsedBy d, ∀ k ∈ names x, nsGet ns k = nsGet ns' k) : SameWith E m ns ns' := by
  refine C94_expressions E d m hm ns ns' fun x hx fs => hE _ _ _ fun k hk => ?_
  have := (nsGet_inside (fs := fs) hn hn' (h x hx k hk)).1
  unfold withBuiltins
  by_cases hb : k = "__builtins__"
  · subst hb
    rw [nsGet_nsSet_self, nsGet_nsSet_self]
  · rw [nsGet_nsSet_ne hb, nsGet_nsSet_ne hb, this]

/-- The same holds of GetSizeHint with a context that was not used before. -/
theorem C94_hint (E : Env) (d : Defn) (m : DMap) (hm : createMap E d = .ok m) (ns ns' : Namespace)
    (h : ∀ x ∈ namesUsedBy d, Indifferent E ns ns' x) :
    (getSizeHint E m { values := ns }).1 = (getSizeHint E m { values := ns' }).1 := by
  simp only [getSizeHint]
  cases d with
  | seq h0 info e =>
    obtain ⟨n, eo, em, -, -, rfl, -⟩ := createAs_seq hm
    have h1 : evalDataSize E info ns = evalDataSize E info ns' :=
      evalDataSize_indifferent fun x hx => h x (by simp only [namesUsedBy, List.mem_append]; exact .inl hx)
    have h2 : evalNumElements E info ns = evalNumElements E info ns' :=
      evalNumElements_indifferent fun x hx => h x (by simp only [namesUsedBy, List.mem_append]; exact .inr hx)
    simp only [sizeHint, seqHint, h1, h2]
  | struct h0 ms =>
    obtain ⟨i, infos, maps, l, -, -, -, rfl, -⟩ := createAs_struct hm
    rfl
  | group h0 b i df ms =>
    obtain ⟨dm, bm, keys, maps, -, -, -, -, rfl⟩ := createAs_group hm
    rfl
  | prim h0 k s u =>
    simp only [createMap, createAs] at hm
    split at hm
    · cases hm
    · cases hm; rfl
  | _ => simp only [createMap, createAs, Except.ok.injEq] at hm; subst hm; rfl

/-- Before the first try, the size hint of a structure or group does not depend on the values at
all: expressions are evaluated without them. -/
theorem C94_hint_structure (E : Env) (d : Defn) (m : DMap) (hm : createMap E d = .ok m)
    (hd : ∀ h i e, d ≠ .seq h i e) (ns : Namespace) :
    (getSizeHint E m { values := ns }).1 = (getSizeHint E m {}).1 := by
  cases d with
  | seq h0 info e => exact absurd rfl (hd _ _ _)
  | struct h0 ms =>
    obtain ⟨i, infos, maps, l, -, -, -, rfl, -⟩ := createAs_struct hm
    rfl
  | group h0 b i df ms =>
    obtain ⟨dm, bm, keys, maps, -, -, -, -, rfl⟩ := createAs_group hm
    rfl
  | prim h0 k s u =>
    simp only [createMap, createAs] at hm
    split at hm
    · cases hm
    · cases hm; rfl
  | _ => simp only [createMap, createAs, Except.ok.injEq] at hm; subst hm; rfl

/-! ### Examples -/

/-- An environment whose expressions are single names. -/
def exEnvNames : Env := { exEnv with evalExpr := fun x ns => nsGet ns x }

theorem exEnvNames_byNames : ByNames exEnvNames (fun x => [x]) := fun x _ _ h => h x (by simp)

/-- A structure of as many bytes as the context says. -/
def exGiven : Defn :=
  .struct { name := "T" } [.seq { name := "data" } { kind := .stream, dataSizeExpr := some "n" }
    (.prim { name := "byte" } (.integer false) (.bytes 1) "bytes")]

/-- A further value in the context does not matter. -/
example : ∃ m, createMap exEnvNames exGiven = .ok m ∧
    SameWith exEnvNames m [("n", .int 2)] [("k", .int 7), ("n", .int 2)] ∧
    (mapStream exEnvNames m [65, 66, 67] 0 0 { values := [("n", .int 2)] }).1 =
      .ok (.struct "T" [("data", .bytes [65, 66])]) :=
  ⟨_, rfl, C94_names _ _ exEnvNames_byNames exGiven _ rfl _ _ (by simp) (by simp) (by
    intro x hx k hk
    simp only [exGiven, namesUsedBy, namesUsedByAll, Option.toList, List.append_nil, List.mem_singleton] at hx hk
    subst hx; subst hk; rfl), rfl⟩

/-- The hint leaves the bytes out, though the context gives their number. -/
example : ∃ m, createMap exEnvNames exGiven = .ok m ∧
    (getSizeHint exEnvNames m { values := [("n", .int 2)] }).1 = .ok (some 0) :=
  ⟨_, rfl, rfl⟩

/-- The expressions of the elements of a sequence do not see the values of the context: one
structure can be mapped, a sequence of it cannot. -/
theorem C94_elements : ∃ m ms, createMap exEnvNames exGiven = .ok m ∧
    createMap exEnvNames (.seq { name := "s" } { kind := .sequence, numElements := some 1 } exGiven) = .ok ms ∧
    (mapStream exEnvNames m [65, 66] 0 0 { values := [("n", .int 2)] }).1 =
      .ok (.struct "T" [("data", .bytes [65, 66])]) ∧
    (mapStream exEnvNames ms [65, 66] 0 0 { values := [("n", .int 2)] }).1 = .error .mapping ∧
    ∀ ns, (mapStream exEnvNames ms [65, 66] 0 0 { values := ns }).1 = .error .mapping := by
  refine ⟨_, _, rfl, rfl, rfl, rfl, fun ns => ?_⟩
  rw [(C94_no_expressions exEnvNames (.seq { name := "s" } { kind := .sequence, numElements := some 1 } exGiven) _ rfl rfl
    ns [] [65, 66] 0).1]
  rfl

end Dtf
