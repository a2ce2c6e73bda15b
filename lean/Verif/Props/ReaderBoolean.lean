import Verif.Props.ReaderKeys
/-!
# Property C50: boolean attributes
-/
namespace Dtf

namespace Spec

/-- The boolean a stored number stands for when `f` is the number of False and `t`
the number of True, `none` for any number but `f`. -/
def booleanOf (f : Int) (t : Option Int) (x : Int) : Option Bool :=
  if x = f then some false
  else match t with
    | none => some true
    | some t => if x = t then some true else none

/-- A boolean document: the attributes give the size in bytes, byte order and the
numbers of False (0 unless set) and True (any other number unless set). -/
structure BooleanDoc (es : List (Key × Yaml)) (n : Nat) (o : Order) (f : Int) (t : Option Int) :
    Prop where
  type : entry es "type" = .str "boolean"
  attrs : ∃ as, entry es "attributes" = .map as ∧ entry as "size" = .int n ∧
    entryD as "units" (.str "bytes") = .str "bytes" ∧
    entryD as "byte_order" (.str "native") = .str (orderText o) ∧
    entryD as "false_value" (.int 0) = .int f ∧
    entry as "true_value" = (match t with | none => .null | some t => .int t)

/-- The map of a document maps stored numbers as its attributes say. -/
def HonoursBooleans (E : Env) (reg : Registry) (es : List (Key × Yaml)) (n : Nat) (o : Order)
    (f : Int) (t : Option Int) : Prop :=
  ∀ x m, readDefinition E reg (.map es) = .ok x → createMap E x = .ok m →
    ∀ bs off, off + n ≤ bs.length →
      (mapStream E m bs off 0 {}).1 = match booleanOf f t (stored E o (window bs off n)) with
        | some b => .ok (.bool b)
        | none => .error .mapping

end Spec
open Spec

theorem entry_of_entryD {es : List (Key × Yaml)} {k : String} {dflt v : Yaml}
    (h : entry es k = v) (hv : v ≠ .null) : entryD es k dflt = v := by
  unfold entry entryD at h
  unfold entryD
  cases hf : es.find? (·.1 == .str k) with
  | none => rw [hf] at h; exact absurd h.symm hv
  | some p => rw [hf] at h; exact h

theorem orderText_inj {a b : Order} (h : orderText a = orderText b) : a = b := by
  cases a <;> cases b <;> simp [orderText] at h <;> rfl

/-- The definition of a boolean document. -/
theorem boolean_read {E : Env} {reg : Registry} {es : List (Key × Yaml)} {n : Nat} {o : Order}
    {f : Int} {t : Option Int} (hd : BooleanDoc es n o f t) {x : Defn}
    (hr : readDefinition E reg (.map es) = .ok x) :
    ∃ h, h.order = o ∧ (n = 1 ∨ n = 2 ∨ n = 4) ∧
      x = .prim h (.boolean (some 0) none) (.bytes n) "bytes" := by
  obtain ⟨es', nm, ty, t', he, -, -, hty, ht, hr⟩ := readDefinition_ok hr
  cases he
  rw [hd.type] at hty
  cases hty
  have : t' = .boolean := by simpa [TypeInd.ofString] using ht.symm
  subst this
  simp only [readTyped, readBoolean, bind_ok, Except.ok.injEq] at hr
  obtain ⟨⟨h, s, u⟩, hf, rfl⟩ := hr
  obtain ⟨es', h0, o', he, hh, ho, rfl, hfr⟩ := readFixed_ok hf
  cases he
  obtain ⟨as, ha, h1, h2, h3, -, -⟩ := hd.attrs
  cases hfr with
  | absent h =>
    rw [ha] at h
    have : as = [] := by simpa [Yaml.truthy] using h
    subst this
    cases h1
  | present hta hm hs hu =>
    rw [ha] at hm
    cases hm
    rw [h2] at hu
    cases hu
    rw [entry_of_entryD h1 (by simp)] at hs
    rcases hs with ⟨h, _⟩ | ⟨k, hk, h, rfl⟩
    · cases h
    · have hkn : k = n := by
        have : (n : Int) = k := by simpa using h
        omega
      subst hkn
      cases ho with
      | absent h => rw [h] at hta; cases hta
      | present _ hm' _ ho' =>
        rw [ha] at hm'
        cases hm'
        rw [h3] at ho'
        refine ⟨_, ?_, by simpa using hk, rfl⟩
        show _ = o
        simp only [Yaml.str.injEq] at ho'
        exact (orderText_inj ho').symm

/-- **C50** A boolean document that leaves `true_value` unset and `false_value`
unset or 0 is honoured. Missing for the full claim: other values of these
attributes, which are ignored (`C50_refuted`, `C50_ignored`). -/
theorem C50_defaults_partial (E : Env) (reg : Registry) (es : List (Key × Yaml)) (n : Nat)
    (o : Order) (hd : BooleanDoc es n o 0 none) : HonoursBooleans E reg es n o 0 none := by
  intro x m hr hm bs off hl
  obtain ⟨h, rfl, hn, rfl⟩ := boolean_read hd hr
  have := C03_boolean_map E h (some 0) none n hn m hm bs off 0 {} hl _ rfl
  by_cases hz : ((stored E h.order (window bs off n) : Nat) : Int) = 0
  · rw [this.1 (by rw [hz])]
    simp [booleanOf, hz]
  · rw [this.2.2.2.1 rfl (by simpa using fun h => hz h.symm) (by simp)]
    simp only [booleanOf, hz, if_false]

/-- **C50** Whatever the attributes say, the definition has 0 for False and any
other number for True. -/
theorem C50_ignored (E : Env) (reg : Registry) (es : List (Key × Yaml)) (n : Nat) (o : Order)
    (f : Int) (t : Option Int) (hd : BooleanDoc es n o f t) :
    HonoursBooleans E reg es n o 0 none := by
  intro x m hr hm bs off hl
  obtain ⟨h, rfl, hn, rfl⟩ := boolean_read hd hr
  have := C03_boolean_map E h (some 0) none n hn m hm bs off 0 {} hl _ rfl
  by_cases hz : ((stored E h.order (window bs off n) : Nat) : Int) = 0
  · rw [this.1 (by rw [hz])]
    simp [booleanOf, hz]
  · rw [this.2.2.2.1 rfl (by simpa using fun h => hz h.symm) (by simp)]
    simp only [booleanOf, hz, if_false]

/-- The boolean of the format specification, with numbers for False and True. -/
def esBool (f t : Int) : List (Key × Yaml) :=
  [(.str "name", .str "bool8"), (.str "type", .str "boolean"), (.str "attributes", .map
    [(.str "size", .int 1), (.str "false_value", .int f), (.str "true_value", .int t)])]

theorem esBool_doc (f t : Int) : BooleanDoc (esBool f t) 1 .native f (some t) :=
  ⟨rfl, _, rfl, rfl, rfl, rfl, rfl, rfl⟩

/-- **C50** fails: with `true_value` 1 the stored number 2 is neither False nor
True and must be a MappingError, but maps to True. -/
theorem C50_refuted : ∃ (es : List (Key × Yaml)) (f : Int) (t : Option Int),
    BooleanDoc es 1 .native f t ∧ ¬ HonoursBooleans exEnvR {} es 1 .native f t := by
  refine ⟨esBool 0 1, 0, some 1, esBool_doc 0 1, fun h => ?_⟩
  have := h (.prim { name := "bool8" } (.boolean (some 0) none) (.bytes 1) "bytes")
    (.prim { name := "bool8" } (.boolean (some 0) none) (.bytes 1) "bytes") rfl rfl [2] 0 (by decide)
  exact absurd this (by intro h; cases h)

example : BooleanDoc [(.str "name", .str "b"), (.str "type", .str "boolean"), (.str "attributes",
    .map [(.str "size", .int 2), (.str "byte_order", .str "big-endian")])] 2 .big 0 none :=
  ⟨rfl, _, rfl, rfl, rfl, rfl, rfl, rfl⟩

end Dtf
