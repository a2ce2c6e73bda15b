import Verif.ClassText
import Verif.Props.Classes
import Verif.Props.Groups
import Verif.Props.Reader
/-!
# Property C67: which definitions get a data type map
-/
namespace Dtf

namespace Spec

/-- The name and byte order under which a structure or sequence `nm` of byte order
`o` uses the definition `d`: a definition without byte order is copied under
another name and gets the byte order of its user. -/
def usedAs (nm : String) (o : Order) (d : Defn) : String × Order :=
  if o ≠ .native ∧ d.order? = some .native then ("_" ++ nm ++ "_" ++ d.name, o)
  else (d.name, d.orderOrNative)

/-- The same for the elements of a sequence: composite definitions are not copied. -/
def usedAsElement (nm : String) (o : Order) (e : Defn) : String × Order :=
  if e.isComposite = true then (e.name, e.orderOrNative) else usedAs nm o e

/-- `Needs nm o d nm' o' d'`: a data type map of `d`, under the name `nm` and with
the byte order `o`, contains one of `d'`, under the name `nm'` and with the byte
order `o'`. -/
inductive Needs : String → Order → Defn → String → Order → Defn → Prop
  | itself {nm o d} : Needs nm o d nm o d
  | element {nm o h i e nm' o' d'} :
      Needs (usedAsElement nm o e).1 (usedAsElement nm o e).2 e nm' o' d' →
      Needs nm o (.seq h i e) nm' o' d'
  | member {nm o h ms x nm' o' d'} : x ∈ ms →
      Needs (usedAs nm o x.target).1 (usedAs nm o x.target).2 x.target nm' o' d' →
      Needs nm o (.struct h ms) nm' o' d'
  | base {nm o h b i df ms nm' o' d'} : Needs b.name b.orderOrNative b nm' o' d' →
      Needs nm o (.group h b i df ms) nm' o' d'
  | default {nm o h b i x ms nm' o' d'} : Needs x.name x.orderOrNative x nm' o' d' →
      Needs nm o (.group h b i (some x) ms) nm' o' d'
  | variant {nm o h b i df ms g vs nm' o' d'} : g ∈ ms → IdentifierValues i g vs → vs ≠ [] →
      Needs g.name g.orderOrNative g nm' o' d' →
      Needs nm o (.group h b i df ms) nm' o' d'

/-- A sequence whose number of elements is fixed. -/
structure FixedCount (i : SeqInfo) : Prop where
  sequence : i.kind = .sequence
  size : i.dataSizeExpr = none
  number : i.numElementsExpr = none
  terminator : i.terminator = none

/-- The member called `ident` of a structure or union. -/
def Identifier? (ident : String) (g : Defn) (x : Option Defn) : Prop :=
  ∃ h ms, (g = .struct h ms ∨ g = .union h ms) ∧ ms.find? (·.name == ident) = x

/-- What the description of a class needs to know of a member: the name of its type
if it is a sequence, or the name of its data type if that is none of the primitive
types. -/
def Described : Defn → Prop
  | .member _ (.prim _ _ _ _) _ _ _ | .member _ (.uuid _ _ _) _ _ _ => True
  | .member _ (.seq _ i _) _ _ _ | .seq _ i _ => i.kind = .sequence → i.elementDataType ≠ none
  | .member _ _ _ dt _ => dt ≠ none
  | _ => True

/-- What is wrong with a definition, and the error it causes. -/
inductive Fault (E : Env) : Err → String → Order → Defn → Prop
  /-- a Boolean without a value for true and one for false -/
  | boolean {nm o h s u} : Fault E .format nm o (.prim h (.boolean none none) s u)
  /-- elements of a type that has no byte order at all -/
  | elementOrder {nm o h i e} : e.order? = none → Fault E .attribute nm o (.seq h i e)
  /-- elements that are padding -/
  | paddingElement {nm o h i h' a} : FixedCount i → Fault E .attribute nm o (.seq h i (.padding h' a))
  /-- an expression that is no Python expression -/
  | expression {nm o h i e x} : i.dataSizeExpr = some x ∨ i.numElementsExpr = some x → x ≠ "" →
      E.parses x = false → Fault E .syntax nm o (.seq h i e)
  /-- a stream or string of composite elements -/
  | composite {nm o h i e} : i.kind ≠ .sequence → e.isComposite = true →
      Fault E .format nm o (.seq h i e)
  /-- a negative data size -/
  | negativeSize {nm o h i h' k n ds} : FixedCount i → i.dataSize = some ds → ds < 0 →
      n ∈ supportedSizes k → Fault E .format nm o (.seq h i (.prim h' k (.bytes n) "bytes"))
  /-- a negative number of elements -/
  | negativeNumber {nm o h i h' k n u c} : FixedCount i → i.dataSize = none ∨ i.dataSize = some 0 →
      i.numElements = some c → c < 0 → n ∈ supportedSizes k →
      Fault E .format nm o (.seq h i (.prim h' k (.bytes n) u))
  /-- a data size of elements without bytes -/
  | empty {nm o h i h' k ds} : FixedCount i → i.dataSize = some ds → ds ≠ 0 →
      Fault E .zeroDiv nm o (.seq h i (.prim h' k (.bytes 0) "bytes"))
  /-- a name that is not valid -/
  | names {nm o h ms} : ¬ ValidNames E nm (ms.map (·.name)) → Fault E .value nm o (.struct h ms)
  /-- a member whose type has no name -/
  | undescribed {nm o h ms x} : x ∈ ms → ¬ Described x → Fault E .type nm o (.struct h ms)
  /-- a name that Python does not accept in the text of a class -/
  | self {nm o h ms n} : n ∈ nm :: ms.map (·.name) → E.pyIdent n = false →
      Fault E .syntax nm o (.struct h ms)
  | selfName {nm o h ms x} : x ∈ ms → x.name = "self" → Fault E .syntax nm o (.struct h ms)
  /-- a text that Python does not accept in a literal -/
  | text {nm o h ms t} : Documented nm h.description ms t →
      '\x00' ∈ t.toList ∨ ¬ Legal E (t.toList ++ ['.']) → Fault E .syntax nm o (.struct h ms)
  /-- a text that ends the literal it is put into: what follows is run as code -/
  | code {nm o h ms t} : Documented nm h.description ms t → ¬ Stays 0 (t.toList ++ ['.']) →
      Fault E .other nm o (.struct h ms)
  /-- a structure with a byte order and a member of a type that has none at all -/
  | memberOrder {nm o h ms x} : o ≠ .native → x ∈ ms → x.target.order? = none →
      Fault E .attribute nm o (.struct h ms)
  /-- a group without members -/
  | noMembers {nm o h b i df} : Fault E .format nm o (.group h b i df [])
  /-- a member of a group that is no structure -/
  | noStructure {nm o h b i df ms g} : g ∈ ms →
      (∀ h xs, g ≠ .struct h xs ∧ g ≠ .union h xs) → Fault E .attribute nm o (.group h b i df ms)
  /-- a member of a group without the identifier -/
  | noIdentifier {nm o h b i df ms g} : g ∈ ms → Identifier? i g none →
      Fault E .format nm o (.group h b i df ms)
  /-- a member of a group whose identifier has no values -/
  | noValues {nm o h b i df ms g mh t c dt} : g ∈ ms →
      Identifier? i g (some (.member mh t c dt none)) → Fault E .format nm o (.group h b i df ms)
  /-- a member of a group whose identifier cannot have values -/
  | badIdentifier {nm o h b i df ms g x} : g ∈ ms → Identifier? i g (some x) →
      (∀ mh t c dt vs, x ≠ .member mh t c dt vs) → Fault E .attribute nm o (.group h b i df ms)
  /-- an identifier value that cannot be a dictionary key -/
  | unhashable {nm o h b i df ms g vs v} : g ∈ ms → IdentifierValues i g vs → v ∈ vs →
      v.isHashable = false → Fault E .type nm o (.group h b i df ms)
  /-- an identifier value that occurs twice -/
  | duplicate {nm o h b i df ms v w} : DifferentPlaces i ms v w → Alike v w →
      Fault E .format nm o (.group h b i df ms)

/-- A structure without byte order with a member of a type that has none at all:
creating the map may raise AttributeError. -/
inductive Doubtful : Err → String → Order → Defn → Prop
  | member {nm h ms x} : x ∈ ms → x.target.order? = none →
      Doubtful .attribute nm .native (.struct h ms)

end Spec
open Spec

theorem primCode_isSome {k : PrimKind} {n : Nat} :
    (∃ c, primCode k (.bytes n) = some c) ↔ n ∈ supportedSizes k := by
  constructor
  · rintro ⟨c, h⟩
    unfold primCode at h
    split at h <;> simp_all [supportedSizes]
  · intro h
    cases k <;> simp only [supportedSizes, List.mem_cons, List.not_mem_nil, or_false] at h
    case integer b =>
      cases b <;> rcases h with rfl | rfl | rfl | rfl <;> exact ⟨_, rfl⟩
    case floatingPoint => rcases h with rfl | rfl <;> exact ⟨_, rfl⟩
    all_goals rcases h with rfl | rfl | rfl <;> exact ⟨_, rfl⟩

theorem primCode_native {k : PrimKind} : primCode k .native = none := by
  cases k <;> try rfl
  rename_i b; cases b <;> rfl

/-- The operation made from the format string of a number of elements. -/
theorem count_operation {m : DMap} {o : Order} {f : Option (List Char)} {n : Int} {c : Option Code}
    (ho : m.orderStr = .ok (some o)) (hf : f = seqFmt (some n) (c.map fun c => [c.char]))
    (hm : m.fmt = .ok f) (x : Err) :
    m.operation = .error x ↔ x = .format ∧ c ≠ none ∧ n < 0 := by
  unfold DMap.operation
  rw [ho, hm, hf]
  cases c with
  | none => simp [seqFmt]
  | some c =>
    simp only [seqFmt, Option.map_some]
    by_cases hn : n = 0
    · simp [hn]
    · rw [if_neg (by simp [hn])]
      have hp := parseCodes_count n c []
      generalize hd : decStr n ++ [c.char] = t at hp
      cases t with
      | nil => simp at hd
      | cons a t =>
        simp only [mkOp, hp]
        by_cases h0 : 0 ≤ n
        · simp [h0, parseCodes]
        · simp [h0]
          constructor
          · rintro rfl; exact ⟨rfl, by omega⟩
          · rintro ⟨rfl, -⟩; rfl

theorem prim_operation {hd ec : Hdr} {info : SeqInfo} {k : PrimKind} {s : Size} {u : String}
    {bsz : Option Int} (hk : info.kind = .sequence) {x : Err} :
    (DMap.seq hd info ⟨fixedByteSize s u, false, none⟩ bsz (.prim ec k s u)).operation = .error x ↔
      (x = .format ∧ ∃ n, s = .bytes n ∧ n ∈ supportedSizes k ∧
        ((∃ ds, info.dataSize = some ds ∧ ds < 0 ∧ u = "bytes") ∨
          ((info.dataSize = none ∨ info.dataSize = some 0) ∧ ∃ c, info.numElements = some c ∧ c < 0))) ∨
      (x = .zeroDiv ∧ s = .bytes 0 ∧ u = "bytes" ∧ ∃ ds, info.dataSize = some ds ∧ ds ≠ 0) := by
  have ho : (DMap.seq hd info ⟨fixedByteSize s u, false, none⟩ bsz (.prim ec k s u)).orderStr =
      .ok (some ec.order) := rfl
  have hcode : ∀ n, primCode k (.bytes n) ≠ none ↔ n ∈ supportedSizes k := by
    intro n
    rw [← primCode_isSome, Option.ne_none_iff_exists']
  have none_fmt : ∀ m : DMap, m.orderStr = .ok (some ec.order) → m.fmt = .ok none →
      m.operation ≠ .error x := by
    intro m h1 h2; unfold DMap.operation; rw [h1, h2]; simp
  by_cases hds : truthyInt info.dataSize = true
  · obtain ⟨ds, hd', hd0⟩ : ∃ ds, info.dataSize = some ds ∧ ds ≠ 0 := by
      unfold truthyInt at hds
      split at hds
      · simp at hds; exact ⟨_, by assumption, hds⟩
      · cases hds
    have hz : ¬ (info.dataSize = none ∨ info.dataSize = some 0) := by simp [hd', hd0]
    cases hs : fixedByteSize s u with
    | none =>
      have hf : (DMap.seq hd info ⟨none, false, none⟩ bsz (.prim ec k s u)).fmt = .ok none := by
        have ht : truthyInt (some ds) = true := hd' ▸ hds
        simp only [DMap.fmt, hk, hd', ht]; rfl
      refine iff_of_false (none_fmt _ rfl hf) ?_
      rintro (⟨-, n, rfl, -, ⟨_, -, -, rfl⟩ | ⟨h, -⟩⟩ | ⟨-, rfl, rfl, -⟩)
      · simp [fixedByteSize] at hs
      · exact hz h
      · simp [fixedByteSize] at hs
    | some es =>
      obtain ⟨n, rfl, rfl, rfl⟩ : ∃ n : Nat, s = .bytes n ∧ u = "bytes" ∧ es = n := by
        unfold fixedByteSize at hs
        split at hs
        · cases hs
        · split at hs
          · rename_i hu; exact ⟨_, rfl, by simpa using hu, by simpa using hs.symm⟩
          · cases hs
      by_cases hn : n = 0
      · subst hn
        have hf : (DMap.seq hd info ⟨some (0 : Nat), false, none⟩ bsz (.prim ec k (.bytes 0) "bytes")).fmt =
            .error .zeroDiv := by
          have ht : truthyInt (some ds) = true := hd' ▸ hds
          simp only [DMap.fmt, hk, hd', ht]; rfl
        unfold DMap.operation
        rw [show (DMap.seq hd info ⟨some (0 : Nat), false, none⟩ bsz (.prim ec k (.bytes 0) "bytes")).orderStr =
          .ok (some ec.order) from rfl, hf]
        simp only [Except.error.injEq]
        constructor
        · rintro rfl; exact .inr ⟨rfl, trivial, trivial, ds, hd', hd0⟩
        · rintro (⟨-, n, h, hs, -⟩ | ⟨rfl, -⟩)
          · cases h; cases k <;> simp [supportedSizes] at hs
          · rfl
      · have hf : (DMap.seq hd info ⟨some (n : Int), false, none⟩ bsz (.prim ec k (.bytes n) "bytes")).fmt =
            .ok (seqFmt (some (Int.fdiv ds n)) ((primCode k (.bytes n)).map fun c => [c.char])) := by
          have ht : truthyInt (some ds) = true := hd' ▸ hds
          simp only [DMap.fmt, hk, hd', ht, if_true]
          rw [if_neg (by omega)]
        rw [count_operation (by rfl) rfl hf x, hcode]
        have hneg : Int.fdiv ds n < 0 ↔ ds < 0 := by
          rw [Int.fdiv_eq_ediv_of_nonneg _ (by omega)]
          have hp : (0 : Int) < n := by omega
          constructor
          · intro h
            apply Int.lt_of_not_ge
            intro h0
            exact absurd (Int.ediv_nonneg h0 (Int.le_of_lt hp)) (by omega)
          · intro h; exact Int.ediv_neg_of_neg_of_pos h hp
        rw [hneg]
        constructor
        · rintro ⟨rfl, h1, h2⟩; exact .inl ⟨rfl, n, rfl, h1, .inl ⟨ds, hd', h2, rfl⟩⟩
        · rintro (⟨rfl, n', h1, h2, ⟨ds', h3, h4, -⟩ | ⟨h, -⟩⟩ | ⟨-, h, -⟩)
          · cases h1; rw [hd'] at h3; cases h3; exact ⟨rfl, h2, h4⟩
          · exact absurd h hz
          · cases h; exact absurd rfl hn
  · have hz : info.dataSize = none ∨ info.dataSize = some 0 := by
      unfold truthyInt at hds
      split at hds
      · simp at hds; subst hds; right; assumption
      · left; assumption
    have hds' : truthyInt info.dataSize = false := by simpa using hds
    cases hc : info.numElements with
    | none =>
      have hf : (DMap.seq hd info ⟨fixedByteSize s u, false, none⟩ bsz (.prim ec k s u)).fmt = .ok none := by
        simp only [DMap.fmt, hk, hds', hc]; rfl
      refine iff_of_false (none_fmt _ rfl hf) ?_
      rintro (⟨-, n, rfl, -, ⟨ds, h, h', -⟩ | ⟨-, h⟩⟩ | ⟨-, -, -, ds, h, h'⟩)
      · rcases hz with hz | hz <;> rw [hz] at h <;> cases h; omega
      · simp at h
      · rcases hz with hz | hz <;> rw [hz] at h <;> cases h; omega
    | some c =>
      have hf : (DMap.seq hd info ⟨fixedByteSize s u, false, none⟩ bsz (.prim ec k s u)).fmt =
          .ok (seqFmt (some c) ((primCode k s).map fun c => [c.char])) := by
        simp only [DMap.fmt, hk, hds', hc]; rfl
      rw [count_operation (by rfl) rfl hf x]
      constructor
      · rintro ⟨rfl, h1, h2⟩
        cases s with
        | native => exact absurd primCode_native h1
        | bytes n => exact .inl ⟨rfl, n, rfl, (hcode n).1 h1, .inr ⟨hz, c, rfl, h2⟩⟩
      · rintro (⟨rfl, n, rfl, h1, ⟨ds, h, h', -⟩ | ⟨-, c', h, h'⟩⟩ | ⟨-, -, -, ds, h, h'⟩)
        · rcases hz with hz | hz <;> rw [hz] at h <;> cases h; omega
        · cases h; exact ⟨rfl, (hcode n).2 h1, h'⟩
        · rcases hz with hz | hz <;> rw [hz] at h <;> cases h; omega

theorem usedAsElement_eq {E : Env} {nm : String} {o eo : Order} {e : Defn} (h : e.order? = some eo) :
    createAs E (if (o ≠ .native && eo = .native && !e.isComposite : Bool) then "_" ++ nm ++ "_" ++ e.name else e.name)
        (if (o ≠ .native && eo = .native && !e.isComposite : Bool) then o else eo) e =
      createAs E (usedAsElement nm o e).1 (usedAsElement nm o e).2 e := by
  unfold usedAsElement usedAs Defn.orderOrNative
  rw [h]
  cases e.isComposite <;> by_cases h1 : o = .native <;> by_cases h2 : eo = .native <;> simp [h1, h2]

theorem createAs_seq_eq {E : Env} {nm : String} {o eo : Order} {h : Hdr} {i : SeqInfo} {e : Defn}
    (ho : e.order? = some eo) :
    createAs E nm o (.seq h i e) =
      match createAs E (usedAsElement nm o e).1 (usedAsElement nm o e).2 e with
      | .error x => .error x
      | .ok em => finishSeq E i (.seq { h with name := nm, order := o } i
          ⟨e.byteSize, e.isComposite, e.terminator?⟩ (Defn.seq h i e).byteSize em)
          ⟨e.byteSize, e.isComposite, e.terminator?⟩ := by
  rw [createAs]
  simp only [ho]
  rw [usedAsElement_eq ho]
  cases createAs E (usedAsElement nm o e).1 (usedAsElement nm o e).2 e <;> rfl

theorem seqLinear_iff {i : SeqInfo} {e : Defn} (hk : i.kind = .sequence) :
    seqLinear i ⟨e.byteSize, e.isComposite, e.terminator?⟩ = true ↔
      FixedCount i ∧ e.isComposite = false := by
  unfold seqLinear
  simp only [Bool.not_eq_true', Bool.or_eq_false_iff, Option.isSome_eq_false_iff, Option.isNone_iff_eq_none]
  constructor
  · rintro ⟨⟨⟨h1, h2⟩, h3⟩, h4⟩; exact ⟨⟨hk, h2, h4, h3⟩, h1⟩
  · rintro ⟨⟨-, h2, h4, h3⟩, h1⟩; exact ⟨⟨⟨h1, h2⟩, h3⟩, h4⟩

theorem exprOk_iff {E : Env} {x : Option String} :
    exprOk E x = true ↔ ∀ s, x = some s → s ≠ "" → E.parses s = true := by
  unfold exprOk
  cases x with
  | none => simp
  | some s => by_cases h : s = "" <;> simp [h]

/-- The checks at the end of the constructor of a sequence map. -/
theorem finishSeq_error {E : Env} {nm : String} {o eo : Order} {h : Hdr} {i : SeqInfo} {e : Defn}
    (ho : e.order? = some eo) {n : String} {o' : Order} {em : DMap} (hem : createAs E n o' e = .ok em) (x : Err) :
    finishSeq E i (.seq { h with name := nm, order := o } i
          ⟨e.byteSize, e.isComposite, e.terminator?⟩ (Defn.seq h i e).byteSize em)
          ⟨e.byteSize, e.isComposite, e.terminator?⟩ = .error x → Fault E x nm o (.seq h i e) := by
  intro hx
  unfold finishSeq at hx
  split at hx
  · rename_i hc
    cases hx
    simp only [Bool.or_eq_true, Bool.not_eq_true', ← Bool.not_eq_true, exprOk_iff] at hc
    have : ∃ s, (i.dataSizeExpr = some s ∨ i.numElementsExpr = some s) ∧ s ≠ "" ∧ E.parses s = false := by
      rcases hc with hc | hc
      · cases hs : i.dataSizeExpr with
        | none => simp [hs] at hc
        | some s => rw [hs] at hc; exact ⟨s, .inl rfl, by simpa using hc⟩
      · cases hs : i.numElementsExpr with
        | none => simp [hs] at hc
        | some s => rw [hs] at hc; exact ⟨s, .inr rfl, by simpa using hc⟩
    obtain ⟨s, h1, h2, h3⟩ := this
    exact .expression h1 h2 h3
  · split at hx
    · rename_i hk
      split at hx
      · rename_i hc; cases hx; exact .composite (by simp [hk]) hc
      · cases hx
    · rename_i enc hk
      split at hx
      · rename_i hc; cases hx; exact .composite (by simp [hk]) hc
      · cases hx
    · rename_i hk
      split at hx
      · rename_i hl
        obtain ⟨hcnt, hnc⟩ := (seqLinear_iff hk).1 hl
        split at hx
        · rename_i y hop
          cases hx
          cases e with
          | prim h' k s u =>
            rw [createAs.eq_def] at hem
            simp only at hem
            split at hem
            · cases hem
            · cases hem
              rcases (prim_operation hk).1 hop with ⟨rfl, n, rfl, hn, ⟨ds, h1, h2, rfl⟩ | ⟨h1, c, h2, h3⟩⟩ |
                ⟨rfl, rfl, rfl, ds, h1, h2⟩
              · exact .negativeSize hcnt h1 h2 hn
              · exact .negativeNumber hcnt h1 h2 h3 hn
              · exact .empty hcnt h1 h2
          | padding h' a =>
            rw [createAs] at hem; cases hem
            cases hop
            exact .paddingElement hcnt
          | member h' d c dt vs =>
            rw [createAs] at hem; cases hem
            exfalso
            simp [DMap.operation, DMap.orderStr, DMap.fmt, hk] at hop
          | constant | enumeration => cases ho
          | uuid | seq | struct | union | format | family | group => cases hnc
        · cases hx
      · cases hx

theorem seq_error {E : Env} {nm : String} {o : Order} {h : Hdr} {i : SeqInfo} {e : Defn} {x : Err}
    (hx : createAs E nm o (.seq h i e) = .error x) :
    Fault E x nm o (.seq h i e) ∨
      createAs E (usedAsElement nm o e).1 (usedAsElement nm o e).2 e = .error x := by
  cases ho : e.order? with
  | none =>
    rw [createAs] at hx
    simp only [ho] at hx
    cases hx
    exact .inl (.elementOrder ho)
  | some eo =>
    rw [createAs_seq_eq ho] at hx
    split at hx
    · cases hx; right; assumption
    · rename_i em hem
      exact .inl (finishSeq_error ho hem x hx)

theorem seq_ok {E : Env} {nm : String} {o : Order} {h : Hdr} {i : SeqInfo} {e : Defn} {m : DMap}
    (hm : createAs E nm o (.seq h i e) = .ok m) :
    (∀ x, ¬ Fault E x nm o (.seq h i e)) ∧
      ∃ em, createAs E (usedAsElement nm o e).1 (usedAsElement nm o e).2 e = .ok em := by
  cases ho : e.order? with
  | none =>
    rw [createAs] at hm
    simp only [ho] at hm
    cases hm
  | some eo =>
    rw [createAs_seq_eq ho] at hm
    split at hm
    · cases hm
    · rename_i em hem
      refine ⟨fun x hf => ?_, em, hem⟩
      unfold finishSeq at hm
      split at hm
      · cases hm
      rename_i hexp
      simp only [Bool.or_eq_true, Bool.not_eq_true', ← Bool.not_eq_true, exprOk_iff, not_or,
        Classical.not_not] at hexp
      have linear : FixedCount i → e.isComposite = false → ∀ y,
          (DMap.seq { h with name := nm, order := o } i ⟨e.byteSize, e.isComposite, e.terminator?⟩
            (Defn.seq h i e).byteSize em).operation ≠ .error y := by
        intro hc hnc y hop
        have hk := hc.sequence
        rw [hk] at hm
        simp only [(seqLinear_iff hk).2 ⟨hc, hnc⟩, if_true, hop] at hm
        cases hm
      cases hf with
      | elementOrder h => rw [h] at ho; cases ho
      | paddingElement hc =>
        rw [createAs] at hem; cases hem
        exact linear hc rfl .attribute rfl
      | @expression _ _ _ _ _ s h1 h2 h3 =>
        rcases h1 with h1 | h1
        · exact absurd (hexp.1 s h1 h2) (by simp [h3])
        · exact absurd (hexp.2 s h1 h2) (by simp [h3])
      | composite h1 h2 =>
        split at hm
        · rw [if_pos h2] at hm; cases hm
        · rw [if_pos h2] at hm; cases hm
        · exact absurd (by assumption) h1
      | @negativeSize _ _ _ _ h' k n ds hc h1 h2 h3 =>
        rw [createAs.eq_def] at hem
        simp only at hem
        split at hem
        · cases hem
        · cases hem
          exact linear hc rfl .format ((prim_operation hc.sequence).2
            (.inl ⟨rfl, n, rfl, h3, .inl ⟨ds, h1, h2, rfl⟩⟩))
      | @negativeNumber _ _ _ _ h' k n u c hc h1 h2 h3 h4 =>
        rw [createAs.eq_def] at hem
        simp only at hem
        split at hem
        · cases hem
        · cases hem
          exact linear hc rfl .format ((prim_operation hc.sequence).2
            (.inl ⟨rfl, n, rfl, h4, .inr ⟨h1, c, h2, h3⟩⟩))
      | @empty _ _ _ _ h' k ds hc h1 h2 =>
        rw [createAs.eq_def] at hem
        simp only at hem
        split at hem
        · cases hem
        · cases hem
          exact linear hc rfl .zeroDiv ((prim_operation hc.sequence).2
            (.inr ⟨rfl, rfl, rfl, ds, h1, h2⟩))

/-! ### Structures -/

theorem typeText_iff {d : Defn} : (memberTypeText d).isSome = true ↔ Described d := by
  cases d with
  | member h d c dt vs =>
    cases d with
    | seq h' i e =>
      simp only [Described, memberTypeText, seqTypeText]
      cases hk : i.kind <;> simp [Option.isSome_iff_ne_none]
    | _ => simp [Described, memberTypeText, Option.isSome_iff_ne_none]
  | seq h i e =>
    simp only [Described, memberTypeText, seqTypeText]
    cases hk : i.kind <;> simp [Option.isSome_iff_ne_none]
  | _ => simp [Described, memberTypeText]

theorem classDoc_iff {nm : String} {ds : Option String} {ms : List Defn} :
    (∃ doc, classDoc nm ds ms = some doc) ↔ ∀ d ∈ ms, Described d := by
  have key : (∃ lines, ms.mapM (fun d => (memberTypeText d).map (attributeLine d)) = some lines) ↔
      ∀ d ∈ ms, Described d := by
    induction ms with
    | nil => simp
    | cons d ms ih =>
      simp only [List.mem_cons, forall_eq_or_imp]
      rw [← ih, ← typeText_iff, List.mapM_cons]
      cases memberTypeText d with
      | none => simp
      | some t =>
        cases ms.mapM (fun d => (memberTypeText d).map (attributeLine d)) <;> simp
  rw [← key]
  unfold classDoc
  simp only [Option.map_eq_some_iff]
  exact ⟨fun ⟨_, l, h, _⟩ => ⟨l, h⟩, fun ⟨l, h⟩ => ⟨_, l, h, rfl⟩⟩

theorem createClass_error {E : Env} {nm : String} {o : Order} {h : Hdr} {ms : List Defn} {x : Err}
    (hx : createClass E nm h.description ms = .error x) : Fault E x nm o (.struct h ms) := by
  by_cases hv : ValidNames E nm (ms.map (·.name))
  · have h1 := validateClass_iff.2 hv
    unfold createClass at hx
    simp only at hx
    rw [show ms.map Defn.name = ms.map (·.name) from rfl, h1] at hx
    simp only at hx
    split at hx
    · rename_i ht
      cases hx
      have hn : ¬ ∀ d ∈ ms, Described d := by
        rw [← classDoc_iff (nm := nm) (ds := h.description), ht]; simp
      have : ∃ d ∈ ms, ¬ Described d := by
        apply Classical.byContradiction
        intro hc
        exact hn fun d hd => Classical.byContradiction fun h' => hc ⟨d, hd, h'⟩
      obtain ⟨d, hd, hn⟩ := this
      exact .undescribed hd hn
    · rename_i doc hdoc
      rw [readDoc_plain hdoc] at hx
      split at hx
      · rename_i e he
        cases hx
        obtain ⟨-, h2, h3, h4⟩ := readDoc_class (E := E) (code := classCode nm (ms.map (·.name))) hdoc
        rcases h4 x he with rfl | rfl
        · obtain ⟨t, ht, hb⟩ := h2 he
          exact .text ht hb
        · obtain ⟨t, ht, hb⟩ := h3 he
          exact .code ht hb
      split at hx
      · rename_i hs
        cases hx
        simp only [Bool.or_eq_true, List.contains_iff_mem, List.mem_map, Bool.not_eq_true',
          List.all_eq_false] at hs
        rcases hs with ⟨d, hd, hn⟩ | ⟨n, hn, hp⟩
        · exact .selfName hd hn
        · exact .self hn (by simpa using hp)
      · cases hx
  · rw [(C46_names E nm h.description ms).2 hv] at hx
    cases hx
    exact .names hv

theorem createClass_ok {E : Env} {nm : String} {ds : Option String} {ms : List Defn} {b : Bool}
    (hx : createClass E nm ds ms = .ok b) : ValidNames E nm (ms.map (·.name)) ∧ (∀ d ∈ ms, Described d) ∧
      (∀ d ∈ ms, d.name ≠ "self") ∧ (∀ n ∈ nm :: ms.map (·.name), E.pyIdent n = true) ∧
      ∀ t, Documented nm ds ms t → Inert E t.toList := by
  refine ⟨(C46_names E nm ds ms).1 b hx, ?_⟩
  unfold createClass at hx
  simp only at hx
  split at hx
  · cases hx
  split at hx
  · cases hx
  rename_i doc hdoc
  rw [readDoc_plain hdoc] at hx
  split at hx
  · cases hx
  rename_i hread
  split at hx
  · cases hx
  rename_i hs
  simp only [Bool.or_eq_true, List.contains_iff_mem, List.mem_map, Bool.not_eq_true',
    not_or, Bool.not_eq_false, List.all_eq_true] at hs
  exact ⟨classDoc_iff.mp ⟨doc, hdoc⟩, fun d hd hn => hs.1 ⟨d, hd, hn⟩, hs.2, (readDoc_class hdoc).1.mp hread⟩

theorem memberNameOrder_eq {nm : String} {o : Order} {d : Defn} :
    memberNameOrder nm o d =
      if o ≠ .native ∧ d.order? = none then .error .attribute else .ok (usedAs nm o d) := by
  unfold memberNameOrder usedAs Defn.orderOrNative
  by_cases ho : o = .native
  · simp [ho]
  · cases hd : d.order? with
    | none => simp [ho]
    | some x => cases x <;> simp [ho]

theorem createMembers_error {E : Env} {nm : String} {o : Order} {h : Hdr} {x : Err} {all ds : List Defn}
    (hsub : ∀ d ∈ ds, d ∈ all) {cache : List (String × DMap)}
    (hx : createMembers E nm o cache ds = .error x) :
    Fault E x nm o (.struct h all) ∨
      ∃ d ∈ all, createAs E (usedAs nm o d.target).1 (usedAs nm o d.target).2 d.target = .error x := by
  induction ds generalizing cache with
  | nil => simp [createMembers] at hx
  | cons d ds ih =>
    rw [createMembers_cons, memberNameOrder_eq] at hx
    by_cases hn : o ≠ .native ∧ d.target.order? = none
    · rw [if_pos hn] at hx
      cases hx
      exact .inl (.memberOrder hn.1 (hsub d (by simp)) hn.2)
    · rw [if_neg hn] at hx
      simp only at hx
      split at hx
      · rename_i y hy
        cases hx
        split at hy
        · cases hy
        · exact .inr ⟨d, hsub d (by simp), hy⟩
      · split at hx
        · rename_i y hy
          cases hx
          exact ih (fun d hd => hsub d (List.mem_cons_of_mem _ hd)) hy
        · cases hx

theorem checkLinear_error {o : Order} {ds : List Defn} {x : Err} (hx : checkLinear o ds = .error x) :
    x = .attribute ∧ ∃ d ∈ ds, d.target.order? = none := by
  induction ds generalizing o with
  | nil => cases hx
  | cons d ds ih =>
    rw [checkLinear.eq_def] at hx
    simp only at hx
    split at hx
    · simp at hx
    split at hx
    · cases hx
    split at hx
    · rename_i ho
      cases hx
      refine ⟨rfl, d, by simp, ?_⟩
      cases d <;> first | exact ho | cases ho
    · split at hx
      · cases hx
      · obtain ⟨h1, d', h2, h3⟩ := ih hx
        exact ⟨h1, d', List.mem_cons_of_mem _ h2, h3⟩

theorem fmts_error {maps : List DMap} {x : Err} (hx : fmts maps = .error x) :
    ∃ m ∈ maps, m ≠ .missing ∧ m.fmt = .error x := by
  induction maps with
  | nil => cases hx
  | cons m maps ih =>
    rw [fmts.eq_def] at hx
    simp only at hx
    split at hx
    · cases hx
    · rename_i hm
      split at hx
      · rename_i y hy; cases hx; exact ⟨m, by simp, hm, hy⟩
      · cases hx
      · split at hx
        · rename_i y hy
          cases hx
          obtain ⟨m', h1, h2⟩ := ih hy
          exact ⟨m', List.mem_cons_of_mem _ h1, h2⟩
        · cases hx
        · cases hx

theorem fmts_chars {maps : List DMap}
    (hp : ∀ m ∈ maps, ∀ f, m.fmt = .ok (some f) → (∃ h k s u, m = .prim h k s u) ∨ m = .missing)
    {f : List Char} (hf : fmts maps = .ok (some f)) : ∃ cs : List Code, f = cs.map Code.char := by
  induction maps generalizing f with
  | nil => cases hf; exact ⟨[], rfl⟩
  | cons m maps ih =>
    rw [fmts.eq_def] at hf
    simp only at hf
    split at hf
    · cases hf
    · rename_i hne
      split at hf
      · cases hf
      · cases hf
      · rename_i g hg
        split at hf
        · cases hf
        · cases hf
        · rename_i g' hg'
          cases hf
          obtain ⟨cs, rfl⟩ := ih (fun m hm => hp m (List.mem_cons_of_mem _ hm)) hg'
          rcases hp m (by simp) g hg with ⟨h, k, s, u, rfl⟩ | rfl
          · simp only [DMap.fmt, Except.ok.injEq, Option.map_eq_some_iff] at hg
            obtain ⟨c, -, rfl⟩ := hg
            exact ⟨c :: cs, rfl⟩
          · exact absurd rfl hne

theorem struct_error {E : Env} {nm : String} {o : Order} {h : Hdr} {ms : List Defn} {x : Err}
    (hx : createAs E nm o (.struct h ms) = .error x) :
    Fault E x nm o (.struct h ms) ∨ Doubtful x nm o (.struct h ms) ∨
      ∃ d ∈ ms, createAs E (usedAs nm o d.target).1 (usedAs nm o d.target).2 d.target = .error x := by
  rw [createAs] at hx
  split at hx
  · rename_i y hy; cases hx; exact .inl (createClass_error hy)
  rename_i io hio
  split at hx
  · rename_i y hy
    cases hx
    rcases createMembers_error (h := h) (fun d hd => hd) hy with h1 | h1
    · exact .inl h1
    · exact .inr (.inr h1)
  rename_i infos maps hmem
  have doubt : (∃ d ∈ ms, d.target.order? = none) →
      Fault E .attribute nm o (.struct h ms) ∨ Doubtful .attribute nm o (.struct h ms) := by
    rintro ⟨d, hd, hn⟩
    by_cases ho : o = .native
    · subst ho; exact .inr (.member hd hn)
    · exact .inl (.memberOrder ho hd hn)
  split at hx
  · rename_i y hy
    cases hx
    obtain ⟨rfl, hd⟩ := checkLinear_error hy
    rcases doubt hd with h1 | h1
    · exact .inl h1
    · exact .inr (.inl h1)
  rename_i l hl
  unfold finishStruct at hx
  cases l with
  | false => simp at hx
  | true =>
    simp only [if_true] at hx
    split at hx
    · rename_i y hop
      cases hx
      have hlin := checkLinear_true hl
      -- every map is the one of a primitive or semantic type
      have hmaps := (createMembers_all E nm o (fun m => (∃ h k s u, m = .prim h k s u) ∨ m = .missing ∨
        (m.fmt = .error .attribute ∧ ∃ d ∈ ms, d.target.order? = none) ∨ ∃ h a, m = .padding h a) ms
        (by
          intro d hd n o' m hm
          have hnc := (hlin d hd).2.1
          generalize hd' : d.target = t at hm hnc
          cases t with
          | prim h' k s u =>
            rw [createAs.eq_def] at hm
            simp only at hm
            split at hm
            · cases hm
            · cases hm; exact .inl ⟨_, _, _, _, rfl⟩
          | member => rw [createAs] at hm; cases hm; exact .inr (.inl rfl)
          | constant => rw [createAs] at hm; cases hm; exact .inr (.inr (.inl ⟨rfl, d, hd, by rw [hd']; rfl⟩))
          | enumeration => rw [createAs] at hm; cases hm; exact .inr (.inr (.inl ⟨rfl, d, hd, by rw [hd']; rfl⟩))
          | padding => rw [createAs] at hm; cases hm; exact .inr (.inr (.inr ⟨_, _, rfl⟩))
          | uuid | seq | struct | union | format | family | group => cases hnc)
        [] (by simp) infos maps hmem).2.2
      unfold DMap.operation at hop
      rw [show (DMap.struct { h with name := nm, order := o } (Defn.struct h ms).byteSize true io infos
        maps).orderStr = .ok (some o) from rfl, show (DMap.struct { h with name := nm, order := o }
        (Defn.struct h ms).byteSize true io infos maps).fmt = fmts maps from by rw [DMap.fmt]] at hop
      simp only at hop
      split at hop
      · rename_i z hz
        cases hop
        obtain ⟨m, hm, hmm, hfm⟩ := fmts_error hz
        rcases hmaps m hm with ⟨h', k, s, u, rfl⟩ | rfl | ⟨hf, hd⟩ | ⟨h', a, rfl⟩
        · cases hfm
        · exact absurd rfl hmm
        · rw [hf] at hfm
          cases hfm
          rcases doubt hd with h1 | h1
          · exact .inl h1
          · exact .inr (.inl h1)
        · cases hfm
      · cases hop
      · cases hop
      · rename_i c f hz
        exfalso
        have : ∃ cs : List Code, c :: f = cs.map Code.char := by
          refine fmts_chars ?_ hz
          intro m hm f hf
          rcases hmaps m hm with ⟨h', k, s, u, rfl⟩ | rfl | ⟨hf', -⟩ | ⟨h', a, rfl⟩
          · exact .inl ⟨_, _, _, _, rfl⟩
          · exact .inr rfl
          · rw [hf'] at hf; cases hf
          · cases hf
        obtain ⟨cs, hcs⟩ := this
        rw [hcs] at hop
        simp only [mkOp, parseCodes_chars] at hop
        cases hop
    · cases hx

theorem All2.leftOf {α β : Type} {R : α → β → Prop} {as : List α} {bs : List β} (h : All2 R as bs) :
    ∀ a ∈ as, ∃ b, R a b := by
  induction h with
  | nil => simp
  | cons h _ ih =>
    intro a ha
    rcases List.mem_cons.1 ha with rfl | ha
    · exact ⟨_, h⟩
    · exact ih a ha

theorem struct_ok {E : Env} {nm : String} {o : Order} {h : Hdr} {ms : List Defn} {m : DMap}
    (hdt : DistinctTypes ms) (hm : createAs E nm o (.struct h ms) = .ok m) :
    (∀ x, ¬ Fault E x nm o (.struct h ms)) ∧
      ∀ d ∈ ms, ∃ md, createAs E (usedAs nm o d.target).1 (usedAs nm o d.target).2 d.target = .ok md := by
  obtain ⟨io, infos, maps, l, hcls, hmem, hlin, rfl, -⟩ := createAs_struct hm
  have hmo := (createMembers_mapOf E nm o ms hdt ms (fun d hd => hd) [] (by simp) _ _ hmem).leftOf
  have hmo' : ∀ d ∈ ms, ¬ (o ≠ .native ∧ d.target.order? = none) ∧
      ∃ md, createAs E (usedAs nm o d.target).1 (usedAs nm o d.target).2 d.target = .ok md := by
    intro d hd
    obtain ⟨md, n, o', h1, h2⟩ := hmo d hd
    rw [memberNameOrder_eq] at h1
    split at h1
    · cases h1
    · rename_i hn
      injection h1 with h1
      rw [h1]
      exact ⟨hn, md, h2⟩
  refine ⟨?_, fun d hd => (hmo' d hd).2⟩
  obtain ⟨h1, h2, h3, h4, h5⟩ := createClass_ok hcls
  intro x hf
  cases hf with
  | names h => exact h h1
  | undescribed h h' => exact h' (h2 _ h)
  | self h h' => rw [h4 _ h] at h'; cases h'
  | selfName h h' => exact h3 _ h h'
  | text h h' => exact h'.elim (h5 _ h).noNull fun h' => h' (h5 _ h).legal
  | code h h' => exact h' (h5 _ h).stays
  | memberOrder h h' h'' => exact (hmo' _ h').1 ⟨h, h''⟩

/-! ### Groups -/

theorem addKeys_error {keys vs : List Lit} {x : Err} (hx : addKeys keys vs = .error x) :
    (x = .type ∧ ∃ v ∈ vs, v.isHashable = false) ∨
      (x = .format ∧ ∃ (q : Nat) (v : Lit), vs[q]? = some v ∧ ((∃ k ∈ keys, litEq k v = true) ∨
        ∃ (p : Nat) (w : Lit), p < q ∧ vs[p]? = some w ∧ litEq w v = true)) := by
  induction vs generalizing keys with
  | nil => cases hx
  | cons v vs ih =>
    rw [addKeys] at hx
    split at hx
    · rename_i hh
      cases hx
      exact .inl ⟨rfl, v, by simp, by simpa using hh⟩
    · split at hx
      · rename_i ha
        cases hx
        simp only [List.any_eq_true] at ha
        exact .inr ⟨rfl, 0, v, rfl, .inl ha⟩
      · rcases ih hx with ⟨rfl, w, hw, hh⟩ | ⟨rfl, q, w, hq, hk⟩
        · exact .inl ⟨rfl, w, List.mem_cons_of_mem _ hw, hh⟩
        · refine .inr ⟨rfl, q + 1, w, by simpa using hq, ?_⟩
          rcases hk with ⟨k, hk, he⟩ | ⟨p, u, hp, hu, he⟩
          · rcases List.mem_append.1 hk with hk | hk
            · exact .inl ⟨k, hk, he⟩
            · simp only [List.mem_singleton] at hk
              subst hk
              exact .inr ⟨0, k, by omega, rfl, he⟩
          · exact .inr ⟨p + 1, u, by omega, by simpa using hu, he⟩

theorem addKeys_ok {keys vs ks : List Lit} (hx : addKeys keys vs = .ok ks) :
    ks = keys ++ vs ∧ ∀ v ∈ vs, v.isHashable = true := by
  induction vs generalizing keys with
  | nil => cases hx; simp
  | cons v vs ih =>
    rw [addKeys] at hx
    split at hx
    · cases hx
    rename_i hh
    split at hx
    · cases hx
    obtain ⟨h1, h2⟩ := ih hx
    refine ⟨by rw [h1]; simp, ?_⟩
    intro w hw
    rcases List.mem_cons.1 hw with rfl | hw
    · simpa using hh
    · exact h2 w hw

theorem groupValues_error {E : Env} {nm : String} {o : Order} {h : Hdr} {b : Defn} {i : String}
    {df : Option Defn} {ms : List Defn} {g : Defn} (hg : g ∈ ms) {x : Err}
    (hx : groupValues i g = .error x) : Fault E x nm o (.group h b i df ms) := by
  unfold groupValues at hx
  have hmb : ∀ {r}, memberByName g i = .ok r → Identifier? i g r := by
    intro r hr
    unfold memberByName at hr
    split at hr
    · cases hr; exact ⟨_, _, .inl rfl, rfl⟩
    · cases hr; exact ⟨_, _, .inr rfl, rfl⟩
    · cases hr
  split at hx
  · rename_i y hy
    cases hx
    unfold memberByName at hy
    split at hy
    · cases hy
    · cases hy
    · rename_i h1 h2
      cases hy
      exact .noStructure hg fun h xs => ⟨h1 h xs, h2 h xs⟩
  · rename_i hy; cases hx; exact .noIdentifier hg (hmb hy)
  · rename_i hy; cases hx; exact .noValues hg (hmb hy)
  · cases hx
  · rename_i d hn hv hy
    cases hx
    refine .badIdentifier hg (hmb hy) ?_
    rintro mh t c dt (_ | vs) rfl
    · exact hn _ _ _ _ rfl
    · exact hv _ _ _ _ _ rfl

theorem createGroup_error {E : Env} {nm : String} {o : Order} {h : Hdr} {b : Defn} {ident : String}
    {df : Option Defn} {ms : List Defn} {pre gs : List Defn} (hms : ms = pre ++ gs) {keys : List Lit}
    (hk : ∀ k ∈ keys, ∃ (j : Nat) (g : Defn) (vs : List Lit) (p : Nat), j < pre.length ∧
      ms[j]? = some g ∧ IdentifierValues ident g vs ∧ vs[p]? = some k) {x : Err}
    (hx : createGroup E ident keys gs = .error x) :
    Fault E x nm o (.group h b ident df ms) ∨
      ∃ g ∈ ms, ∃ vs, IdentifierValues ident g vs ∧ vs ≠ [] ∧
        createAs E g.name g.orderOrNative g = .error x := by
  induction gs generalizing pre keys with
  | nil => simp [createGroup] at hx
  | cons g gs ih =>
    have hg : g ∈ ms := by rw [hms]; simp
    have hgi : ms[pre.length]? = some g := by rw [hms]; simp
    have hms' : ms = (pre ++ [g]) ++ gs := by rw [hms]; simp
    have hkw : ∀ k ∈ keys, ∃ (j : Nat) (g' : Defn) (vs : List Lit) (p : Nat), j < (pre ++ [g]).length ∧
        ms[j]? = some g' ∧ IdentifierValues ident g' vs ∧ vs[p]? = some k := by
      intro k hk'
      obtain ⟨j, g', vs, p, h1, h2⟩ := hk k hk'
      exact ⟨j, g', vs, p, by simp; omega, h2⟩
    rw [createGroup] at hx
    split at hx
    · rename_i y hy; cases hx; exact .inl (groupValues_error hg hy)
    · exact ih hms' hkw hx
    · rename_i v vs hvs
      have hiv := groupValues_iff.1 hvs
      have key : ∀ {ws : List Lit} {y : Err}, addKeys keys ws = .error y →
          (∀ (p : Nat) (w : Lit), ws[p]? = some w → (v :: vs)[p]? = some w) → Fault E y nm o (.group h b ident df ms) := by
        intro ws y hy hsub
        rcases addKeys_error hy with ⟨rfl, w, hw, hh⟩ | ⟨rfl, q, w, hq, ⟨k, hk', he⟩ | ⟨p, u, hp, hu, he⟩⟩
        · obtain ⟨p, hp⟩ := List.mem_iff_getElem?.1 hw
          exact .unhashable hg hiv (List.mem_of_getElem? (hsub p w hp)) hh
        · obtain ⟨j, g', us, p, h1, h2, h3, h4⟩ := hk k hk'
          exact .duplicate ⟨j, pre.length, g', g, us, v :: vs, p, q, h2, hgi, h3, hiv, h4, hsub q w hq,
            .inl (by omega)⟩ ((litEq_iff _ _).1 he)
        · exact .duplicate ⟨pre.length, pre.length, g, g, v :: vs, v :: vs, p, q, hgi, hgi, hiv, hiv,
            hsub p u hu, hsub q w hq, .inr (by omega)⟩ ((litEq_iff _ _).1 he)
      split at hx
      · rename_i y hy
        cases hx
        refine .inl (key hy ?_)
        intro p w hp
        cases p with
        | zero => simpa using hp
        | succ p => simp at hp
      · split at hx
        · rename_i y hy; cases hx; exact .inr ⟨g, hg, _, hiv, by simp, hy⟩
        · split at hx
          · rename_i y hy; cases hx; exact .inl (key hy fun _ _ h => h)
          · rename_i keys' hks
            split at hx
            · rename_i y hy
              cases hx
              refine ih hms' ?_ hy
              rw [(addKeys_ok hks).1]
              intro k hk'
              rcases List.mem_append.1 hk' with hk' | hk'
              · exact hkw k hk'
              · obtain ⟨p, hp⟩ := List.mem_iff_getElem?.1 hk'
                exact ⟨pre.length, g, _, p, by simp, hgi, hiv, hp⟩
            · cases hx

theorem group_error {E : Env} {nm : String} {o : Order} {h : Hdr} {b : Defn} {ident : String}
    {df : Option Defn} {ms : List Defn} {x : Err}
    (hx : createAs E nm o (.group h b ident df ms) = .error x) :
    Fault E x nm o (.group h b ident df ms) ∨ createAs E b.name b.orderOrNative b = .error x ∨
      (∃ d, df = some d ∧ createAs E d.name d.orderOrNative d = .error x) ∨
      ∃ g ∈ ms, ∃ vs, IdentifierValues ident g vs ∧ vs ≠ [] ∧
        createAs E g.name g.orderOrNative g = .error x := by
  rw [createAs] at hx
  split at hx
  · rename_i y hy
    cases hx
    cases df with
    | none => cases hy
    | some d =>
      rw [createOpt] at hy
      split at hy
      · cases hy; exact .inr (.inr (.inl ⟨d, rfl, by assumption⟩))
      · cases hy
  split at hx
  · rename_i y hy; cases hx; exact .inr (.inl hy)
  split at hx
  · rename_i he
    cases hx
    have : ms = [] := by simpa using he
    subst this
    exact .inl .noMembers
  split at hx
  · rename_i y hy
    cases hx
    rcases createGroup_error (E := E) (nm := nm) (o := o) (h := h) (b := b) (df := df) (pre := []) rfl
      (by simp) hy with h1 | h1
    · exact .inl h1
    · exact .inr (.inr (.inr h1))
  · cases hx

theorem createGroup_hashable {E : Env} {ident : String} {ms : List Defn} {keys ks : List Lit}
    {maps : List DMap} (h : createGroup E ident keys ms = .ok (ks, maps)) :
    ∀ g ∈ ms, ∀ vs, IdentifierValues ident g vs → ∀ v ∈ vs, v.isHashable = true := by
  induction ms generalizing keys ks maps with
  | nil => simp
  | cons g gs ih =>
    have first : ∀ ws, groupValues ident g = .ok ws → (∀ v ∈ ws, v.isHashable = true) →
        ∀ vs, IdentifierValues ident g vs → ∀ v ∈ vs, v.isHashable = true := by
      intro ws hws hh vs hvs
      rw [groupValues_iff] at hws
      rw [hvs.unique hws]
      exact hh
    rw [createGroup] at h
    split at h
    · cases h
    · rename_i hv
      intro g' hg'
      rcases List.mem_cons.1 hg' with rfl | hg'
      · exact first [] hv (by simp)
      · exact ih h g' hg'
    · rename_i v vs hv
      split at h
      · cases h
      split at h
      · cases h
      split at h
      · cases h
      rename_i keys' hks
      split at h
      · cases h
      rename_i hr
      intro g' hg'
      rcases List.mem_cons.1 hg' with rfl | hg'
      · exact first _ hv (addKeys_ok hks).2
      · exact ih hr g' hg'

theorem allValues_values {E : Env} {ident : String} {ms : List Defn} {r : List (Lit × DMap)}
    (h : allValues E ident ms r) : ∀ g ∈ ms, ∃ vs, IdentifierValues ident g vs := by
  induction ms generalizing r with
  | nil => simp
  | cons g gs ih =>
    obtain ⟨vs, rest, h1, h2, -⟩ := h
    intro g' hg'
    rcases List.mem_cons.1 hg' with rfl | hg'
    · exact ⟨vs, h1⟩
    · exact ih h2 g' hg'

theorem group_ok {E : Env} {nm : String} {o : Order} {h : Hdr} {b : Defn} {ident : String}
    {df : Option Defn} {ms : List Defn} {m : DMap}
    (hm : createAs E nm o (.group h b ident df ms) = .ok m) :
    (∀ x, ¬ Fault E x nm o (.group h b ident df ms)) ∧
      (∃ bm, createAs E b.name b.orderOrNative b = .ok bm) ∧
      (∀ d, df = some d → ∃ dm, createAs E d.name d.orderOrNative d = .ok dm) ∧
      ∀ g ∈ ms, ∀ vs, IdentifierValues ident g vs → vs ≠ [] →
        ∃ gm, createAs E g.name g.orderOrNative g = .ok gm := by
  obtain ⟨dm, bm, keys, maps, hdm, hbm, hne, hgr, rfl⟩ := createAs_group hm
  obtain ⟨r, h1, h2, h3, h4⟩ := createGroup_spec hgr .nil
  have hhash := createGroup_hashable hgr
  have hvals := allValues_values h1
  refine ⟨?_, ⟨bm, hbm⟩, ?_, ?_⟩
  · have hid : ∀ g ∈ ms, ∀ x, Identifier? ident g x → ∃ mh t c dt vs, x = some (.member mh t c dt (some vs)) := by
      rintro g hg x ⟨h, xs, hgx, hf⟩
      obtain ⟨vs, h', xs', mh, t, c, dt, hgx', hf'⟩ := hvals g hg
      have : xs = xs' := by
        rcases hgx with rfl | rfl <;> rcases hgx' with hq | hq <;> cases hq <;> rfl
      subst this
      rw [hf] at hf'
      exact ⟨mh, t, c, dt, vs, hf'⟩
    intro x hf
    cases hf with
    | noMembers => exact hne rfl
    | noStructure hg hn =>
      obtain ⟨vs, h', xs', mh, t, c, dt, hgx' | hgx', hf'⟩ := hvals _ hg
      · exact (hn _ _).1 hgx'
      · exact (hn _ _).2 hgx'
    | noIdentifier hg hn =>
      obtain ⟨_, _, _, _, _, h⟩ := hid _ hg _ hn; cases h
    | noValues hg hn =>
      obtain ⟨_, _, _, _, _, h⟩ := hid _ hg _ hn; cases h
    | badIdentifier hg hn hb =>
      obtain ⟨_, _, _, _, _, h⟩ := hid _ hg _ hn
      injection h with h
      exact hb _ _ _ _ _ h
    | unhashable hg hv hm hh => rw [hhash _ hg _ hv _ hm] at hh; cases hh
    | duplicate hd ha =>
      rw [h2] at h4
      rw [← litEq_iff] at ha
      rw [allValues_distinct h1 (by simpa using h4) hd] at ha
      cases ha
  · rintro d rfl
    rw [createOpt] at hdm
    split at hdm
    · cases hdm
    · exact ⟨_, by assumption⟩
  · intro g hg vs hvs hne
    obtain ⟨v, vs', rfl⟩ := List.exists_cons_of_ne_nil hne
    obtain ⟨gm, hgm, -⟩ := allValues_mem h1 hg hvs (List.mem_cons_self ..)
    exact ⟨gm, hgm⟩

/-! ### C67 -/

theorem twice {p : Prop} (h : p) : p ∧ p := ⟨h, h⟩

theorem leaf_cause {E : Env} {nm : String} {o : Order} {d : Defn} {x : Err}
    (hd : match d with | .seq _ _ _ | .struct _ _ | .group _ _ _ _ _ => False | _ => True)
    (hx : createAs E nm o d = .error x) : Fault E x nm o d := by
  cases d with
  | prim h k s u =>
    rw [createAs.eq_def] at hx
    simp only at hx
    split at hx
    · cases hx; exact .boolean
    · cases hx
  | seq | struct | group => exact hd.elim
  | uuid | padding | union | constant | enumeration | format | family | member =>
    rw [createAs] at hx; cases hx

theorem leaf_ok {E : Env} {nm : String} {o : Order} {d : Defn} {m : DMap}
    (hd : match d with | .seq _ _ _ | .struct _ _ | .group _ _ _ _ _ => False | _ => True)
    (hm : createAs E nm o d = .ok m) {nm' : String} {o' : Order} {d' : Defn}
    (hn : Needs nm o d nm' o' d') (x : Err) : ¬ Fault E x nm' o' d' := by
  intro hf
  cases d with
  | prim h k s u =>
    cases hn
    cases hf
    rw [createAs] at hm; cases hm
  | seq | struct | group => exact hd.elim
  | uuid | padding | union | constant | enumeration | format | family | member => cases hn; cases hf

theorem cause {E : Env} (d : Defn) :
    ∀ nm o x, createAs E nm o d = .error x →
      ∃ nm' o' d', Needs nm o d nm' o' d' ∧ (Fault E x nm' o' d' ∨ Doubtful x nm' o' d') := by
  suffices h : (∀ nm o x, createAs E nm o d = .error x →
      ∃ nm' o' d', Needs nm o d nm' o' d' ∧ (Fault E x nm' o' d' ∨ Doubtful x nm' o' d')) ∧
    (∀ nm o x, createAs E nm o d.target = .error x →
      ∃ nm' o' d', Needs nm o d.target nm' o' d' ∧ (Fault E x nm' o' d' ∨ Doubtful x nm' o' d')) from h.1
  induction d using Defn.ind with
  | seq h i e ih =>
    refine twice ?_
    intro nm o x hx
    rcases seq_error hx with hf | he
    · exact ⟨_, _, _, .itself, .inl hf⟩
    · obtain ⟨nm', o', d', hn, hf⟩ := ih.1 _ _ _ he
      exact ⟨_, _, _, .element hn, hf⟩
  | struct h ms ih =>
    refine twice ?_
    intro nm o x hx
    rcases struct_error hx with hf | hf | ⟨d, hd, he⟩
    · exact ⟨_, _, _, .itself, .inl hf⟩
    · exact ⟨_, _, _, .itself, .inr hf⟩
    · obtain ⟨nm', o', d', hn, hf⟩ := (ih d hd).2 _ _ _ he
      exact ⟨_, _, _, .member hd hn, hf⟩
  | group h b i df ms ihb ihd ihm =>
    refine twice ?_
    intro nm o x hx
    rcases group_error hx with hf | he | ⟨d, hd, he⟩ | ⟨g, hg, vs, hvs, hne, he⟩
    · exact ⟨_, _, _, .itself, .inl hf⟩
    · obtain ⟨nm', o', d', hn, hf⟩ := ihb.1 _ _ _ he
      exact ⟨_, _, _, .base hn, hf⟩
    · obtain ⟨nm', o', d', hn, hf⟩ := (ihd d hd).1 _ _ _ he
      subst hd
      exact ⟨_, _, _, .default hn, hf⟩
    · obtain ⟨nm', o', d', hn, hf⟩ := (ihm g hg).1 _ _ _ he
      exact ⟨_, _, _, .variant hg hvs hne hn, hf⟩
  | member h d c dt vs ih =>
    exact ⟨fun nm o x hx => ⟨_, _, _, .itself, .inl (leaf_cause trivial hx)⟩, ih.1⟩
  | prim | uuid | padding | union | constant | enumeration | format | family =>
    refine twice ?_
    intro nm o x hx
    exact ⟨_, _, _, .itself, .inl (leaf_cause trivial hx)⟩

theorem faultless {E : Env} (d : Defn) :
    ∀ nm o m, createAs E nm o d = .ok m →
      (∀ nm' o' h ms, Needs nm o d nm' o' (.struct h ms) → DistinctTypes ms) →
      ∀ nm' o' d' x, Needs nm o d nm' o' d' → ¬ Fault E x nm' o' d' := by
  suffices h : (∀ nm o m, createAs E nm o d = .ok m →
      (∀ nm' o' h ms, Needs nm o d nm' o' (.struct h ms) → DistinctTypes ms) →
      ∀ nm' o' d' x, Needs nm o d nm' o' d' → ¬ Fault E x nm' o' d') ∧
    (∀ nm o m, createAs E nm o d.target = .ok m →
      (∀ nm' o' h ms, Needs nm o d.target nm' o' (.struct h ms) → DistinctTypes ms) →
      ∀ nm' o' d' x, Needs nm o d.target nm' o' d' → ¬ Fault E x nm' o' d') from h.1
  induction d using Defn.ind with
  | seq h i e ih =>
    refine twice ?_
    intro nm o m hm hdt nm' o' d' x hn
    obtain ⟨h1, em, hem⟩ := seq_ok hm
    cases hn with
    | itself => exact h1 x
    | element hn => exact ih.1 _ _ _ hem (fun _ _ _ _ h => hdt _ _ _ _ (.element h)) _ _ _ x hn
  | struct h ms ih =>
    refine twice ?_
    intro nm o m hm hdt nm' o' d' x hn
    obtain ⟨h1, h2⟩ := struct_ok (hdt _ _ _ _ .itself) hm
    cases hn with
    | itself => exact h1 x
    | member hd hn =>
      obtain ⟨md, hmd⟩ := h2 _ hd
      exact (ih _ hd).2 _ _ _ hmd (fun _ _ _ _ h => hdt _ _ _ _ (.member hd h)) _ _ _ x hn
  | group h b i df ms ihb ihd ihm =>
    refine twice ?_
    intro nm o m hm hdt nm' o' d' x hn
    obtain ⟨h1, ⟨bm, hbm⟩, h3, h4⟩ := group_ok hm
    cases hn with
    | itself => exact h1 x
    | base hn => exact ihb.1 _ _ _ hbm (fun _ _ _ _ h => hdt _ _ _ _ (.base h)) _ _ _ x hn
    | default hn =>
      obtain ⟨dm, hdm⟩ := h3 _ rfl
      exact (ihd _ rfl).1 _ _ _ hdm (fun _ _ _ _ h => hdt _ _ _ _ (.default h)) _ _ _ x hn
    | variant hg hvs hne hn =>
      obtain ⟨gm, hgm⟩ := h4 _ hg _ hvs hne
      exact (ihm _ hg).1 _ _ _ hgm (fun _ _ _ _ h => hdt _ _ _ _ (.variant hg hvs hne h)) _ _ _ x hn
  | member h d c dt vs ih =>
    exact ⟨fun nm o m hm _ nm' o' d' x hn => leaf_ok trivial hm hn x, ih.1⟩
  | prim | uuid | padding | union | constant | enumeration | format | family =>
    refine twice ?_
    intro nm o m hm _ nm' o' d' x hn
    exact leaf_ok trivial hm hn x

/-- Every error CreateDataTypeMapByType raises has a cause in the definition or in
one whose map it needs: a fault that causes this error, or a structure without byte
order with a member of a type that has none at all (AttributeError). -/
theorem C67_cause (E : Env) (d : Defn) (x : Err) (hx : createMap E d = .error x) :
    ∃ nm o d', Needs d.name d.orderOrNative d nm o d' ∧
      (Fault E x nm o d' ∨ Doubtful x nm o d') :=
  cause d _ _ _ hx

/-- If CreateDataTypeMapByType returns, the definition and the ones whose maps it
needs have no faults, provided members with the same type name have the same type. -/
theorem C67_faultless (E : Env) (d : Defn) (m : DMap) (hm : createMap E d = .ok m)
    (hdt : ∀ nm o h ms, Needs d.name d.orderOrNative d nm o (.struct h ms) → DistinctTypes ms)
    (nm : String) (o : Order) (d' : Defn) (hn : Needs d.name d.orderOrNative d nm o d') (x : Err) :
    ¬ Fault E x nm o d' :=
  faultless d _ _ m hm hdt nm o d' x hn

/-- So CreateDataTypeMapByType returns exactly for definitions without faults, if
in addition no structure is doubtful. -/
theorem C67_exact (E : Env) (d : Defn)
    (hdt : ∀ nm o h ms, Needs d.name d.orderOrNative d nm o (.struct h ms) → DistinctTypes ms)
    (hdb : ∀ nm o d' x, Needs d.name d.orderOrNative d nm o d' → ¬ Doubtful x nm o d') :
    (∃ m, createMap E d = .ok m) ↔
      ∀ nm o d' x, Needs d.name d.orderOrNative d nm o d' → ¬ Fault E x nm o d' := by
  constructor
  · rintro ⟨m, hm⟩ nm o d' x hn
    exact C67_faultless E d m hm hdt nm o d' hn x
  · intro hf
    cases hm : createMap E d with
    | ok m => exact ⟨m, rfl⟩
    | error x =>
      obtain ⟨nm, o, d', hn, h | h⟩ := C67_cause E d x hm
      · exact absurd h (hf nm o d' x hn)
      · exact absurd h (hdb nm o d' x hn)

/-- The errors are FormatError, ValueError, TypeError, SyntaxError, AttributeError
and ZeroDivisionError, unless a text ends the literal it is put into. -/
theorem C67_errors (E : Env) (d : Defn) (x : Err) (hx : createMap E d = .error x) :
    x ∈ [Err.format, .value, .type, .syntax, .attribute, .zeroDiv] ∨
      x = .other ∧ ∃ nm o h ms t, Needs d.name d.orderOrNative d nm o (.struct h ms) ∧
        Documented nm h.description ms t ∧ ¬ Stays 0 (t.toList ++ ['.']) := by
  obtain ⟨nm, o, d', hn, h | h⟩ := C67_cause E d x hx
  · cases h with
    | code h1 h2 => exact .inr ⟨rfl, nm, o, _, _, _, hn, h1, h2⟩
    | _ => exact .inl (by simp)
  · cases h; exact .inl (by simp)

/-- An enumeration of one value and a member of this type. -/
def exEnum : Defn := .enumeration { name := "enum" } [⟨"one", .int 1, []⟩]
def exEnumMember : Defn := .member { name := "e" } exEnum none (some "enum") none

def exTwoBytes : Defn :=
  .seq { name := "data" } { kind := .stream, elementDataType := some "uint8", dataSize := some 2 } exU8

/-- A structure without byte order with an enumeration is doubtful: alone, the
enumeration makes map creation raise AttributeError, beside a stream it does not. -/
theorem C67_doubtful :
    createMap exEnv (.struct { name := "S" } [exEnumMember]) = .error .attribute ∧
    (∃ m, createMap exEnv (.struct { name := "S" } [exEnumMember, exTwoBytes]) = .ok m) ∧
    Doubtful .attribute "S" .native (.struct { name := "S" } [exEnumMember]) ∧
    Doubtful .attribute "S" .native (.struct { name := "S" } [exEnumMember, exTwoBytes]) :=
  ⟨rfl, ⟨_, rfl⟩, .member (x := exEnumMember) (by simp) rfl, .member (x := exEnumMember) (by simp) rfl⟩

/-- A Boolean without values that is called like the type of another member. -/
def exBadBool : Defn := .prim { name := "uint8" } (.boolean none none) (.bytes 1) "bytes"

/-- When members with the same type name have different types, a fault can go
unnoticed: the map of the first type is used for both. -/
theorem C67_same_name : ∃ m, createMap exEnv (.struct { name := "S" }
      [exMem "a" exU8 none, exMem "b" exBadBool none]) = .ok m ∧
    Needs "S" .native (.struct { name := "S" } [exMem "a" exU8 none, exMem "b" exBadBool none])
      "uint8" .native exBadBool ∧
    Fault exEnv .format "uint8" .native exBadBool :=
  ⟨_, rfl, .member (x := exMem "b" exBadBool none) (by simp) .itself, .boolean⟩

/-- `enumeration e { one = 1 }` and `sequence e s[2]` as documents. -/
def docEnum : Yaml := doc [("name", .str "e"), ("type", .str "enumeration"),
  ("values", .list [doc [("name", .str "one"), ("number", .int 1)]])]
def docEnums : Yaml := doc [("name", .str "s"), ("type", .str "sequence"), ("element_data_type", .str "e"),
  ("number_of_elements", .int 2)]

/-- The errors are not only FormatError, as documented, even for definitions the
reader accepts: a sequence of enumeration values raises AttributeError. -/
theorem C67_format_refuted :
    (readFileObject exEnvR {} { docs := [docEnum, docEnums] }).1 = .ok () ∧
    (readFileObject exEnvR {} { docs := [docEnum, docEnums] }).2.createDataTypeMap exEnvR "s" =
      .error .attribute := ⟨rfl, rfl⟩

/-- Faults and their errors. -/
example : createMap exEnv exBadBool = .error .format ∧
    createMap exEnv (.seq { name := "b" } { kind := .sequence, elementDataType := some "uint16", numElements := some (-1) } exU16) =
      .error .format ∧
    createMap exEnv (.seq { name := "b" } { kind := .stream, elementDataType := some "uuid", numElements := some 1 } exUuid) =
      .error .format ∧
    createMap exEnv (.struct { name := "class" } [exMem "a" exU8 none]) = .error .value ∧
    createMap exEnv (.struct { name := "S" } [exMem "self" exU8 none]) = .error .syntax ∧
    createMap exEnv (.struct { name := "S", order := .big } [exEnumMember]) = .error .attribute ∧
    createMap exEnv (exGroup none []) = .error .format ∧
    createMap exEnv (exGroup none [exOne, exOne]) = .error .format ∧
    createMap exEnv (exGroup none [exBase]) = .error .format :=
  ⟨rfl, rfl, rfl, rfl, rfl, rfl, rfl, rfl, rfl⟩

/-- The conditions of `C67_exact` are met by a group of structures; it has a map. -/
example : (∀ nm o h ms, Needs "g" .native (exGroup none [exOne, exTwo]) nm o (.struct h ms) → DistinctTypes ms) ∧
    (∀ nm o d' x, Needs "g" .native (exGroup none [exOne, exTwo]) nm o d' → ¬ Doubtful x nm o d') ∧
    ∃ m, createMap exEnv (exGroup none [exOne, exTwo]) = .ok m := by
  have key : ∀ nm o d', Needs "g" .native (exGroup none [exOne, exTwo]) nm o d' →
      d' = exGroup none [exOne, exTwo] ∨ d' = exBase ∨ d' = exOne ∨ d' = exTwo ∨ d' = exU8 ∨ d' = exU16 := by
    intro nm o d' hn
    cases hn with
    | itself => simp
    | base hn =>
      cases hn with
      | itself => simp
      | member hd hn =>
        simp only [List.mem_cons, List.not_mem_nil, or_false] at hd
        subst hd
        cases hn; simp [exMem, Defn.target]
    | variant hg _ _ hn =>
      simp only [List.mem_cons, List.not_mem_nil, or_false] at hg
      rcases hg with rfl | rfl
      · cases hn with
        | itself => simp
        | member hd hn =>
          simp only [List.mem_cons, List.not_mem_nil, or_false] at hd
          rcases hd with rfl | rfl <;> cases hn <;> simp [exMem, Defn.target]
      · cases hn with
        | itself => simp
        | member hd hn =>
          simp only [List.mem_cons, List.not_mem_nil, or_false] at hd
          rcases hd with rfl | rfl <;> cases hn <;> simp [exMem, Defn.target]
  refine ⟨?_, ?_, _, rfl⟩
  · intro nm o h ms hn
    rcases key _ _ _ hn with h | h | h | h | h | h <;> cases h <;>
      simp [DistinctTypes, exMem, exU8, exU16, Defn.target, Defn.name, Defn.hdr]
  · intro nm o d' x hn hd
    cases hd with
    | member hx ho =>
      rcases key _ _ _ hn with h | h | h | h | h | h <;> cases h <;>
        simp only [List.mem_cons, List.not_mem_nil, or_false] at hx
      · subst hx; cases ho
      · rcases hx with rfl | rfl <;> cases ho
      · rcases hx with rfl | rfl <;> cases ho

end Dtf
