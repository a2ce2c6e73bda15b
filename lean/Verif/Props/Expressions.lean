import Verif.Hint
import Verif.Props.Sequences
import Verif.Props.Streams
/-!
# Properties C49 and C51: the values expressions can use
-/
namespace Dtf

/-! ### C49: the values of the caller -/

namespace Spec

/-- The values are the same but for the entry `__builtins__`. -/
def SameValues (a b : Namespace) : Prop := ∀ k, k ≠ "__builtins__" → nsGet a k = nsGet b k

end Spec
open Spec

theorem nsGet_nsSet_ne {ns : Namespace} {k n : String} {v : Val} (h : k ≠ n) :
    nsGet (nsSet ns n v) k = nsGet ns k := by
  unfold nsGet nsSet
  split
  · congr 1
    rename_i hany
    clear hany
    induction ns with
    | nil => rfl
    | cons p ns ih =>
      simp only [List.map_cons, List.find?_cons]
      by_cases hp : p.1 = n
      · have h1 : (p.1 == n) = true := by simpa using hp
        have h2 : (n == k) = false := by simpa using h.symm
        have h3 : (p.1 == k) = false := by rw [hp]; exact h2
        simp only [h1, if_true, h2, h3]
        exact ih
      · have h1 : (p.1 == n) = false := by simpa using hp
        simp only [h1, Bool.false_eq_true, if_false]
        rw [ih]
  · rw [List.find?_append]
    simp [h.symm]

theorem sameValues_refl (a : Namespace) : SameValues a a := fun _ _ => rfl

theorem sameValues_builtins (a : Namespace) : SameValues (withBuiltins a) a :=
  fun _ hk => nsGet_nsSet_ne hk

/-- An expression tells the number of elements. -/
def countsByExpr : DMap → Bool
  | .seq _ info _ _ _ => truthyStr info.numElementsExpr
  | _ => false

/-- The two ways in which context values are left. -/
def Left (info : SeqInfo) (after before : Namespace) : Prop :=
  after = before ∨ (truthyStr info.numElementsExpr = true ∧ after = withBuiltins before)

theorem left_after (info : SeqInfo) (ns : Namespace) : Left info (valuesAfterNum info ns) ns := by
  unfold valuesAfterNum
  split
  · exact .inl rfl
  · split
    · rename_i h; exact .inr ⟨h, rfl⟩
    · exact .inl rfl

theorem calcDataSize_left (E : Env) (info : SeqInfo) (ei : ElemInfo) (c : Ctx) :
    Left info (calcDataSize E info ei c).2.values c.values := by
  unfold calcDataSize
  repeat' split
  all_goals first | exact .inl rfl | exact left_after info c.values

theorem streamMap_left (E : Env) (info : SeqInfo) (ei : ElemInfo) (bs : Bytes) (off : Nat) (c : Ctx) :
    Left info (streamMap E info ei bs off c).2.values c.values := by
  have h := calcDataSize_left E info ei c
  unfold streamMap
  generalize calcDataSize E info ei c = r at h ⊢
  obtain ⟨r, c'⟩ := r
  cases r with
  | error e => exact h
  | ok size =>
    simp only at h ⊢
    repeat' split
    all_goals exact h

theorem stringMap_left (E : Env) (enc : String) (info : SeqInfo) (ei : ElemInfo) (bs : Bytes) (off : Nat)
    (c : Ctx) : Left info (stringMap E enc info ei bs off c).2.values c.values := by
  have h := streamMap_left E info ei bs off c
  unfold stringMap
  generalize streamMap E info ei bs off c = r at h ⊢
  obtain ⟨r, c'⟩ := r
  cases r with
  | error e => exact h
  | ok size =>
    simp only at h ⊢
    repeat' split
    all_goals exact h

theorem seqRules_left (E : Env) (info : SeqInfo) (ei : ElemInfo) (ns : Namespace) :
    Left info (seqRules E info ei ns).2 ns := by
  unfold seqRules
  simp only
  have hr : ∀ r : Except Err (Option Int × Option Lit × Option Int) × Namespace, r =
      (if info.hasDataSize then
        match evalDataSize E info ns with
        | .error e => (.error e, ns)
        | .ok n =>
          match ei.byteSize with
          | some es =>
            if es = 0 then (.error .zeroDiv, ns) else (.ok (some n, none, some (Int.fdiv n es)), ns)
          | none =>
            match ei.terminator with
            | none => (.error .attribute, ns)
            | some t => (.ok (some n, t, none), ns)
      else if info.terminator.isSome then (.ok (none, info.terminator, none), ns)
      else if info.hasNumElements then
        match countable (evalNumElements E info ns) with
        | .error e => (.error e, valuesAfterNum info ns)
        | .ok n => (.ok (none, none, some n), valuesAfterNum info ns)
      else (.ok (none, none, none), ns)) → Left info r.2 ns := by
    rintro r rfl
    repeat' split
    all_goals first | exact .inl rfl | exact left_after info ns
  split
  · rename_i h; have h := hr _ h.symm; exact h
  · exact hr _ rfl

theorem compositeSeqMap_left (E : Env) (info : SeqInfo) (ei : ElemInfo) (step : Nat → Ctx → Res)
    (bs : Bytes) (off depth : Nat) (c : Ctx) :
    Left info (compositeSeqMap E info ei step bs off depth c).2.values c.values := by
  have h := seqRules_left E info ei c.values
  unfold compositeSeqMap
  split
  · exact .inl rfl
  · generalize seqRules E info ei c.values = r at h ⊢
    obtain ⟨r, c'⟩ := r
    cases r with
    | error e => exact h
    | ok x =>
      obtain ⟨x, y, z⟩ := x
      simp only at h ⊢
      repeat' split
      all_goals exact h

theorem mapStream_values (E : Env) (m : DMap) (bs : Bytes) (off depth : Nat) (c : Ctx) :
    (mapStream E m bs off depth c).2.values = c.values ∨
      (countsByExpr m = true ∧ (mapStream E m bs off depth c).2.values = withBuiltins c.values) := by
  cases m with
  | missing => left; rw [mapStream]
  | prim h k s u =>
    left; rw [mapStream]; unfold primMap; repeat' split
    all_goals rfl
  | uuid h s u =>
    left; rw [mapStream]; unfold uuidMap; simp only; repeat' split
    all_goals rfl
  | padding h a =>
    left; rw [mapStream]; unfold paddingMap; simp only; repeat' split
    all_goals rfl
  | constant h => left; rw [mapStream]
  | enumeration h vs => left; rw [mapStream]
  | format h l => left; rw [mapStream]
  | seq h info ei bsz e =>
    show Left info _ _
    rw [mapStream]
    split
    · have := streamMap_left E info ei bs off c
      generalize streamMap E info ei bs off c = r at this ⊢
      obtain ⟨r, c'⟩ := r
      cases r <;> exact this
    · exact stringMap_left ..
    · split
      · unfold linearSeqMap
        simp only
        repeat' split
        all_goals exact .inl rfl
      · exact compositeSeqMap_left ..
  | struct h bsz l io infos maps =>
    left
    rw [mapStream]
    split
    · unfold linearStructMap
      simp only
      repeat' split
      all_goals rfl
    · simp only
      repeat' split
      all_goals rfl
  | group h ident base dflt keys maps =>
    left
    rw [mapStream]
    have hr : ∀ r : Except Err Val × Ctx, r =
        (match c.memberIdentifier with
        | some id => (.ok id, c)
        | none =>
          match mapStream E base bs off depth (c.sub.getD {}) with
          | (.error .tooSmall, sub) => (.error .tooSmall, { c with sub := some sub })
          | (.error e, sub) => (.error (wrapErr e), { c with sub := c.sub.map fun _ => sub })
          | (.ok v, sub) =>
            let c := { c with sub := c.sub.map fun _ => sub }
            match getAttr v ident with
            | .pyNone => (.error .mapping, c)
            | id => (.ok id, { c with memberIdentifier := some id })) → r.2.values = c.values := by
      rintro r rfl
      repeat' split
      all_goals rfl
    simp only
    split
    · rename_i h; exact hr _ h.symm
    · rename_i h
      have := hr _ h.symm
      simp only at this
      repeat' split
      all_goals exact this

/-- Mapping, whether it succeeds or not and whatever the state of the context,
leaves the values of the context as they were, except that it may add the entry
`__builtins__`. -/
theorem C49_map_partial (E : Env) (m : DMap) (bs : Bytes) (off depth : Nat) (c : Ctx) :
    SameValues (mapStream E m bs off depth c).2.values c.values := by
  rcases mapStream_values E m bs off depth c with h | ⟨-, h⟩ <;> rw [h]
  · exact sameValues_refl _
  · exact sameValues_builtins _

/-- The exception concerns only sequences, streams and strings whose number of
elements is given by an expression. -/
theorem C49_map_exact_partial (E : Env) (m : DMap) (bs : Bytes) (off depth : Nat) (c : Ctx)
    (hm : ∀ h info ei b e, m = .seq h info ei b e → info.numElementsExpr = none) :
    (mapStream E m bs off depth c).2.values = c.values := by
  rcases mapStream_values E m bs off depth c with h | ⟨h, -⟩
  · exact h
  · cases m with
    | seq hd info ei b e => simp [countsByExpr, hm _ _ _ _ _ rfl, truthyStr] at h
    | _ => simp [countsByExpr] at h

/-- The same for GetSizeHint. -/
theorem C49_hint_partial (E : Env) (m : DMap) (c : Ctx) :
    SameValues (getSizeHint E m c).2.values c.values := by
  unfold getSizeHint hintValues
  simp only
  repeat' split
  · exact sameValues_refl _
  · rcases left_after _ c.values with h | ⟨-, h⟩ <;> rw [h]
    · exact sameValues_refl _
    · exact sameValues_builtins _
  · exact sameValues_refl _

/-- GetSizeHint adds nothing when no number of elements is given by an expression,
when the context has the size of a value or of the elements, or when the number of
elements is known from a mapping that was begun. -/
theorem C49_hint_exact_partial (E : Env) (m : DMap) (c : Ctx)
    (hm : (∀ h info ei b e, m = .seq h info ei b e → info.numElementsExpr = none) ∨
      c.byteSize ≠ none ∨ (∃ n, c.elementsDataSize = some n ∧ n ≠ 0) ∨ c.numberOfElements ≠ none) :
    (getSizeHint E m c).2.values = c.values := by
  unfold getSizeHint hintValues
  simp only
  split
  · rename_i info _ _ _
    split
    · rfl
    · rename_i hc
      rcases hm with hm | hm | ⟨n, hn, h0⟩ | hm
      · rcases left_after info c.values with h | ⟨h, -⟩
        · exact h
        · simp [hm _ _ _ _ _ rfl, truthyStr] at h
      · exact absurd (by simp [Option.isSome_iff_ne_none.2 hm]) hc
      · exact absurd (by simp [hn, truthyInt, h0]) hc
      · exact absurd (by simp [Option.isSome_iff_ne_none.2 hm]) hc
  · rfl

/-- A stream of `n` bytes, where `n` is a value of the context. -/
def exCount : Defn := .seq { name := "S" } { kind := .stream, numElementsExpr := some "n" } exU8

def exEnvN : Env := { exEnv with evalExpr := fun s ns => if s = "n" then nsGet ns "n" else none }

/-- The claim itself is false: mapping a stream with an expression for the number
of elements adds `__builtins__` to the values of the caller, and so does asking for
a size hint. -/
theorem C49_refuted : ∃ m, createMap exEnvN exCount = .ok m ∧
    (mapStream exEnvN m [1, 2, 3] 0 0 { values := [("n", .int 2)] }).1 = .ok (.bytes [1, 2]) ∧
    (mapStream exEnvN m [1, 2, 3] 0 0 { values := [("n", .int 2)] }).2.values =
      [("n", .int 2), ("__builtins__", .other 0)] ∧
    (getSizeHint exEnvN m { values := [("n", .int 2)] }).2.values =
      [("n", .int 2), ("__builtins__", .other 0)] :=
  ⟨_, rfl, rfl, rfl, rfl⟩

/-! ### C51: the structure under its own name -/

namespace Spec

/-- The text is an expression whose value is computed by `f` from the member `a` of
the structure `T`. -/
def Reads (E : Env) (text T a : String) (f : Val → Option Val) : Prop :=
  ∀ ns t, nsGet ns T = some t → E.evalExpr text ns = f (getAttr t a)

end Spec

theorem nsGet_nsUpdate_ne {ns other : Namespace} {k : String} (h : nsGet other k = none) :
    nsGet (nsUpdate ns other) k = nsGet ns k := by
  unfold nsUpdate
  induction other generalizing ns with
  | nil => rfl
  | cons p other ih =>
    have hk : k ≠ p.1 := by
      rintro rfl
      simp [nsGet] at h
    have : nsGet other k = none := by
      unfold nsGet at h ⊢
      rw [List.find?_cons_of_neg (by simpa using hk.symm)] at h
      exact h
    rw [List.foldl_cons, ih this, nsGet_nsSet_ne hk]

/-- What an expression after the members `pre` sees under the name of the structure
agrees with the mapped object on the members before it. -/
theorem scope_own {nm : String} {names : List String} {vpre rest : List Val} {outer : Namespace}
    {pre post : List Defn} (hnames : names = (pre ++ post).map Defn.name) (hnd : names.Nodup)
    (hl : vpre.length = pre.length) (hb : nm ≠ "__builtins__") (ho : nsGet outer nm = none)
    (a : Defn) (ha : a ∈ pre) :
    ∃ t, nsGet (withBuiltins (scope nm names vpre outer)) nm = some t ∧
      getAttr t a.name = getAttr (.struct nm (fill names (vpre ++ rest))) a.name := by
  refine ⟨.struct nm (fill names vpre), ?_, ?_⟩
  · unfold withBuiltins scope
    rw [nsGet_nsSet_ne hb, nsGet_nsUpdate_ne ho]
    simp [nsGet]
  · obtain ⟨p1, p2, rfl⟩ := List.append_of_mem ha
    subst hnames
    simp only [List.map_append, List.map_cons, List.append_assoc, List.cons_append] at hnd ⊢
    obtain ⟨v1, v2, rfl, hv1⟩ : ∃ v1 v2, vpre = v1 ++ v2 ∧ v1.length = p1.length :=
      ⟨vpre.take p1.length, vpre.drop p1.length, by simp, by simp at hl ⊢; omega⟩
    cases v2 with
    | nil => simp at hl; omega
    | cons x v2 =>
      simp only [getAttr, List.append_assoc, List.cons_append]
      rw [fill_get _ _ _ _ _ _ (by simpa using hv1) hnd, fill_get _ _ _ _ _ _ (by simpa using hv1) hnd]

/-- A condition that computes `f` of an earlier member, written with the name of the
structure, is `f` of the value that member is mapped to. Missing for the full claim:
the map must be the one under the structure's own name, and the values of the context
must not contain that name. -/
theorem C51_condition_partial (E : Env) (o : Order) (h : Hdr) (pre post : List Defn) (d a : Defn)
    (ha : a ∈ pre) (hdt : DistinctTypes (pre ++ d :: post)) (cond : String) (f : Val → Option Val)
    (hcd : d.memInfo.condition = some cond) (hne : cond ≠ "")
    (hread : Reads E cond h.name a.name f) (hnb : h.name ≠ "__builtins__") (m : DMap)
    (hm : createAs E h.name o (.struct h (pre ++ d :: post)) = .ok m)
    (bs : Bytes) (off depth : Nat) (c : Ctx) (hc : c.Clean) (ho : nsGet c.values h.name = none)
    (v : Val) (hv : (mapStream E m bs off depth c).1 = .ok v) :
    f (getAttr v a.name) = some (.bool true) ∨
      (f (getAttr v a.name) = some (.bool false) ∧ getAttr v d.name = .pyNone) := by
  obtain ⟨n, vs, vpre, p, -, rfl, hpre, hor⟩ :=
    C18_gate E h.name o h pre post d hdt cond hcd hne m hm bs off depth c hc v hv _ rfl
  have hnd : ((pre ++ d :: post).map Defn.name).Nodup := by
    obtain ⟨io, infos, maps, l, hcls, -⟩ := createAs_struct hm
    exact (createClass_nodup hcls).1
  obtain ⟨r1, hr1, hrl⟩ := Layout.prefix hpre
  have hvl : vpre.length = pre.length := by rw [hr1]; simp [hrl]
  rcases hor with ⟨he, md, x, k, -, -, -, -, hpost⟩ | ⟨he, hn, hpost⟩
  · left
    obtain ⟨rest, rfl, -⟩ := Layout.prefix hpost
    obtain ⟨t, ht, hta⟩ := scope_own (rest := [x] ++ rest) rfl hnd hvl hnb ho a ha
    rw [hread _ _ ht, hta] at he
    simpa using he
  · right
    obtain ⟨rest, rfl, -⟩ := Layout.prefix hpost
    obtain ⟨t, ht, hta⟩ := scope_own (rest := [.pyNone] ++ rest) rfl hnd hvl hnb ho a ha
    rw [hread _ _ ht, hta] at he
    exact ⟨by simpa using he, hn⟩

/-- A stream whose data size is such an expression has as many bytes as the
expression says, and a sequence whose number of elements is such an expression has
as many elements. -/
theorem C51_size_partial (E : Env) (o : Order) (h : Hdr) (pre post : List Defn) (d a : Defn)
    (ha : a ∈ pre) (hdt : DistinctTypes (pre ++ d :: post)) (text : String) (f : Val → Option Val)
    (hd : Hdr) (info : SeqInfo) (e : Defn) (hseq : d.target = .seq hd info e) (hne : text ≠ "")
    (hread : Reads E text h.name a.name f) (hnb : h.name ≠ "__builtins__") (m : DMap)
    (hm : createAs E h.name o (.struct h (pre ++ d :: post)) = .ok m)
    (bs : Bytes) (off depth : Nat) (c : Ctx) (hc : c.Clean) (ho : nsGet c.values h.name = none)
    (v : Val) (hv : (mapStream E m bs off depth c).1 = .ok v)
    (hpresent : getAttr v d.name ≠ .pyNone) (k : Int) (hk : f (getAttr v a.name) = some (.int k)) :
    (info.kind = .stream → info.dataSize = none → info.dataSizeExpr = some text →
      ∃ b, getAttr v d.name = .bytes b ∧ (b.length : Int) = k) ∧
    (info.kind = .sequence → info.numElements = none → info.numElementsExpr = some text →
      info.dataSize = none → info.dataSizeExpr = none → info.terminator = none →
      ∃ xs, getAttr v d.name = .tuple xs ∧ (xs.length : Int) = k) := by
  have hoo : OneOrder E o (pre ++ d :: post) := by
    intro hh
    have := (hh d (by simp)).1
    cases d <;> simp_all [Defn.target, Defn.isComposite]
  obtain ⟨vs, n, hl, hlen, rfl, hb⟩ := C16_layout E h.name o h _ hdt hoo m hm bs off depth c hc v hv
  have hnd : ((pre ++ d :: post).map Defn.name).Nodup := by
    obtain ⟨io, infos, maps, l, hcls, -⟩ := createAs_struct hm
    exact (createClass_nodup hcls).1
  obtain ⟨vpre, p, hpre, h2⟩ := Layout.append hl
  obtain ⟨r1, hr1, hrl⟩ := Layout.prefix hpre
  have hvl : vpre.length = pre.length := by rw [hr1]; simp [hrl]
  have hget : ∀ x rest, vs = vpre ++ x :: rest →
      getAttr (.struct h.name (fill ((pre ++ d :: post).map Defn.name) vs)) d.name = x := by
    rintro x rest rfl
    rw [List.map_append, List.map_cons] at hnd ⊢
    rw [getAttr, fill_get _ _ _ _ _ _ (by simpa using hvl) hnd]
    rfl
  cases h2 with
  | absent hp h2 =>
    obtain ⟨rest, hr, -⟩ := Layout.prefix h2
    exact absurd (hget .pyNone rest (by simp [hr])) hpresent
  | @present _ _ _ _ _ _ sz md x hp hmd hx _ hs h2 =>
    obtain ⟨rest, hr, -⟩ := Layout.prefix h2
    have hx' := hget x rest (by simp [hr])
    obtain ⟨t, ht, hta⟩ := scope_own (rest := [x] ++ rest) rfl hnd hvl hnb ho a ha
    have hvs : vpre ++ ([x] ++ rest) = vs := by simp [hr]
    rw [hvs] at hta
    have hev : E.evalExpr text (withBuiltins (scope h.name ((pre ++ d :: post).map Defn.name) vpre
        c.values)) = some (.int k) := by rw [hread _ _ ht, hta, hk]
    obtain ⟨n1, o1, -, hcm⟩ := hmd
    rw [hseq] at hcm
    rw [hx']
    constructor
    · intro hkind hds hdx
      obtain ⟨h1, h2⟩ := C20_sized_stream E n1 o1 hd info hkind e md hcm bs p (depth + 1)
        { values := scope h.name ((pre ++ d :: post).map Defn.name) vpre c.values } (Ctx.clean_fresh _)
      by_cases hk0 : 0 ≤ k
      · obtain ⟨h3, h4⟩ := h1 k hk0 (.inl ⟨hk0, .inr ⟨hds, text, _, hdx, hne, hev, .int⟩⟩)
        by_cases hle : (p : Int) + k ≤ bs.length
        · rw [(h3 hle).1] at hx
          cases hx
          refine ⟨_, rfl, ?_⟩
          simp only [window, List.length_take, List.length_drop]
          omega
        · rw [h4 (by omega)] at hx
          cases hx
      · have hneg : Negative (.finite (k * 2 ^ 1074)) :=
          Int.mul_neg_of_neg_of_pos (by omega) (Int.pow_pos (by decide))
        rw [h2 (.inl ⟨by simp [hdx], .inr ⟨.inl hds, .inr (.inr ⟨text, hdx, .inr (.inl ⟨_, _, hev, .int, hneg⟩)⟩)⟩⟩)] at hx
        cases hx
    · intro hkind hnum hnx hds hdx hterm
      by_cases hk0 : 0 ≤ k
      · exact C17_count E n1 o1 hd info hkind e md hcm bs p (depth + 1) _ (Ctx.clean_fresh _) x hx hds hdx
          hterm k ⟨hk0, .inr ⟨hnum, text, _, hnx, hne, hev, .int⟩⟩
      · exfalso
        obtain ⟨sz', hp', -⟩ := mapStream_ok (Ctx.clean_fresh _) hx
        obtain ⟨_, _, _, vs', _, rfl, -, -, -, -, hl⟩ := seq_parse hkind hcm bs p (depth + 1) _ _ _ hp'
        rcases hl with ⟨-, -, hl⟩ | ⟨-, _, _, _, hr, -⟩
        · have := hl (by rw [hds]; rfl)
          rw [hnum] at this
          cases this
        · have hne' : evalNumElements E info (scope h.name ((pre ++ d :: post).map Defn.name) vpre c.values) =
              .error .mapping := by
            simp only [evalNumElements, hnum, truthyInt, Bool.false_eq_true, if_false, hnx, evalSize]
            rw [if_neg (by simpa using hne), hev]
            simp only [checkSize]
            rw [if_pos (by omega)]
          have h1 : info.hasDataSize = false := by simp [SeqInfo.hasDataSize, hds, hdx]
          have h2 : info.hasNumElements = true := by simp [SeqInfo.hasNumElements, hnx]
          simp only [seqRules, h1, h2, hterm, Bool.false_eq_true, if_false, Option.isSome_none, if_true, hne'] at hr
          cases hr

/-- `struct Q { uint8 a; stream s of Q.a bytes; }` and a structure that declares a
byte order and has it as member. -/
def exOwn : Defn :=
  .struct { name := "Q" }
    [.member { name := "a" } exU8 none (some "uint8") none,
      .seq { name := "s" } { kind := .stream, dataSizeExpr := some "Q.a" } exU8]

def exOuter : Defn :=
  .struct { name := "P", order := .little } [.member { name := "q" } exOwn none (some "Q") none]

def exEnvQ : Env :=
  { exEnv with
    evalExpr := fun s ns => if s = "Q.a" then (nsGet ns "Q").map fun t => getAttr t "a" else none }

/-- The conditions of C51_size_partial are met by the example. -/
example : Reads exEnvQ "Q.a" "Q" "a" some ∧ ∃ h ms m, exOwn = .struct h ms ∧ DistinctTypes ms ∧
    createMap exEnvQ exOwn = .ok m ∧
    (mapStream exEnvQ m [2, 7, 8, 9] 0 0 {}).1 = .ok (.struct "Q" [("a", .int 2), ("s", .bytes [7, 8])]) := by
  refine ⟨?_, _, _, _, rfl, ?_, rfl, rfl⟩
  · intro ns t h; simp [exEnvQ, h]
  · simp [DistinctTypes, Defn.target, Defn.name, Defn.hdr, exU8]

example : Reads exEnvE "T.a == 1" "T" "a" (fun v => some (.bool (pyEq v (.int 1)))) := by
  intro ns t h; simp [exEnvE, h]

/-- The claim is false where the structure is used as member of a structure that
declares a byte order: the expression `Q.a` of the structure can not be evaluated
there. It is also false when the values of the context contain the name. -/
theorem C51_refuted : ∃ m mo, createMap exEnvQ exOwn = .ok m ∧ createMap exEnvQ exOuter = .ok mo ∧
    (mapStream exEnvQ m [2, 7, 8] 0 0 {}).1 = .ok (.struct "Q" [("a", .int 2), ("s", .bytes [7, 8])]) ∧
    (mapStream exEnvQ mo [2, 7, 8] 0 0 {}).1 = .error .mapping ∧
    (mapStream exEnvQ m [2, 7, 8] 0 0 { values := [("Q", .struct "Q" [("a", .int 1)])] }).1 =
      .ok (.struct "Q" [("a", .int 2), ("s", .bytes [7])]) :=
  ⟨_, _, rfl, rfl, rfl, rfl, rfl⟩

end Dtf
