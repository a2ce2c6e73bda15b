import Verif.VariableMap
/-!
# Property C83: a structure can grow at its end
-/
namespace Dtf

namespace Spec

mutual
/-- The expressions of a definition that can use the values of the structures around it.
Elements of sequences and the structures of a group can not. -/
def namesUsedBy : Defn → List String
  | .seq _ i _ => i.dataSizeExpr.toList ++ i.numElementsExpr.toList
  | .struct _ ms => namesUsedByAll ms
  | .member _ d c _ _ => c.toList ++ namesUsedBy d
  | _ => []
termination_by structural d => d
/-- The same for the members of a structure. -/
def namesUsedByAll : List Defn → List String
  | [] => []
  | d :: ds => namesUsedBy d ++ namesUsedByAll ds
termination_by structural ds => ds
end

/-- The names in structures within structures, the innermost first: structure objects under
the names of their types, replaced by those of the structures around them. -/
def inside : List (String × List (String × Val)) → Namespace → Namespace
  | [], ns => ns
  | (n, attrs) :: fs, ns => nsUpdate [(n, .struct n attrs)] (inside fs ns)

/-- The expression `e` has the same value with the names `ns` as with the names `ns'`, also
in structures within. -/
def Indifferent (E : Env) (ns ns' : Namespace) (e : String) : Prop :=
  ∀ fs, E.evalExpr e (withBuiltins (inside fs ns)) = E.evalExpr e (withBuiltins (inside fs ns'))

/-- No expression of the members `ms` of structure `cls` notices the members `more` added to
the structure, which are `None` while `ms` are read. -/
def Unnoticed (E : Env) (cls : String) (outer : Namespace) (ms more : List Defn) : Prop :=
  ∀ e ∈ namesUsedByAll ms, ∀ read : List Val,
    Indifferent E (scope cls (ms.map Defn.name) read outer) (scope cls ((ms ++ more).map Defn.name) read outer) e

end Spec
open Spec

theorem Spec.Indifferent.inner {E : Env} {ns ns' : Namespace} {e : String} (h : Indifferent E ns ns' e) (cls : String)
    (attrs : List (String × Val)) : Indifferent E (structNs cls attrs ns) (structNs cls attrs ns') e := by
  intro fs
  have hi : ∀ ns, inside (fs ++ [(cls, attrs)]) ns = inside fs (structNs cls attrs ns) := by
    intro ns
    induction fs with
    | nil => rfl
    | cons f fs ih => obtain ⟨n, a⟩ := f; simp only [List.cons_append, inside, ih]
  have := h (fs ++ [(cls, attrs)])
  rwa [hi, hi] at this

theorem evalSize_indifferent {E : Env} {kd : SeqKind} {ns ns' : Namespace} {x : Option String}
    (h : ∀ e ∈ x.toList, Indifferent E ns ns' e) : evalSize E kd x ns = evalSize E kd x ns' := by
  cases x with
  | none => rfl
  | some s =>
    have := h s (by simp) []
    simp only [inside] at this
    simp only [evalSize, this]

theorem evalDataSize_indifferent {E : Env} {ns ns' : Namespace} {i : SeqInfo}
    (h : ∀ e ∈ i.dataSizeExpr.toList, Indifferent E ns ns' e) : evalDataSize E i ns = evalDataSize E i ns' := by
  simp only [evalDataSize, evalSize_indifferent h]

theorem evalNumElements_indifferent {E : Env} {ns ns' : Namespace} {i : SeqInfo}
    (h : ∀ e ∈ i.numElementsExpr.toList, Indifferent E ns ns' e) : evalNumElements E i ns = evalNumElements E i ns' := by
  simp only [evalNumElements, evalSize_indifferent h]

theorem streamParse_indifferent {E : Env} {ns ns' : Namespace} {i : SeqInfo} {ei : ElemInfo} {bs : Bytes} {off : Nat}
    (h1 : evalDataSize E i ns = evalDataSize E i ns') (h2 : evalNumElements E i ns = evalNumElements E i ns') :
    streamParse E i ei bs off ns = streamParse E i ei bs off ns' := by
  have : streamSize E i ei ns = streamSize E i ei ns' := by simp only [streamSize, h1, h2]
  simp only [streamParse, this]

theorem seqRules_indifferent {E : Env} {ns ns' : Namespace} {i : SeqInfo} {ei : ElemInfo}
    (h1 : evalDataSize E i ns = evalDataSize E i ns') (h2 : evalNumElements E i ns = evalNumElements E i ns') :
    (seqRules E i ei ns).1 = (seqRules E i ei ns').1 := by
  simp only [seqRules, h1, h2]
  by_cases hd : i.hasDataSize = true
  · simp only [if_pos hd]
    cases evalDataSize E i ns' with
    | error e => rfl
    | ok n =>
      simp only
      cases ei.byteSize with
      | none =>
        cases ei.terminator with
        | none => rfl
        | some t => cases t <;> rfl
      | some es => by_cases hz : es = 0 <;> simp only [hz, if_true, if_false]
  simp only [if_neg hd]
  by_cases ht : i.terminator.isSome = true
  · simp only [if_pos ht]
    cases i.terminator <;> rfl
  simp only [if_neg ht]
  by_cases hn : i.hasNumElements = true
  · simp only [if_pos hn]
    cases countable (evalNumElements E i ns') <;> rfl
  · simp only [if_neg hn]

theorem evalCondition_indifferent {E : Env} {ns ns' : Namespace} {i : MemInfo}
    (h : ∀ e ∈ i.condition.toList, Indifferent E ns ns' e) : evalCondition E i ns = evalCondition E i ns' := by
  unfold evalCondition
  cases hc : i.condition with
  | none => rfl
  | some c =>
    have := h c (by simp [hc]) []
    simp only [inside] at this
    simp only [Option.bind_some, this]

/-- What a map does whose expressions do not tell `ns` from `ns'`. -/
def Unmoved (E : Env) (S : List String) (m : DMap) : Prop :=
  ∀ bs off depth ns ns', (∀ e ∈ S, Indifferent E ns ns' e) → parse E m bs off depth ns = parse E m bs off depth ns'

theorem parseMembers_unmoved {E : Env} {S : List String} {cls : String} {bs : Bytes} {depth : Nat} {ns ns' : Namespace}
    (hS : ∀ e ∈ S, Indifferent E ns ns' e) (infos : List MemInfo) (maps : List DMap)
    (hi : ∀ i ∈ infos, ∀ e ∈ i.condition.toList, e ∈ S) (hm : ∀ m ∈ maps, Unmoved E S m) (off used : Nat)
    (attrs : List (String × Val)) :
    parseMembers E cls bs depth ns infos maps off used attrs =
      parseMembers E cls bs depth ns' infos maps off used attrs := by
  induction maps generalizing infos off used attrs with
  | nil => simp only [parseMembers]
  | cons m maps ih =>
    cases infos with
    | nil => simp only [parseMembers]
    | cons i infos =>
      have hin : ∀ e ∈ S, Indifferent E (structNs cls attrs ns) (structNs cls attrs ns') e :=
        fun e he => (hS e he).inner cls attrs
      have ih := ih infos (fun j hj => hi j (by simp [hj])) (fun j hj => hm j (by simp [hj]))
      rw [parseMembers, parseMembers]
      simp only [evalCondition_indifferent fun e he => hin e (hi i (by simp) e he),
        hm m (by simp) bs off (depth + 1) _ _ hin, ih]

theorem namesUsedBy_mem {ms : List Defn} {d : Defn} (hd : d ∈ ms) {e : String} (he : e ∈ namesUsedBy d) :
    e ∈ namesUsedByAll ms := by
  induction ms with
  | nil => cases hd
  | cons x xs ih =>
    simp only [namesUsedByAll, List.mem_append]
    cases hd with
    | head => exact .inl he
    | tail _ h => exact .inr (ih h)

theorem namesUsedBy_target {d : Defn} {e : String} (he : e ∈ namesUsedBy d.target) : e ∈ namesUsedBy d := by
  cases d <;> first | exact he | simp only [namesUsedBy, List.mem_append]; exact .inr he

theorem namesUsedBy_condition {d : Defn} {e : String} (he : e ∈ d.memInfo.condition.toList) : e ∈ namesUsedBy d := by
  cases d <;> first | (simp only [namesUsedBy, List.mem_append]; exact .inl he) | simp [Defn.memInfo] at he

/-- The map of a definition whose expressions are among `S`, and that of its type if it is
a member. -/
theorem createAs_unmoved (E : Env) (d : Defn) : ∀ (S : List String), (∀ e ∈ namesUsedBy d, e ∈ S) →
    ∀ nm o m, createAs E nm o d = .ok m ∨ createAs E nm o d.target = .ok m → Unmoved E S m := by
  induction d using Defn.ind with
  | prim h k s u =>
    intro S hS nm o m hm
    have hm : createAs E nm o (.prim h k s u) = .ok m := or_self_iff.1 hm
    rw [createAs.eq_def] at hm
    simp only at hm
    split at hm
    · cases hm
    · cases hm; intro bs off depth ns ns' _; rfl
  | seq h i e ih =>
    intro S hS nm o m hm
    obtain ⟨-, -, em, -, -, rfl, -⟩ := createAs_seq (or_self_iff.1 hm)
    intro bs off depth ns ns' hn
    have h1 : evalDataSize E i ns = evalDataSize E i ns' := evalDataSize_indifferent fun e he =>
      hn e (hS e (by simp only [namesUsedBy, List.mem_append]; exact .inl he))
    have h2 : evalNumElements E i ns = evalNumElements E i ns' := evalNumElements_indifferent fun e he =>
      hn e (hS e (by simp only [namesUsedBy, List.mem_append]; exact .inr he))
    rw [parse, parse]
    cases i.kind with
    | stream => simp only [streamParse_indifferent h1 h2]
    | string enc => simp only [stringParse, streamParse_indifferent h1 h2]
    | sequence => simp only [compositeSeqParse, seqRules_indifferent h1 h2]
  | struct h ms ih =>
    intro S hS nm o m hm
    obtain ⟨io, infos, maps, l, -, hmem, -, rfl, -⟩ := createAs_struct (or_self_iff.1 hm)
    obtain ⟨rfl, -, hall⟩ := createMembers_all E nm o (Unmoved E S) ms (fun d hd n o m hm =>
      ih d hd S (fun e he => hS e (by simp only [namesUsedBy]; exact namesUsedBy_mem hd he)) n o m (.inr hm))
      [] (by simp) _ _ hmem
    intro bs off depth ns ns' hn
    rw [parse, parse]
    rw [parseMembers_unmoved hn _ maps (by
      intro i hi e he
      obtain ⟨d, hd, rfl⟩ := List.mem_map.1 hi
      refine hS e ?_
      simp only [namesUsedBy]
      exact namesUsedBy_mem hd (namesUsedBy_condition he)) hall]
  | group h base ident dflt ms _ _ _ =>
    intro S hS nm o m hm
    obtain ⟨dm, bm, keys, maps, -, -, -, -, rfl⟩ := createAs_group (or_self_iff.1 hm)
    intro bs off depth ns ns' _
    rw [parse, parse]
  | member h d c dt vs ih =>
    intro S hS nm o m hm
    rcases hm with hm | hm
    · cases hm; intro bs off depth ns ns' _; rfl
    · exact ih S (fun e he => hS e (by simp only [namesUsedBy, List.mem_append]; exact .inr he)) nm o m (.inl hm)
  | uuid h s u => intro S hS nm o m hm; cases or_self_iff.1 hm; intro bs off depth ns ns' _; rfl
  | padding h a => intro S hS nm o m hm; cases or_self_iff.1 hm; intro bs off depth ns ns' _; rfl
  | union h ms _ => intro S hS nm o m hm; cases or_self_iff.1 hm; intro bs off depth ns ns' _; rfl
  | constant h v => intro S hS nm o m hm; cases or_self_iff.1 hm; intro bs off depth ns ns' _; rfl
  | enumeration h vs => intro S hS nm o m hm; cases or_self_iff.1 hm; intro bs off depth ns ns' _; rfl
  | format h o' l => intro S hS nm o m hm; cases or_self_iff.1 hm; intro bs off depth ns ns' _; rfl
  | family h b ms _ _ => intro S hS nm o m hm; cases or_self_iff.1 hm; intro bs off depth ns ns' _; rfl

/-! ### Layouts -/

theorem take_shorter {vs read : List Val} {v : Val} (h : vs.take (read.length + (0 + 1)) = read ++ [v]) :
    vs.take read.length = read := by
  have := congrArg (List.take read.length) h
  rw [List.take_take, List.take_append_of_le_length (Nat.le_refl _), List.take_length, Nat.min_eq_left (by omega)] at this
  exact this

theorem layout_length {E : Env} {bs : Bytes} {depth : Nat} {outer : Namespace} {cls : String} {so : Order}
    {names : List String} {read : List Val} {ms : List Defn} {p e : Nat} {vs : List Val}
    (h : Layout E bs depth outer cls so names read ms p vs e) :
    vs.length = read.length + ms.length ∧ vs.take read.length = read ∧ p ≤ e := by
  induction h with
  | done => simp
  | absent _ _ ih =>
    obtain ⟨h1, h2, h3⟩ := ih
    simp only [List.length_append, List.length_cons, List.length_nil] at h1 h2 ⊢
    refine ⟨by omega, ?_, h3⟩
    exact take_shorter h2
  | present _ _ _ _ _ _ ih =>
    obtain ⟨h1, h2, h3⟩ := ih
    simp only [List.length_append, List.length_cons, List.length_nil] at h1 h2 ⊢
    refine ⟨by omega, ?_, by omega⟩
    exact take_shorter h2

theorem layout_append {E : Env} {bs : Bytes} {depth : Nat} {outer : Namespace} {cls : String} {so : Order}
    {names : List String} {read : List Val} {ms more : List Defn} {p e : Nat} {vs : List Val} :
    Layout E bs depth outer cls so names read (ms ++ more) p vs e ↔
      ∃ us q, Layout E bs depth outer cls so names read ms p us q ∧ Layout E bs depth outer cls so names us more q vs e := by
  constructor
  · intro h
    induction ms generalizing read p with
    | nil => exact ⟨read, p, .done _ _, h⟩
    | cons d ms ih =>
      cases h with
      | absent hc h =>
        obtain ⟨us, q, h1, h2⟩ := ih h
        exact ⟨us, q, .absent hc h1, h2⟩
      | present hc hm hv hk hs h =>
        obtain ⟨us, q, h1, h2⟩ := ih h
        exact ⟨us, q, .present hc hm hv hk hs h1, h2⟩
  · rintro ⟨us, q, h1, h2⟩
    induction h1 with
    | done => exact h2
    | absent hc _ ih => exact .absent hc (ih h2)
    | present hc hm hv hk hs _ ih => exact .present hc hm hv hk hs (ih h2)

theorem present_indifferent {E : Env} {ns ns' : Namespace} {d : Defn} {b : Bool}
    (h : ∀ e ∈ d.memInfo.condition.toList, Indifferent E ns ns' e) (hp : Present E ns d b) : Present E ns' d b := by
  cases hp with
  | always hc => exact .always hc
  | @cond x _ hc hn he =>
    refine .cond hc hn ?_
    have := h x (by rw [hc]; simp) []
    simp only [inside] at this
    rwa [← this]

/-- Members that do not notice other attributes of the structure. -/
theorem layout_indifferent {E : Env} {bs : Bytes} {depth : Nat} {outer : Namespace} {cls : String} {so : Order}
    {names names' : List String} {read : List Val} {ms : List Defn} {p e : Nat} {vs : List Val}
    (hS : ∀ x ∈ namesUsedByAll ms, ∀ read, Indifferent E (scope cls names read outer) (scope cls names' read outer) x)
    (h : Layout E bs depth outer cls so names read ms p vs e) :
    Layout E bs depth outer cls so names' read ms p vs e := by
  induction h with
  | done => exact .done _ _
  | absent hc _ ih =>
    refine .absent (present_indifferent (fun x hx => hS x ?_ _) hc) (ih fun x hx => hS x ?_)
    · exact namesUsedBy_mem List.mem_cons_self (namesUsedBy_condition hx)
    · simp only [namesUsedByAll, List.mem_append]; exact .inr hx
  | @present read vs d ms p e k m v hc hm hv hk hs _ ih =>
    obtain ⟨n, o, hno, hcr⟩ := hm
    have hp : parse E m bs p (depth + 1) (scope cls names read outer) = .ok (v, k) := by
      obtain ⟨k', h1, h2⟩ := mapStream_ok (c := { values := scope cls names read outer }) rfl hv
      rw [hk] at h2
      cases h2
      exact h1
    rw [createAs_unmoved E d (namesUsedBy d) (fun _ h => h) n o m (.inr hcr) bs p (depth + 1) _ _
      (fun x hx => hS x (namesUsedBy_mem List.mem_cons_self hx) read)] at hp
    obtain ⟨h1, h2⟩ := mapStream_of_parse (c := { values := scope cls names' read outer }) rfl hp
    refine .present (present_indifferent (fun x hx => hS x ?_ _) hc) ⟨n, o, hno, hcr⟩ h1 h2 hs (ih fun x hx => hS x ?_)
    · exact namesUsedBy_mem List.mem_cons_self (namesUsedBy_condition hx)
    · simp only [namesUsedByAll, List.mem_append]; exact .inr hx

theorem fill_append (a b : List String) (us vs : List Val) (h : us.length = a.length) :
    fill (a ++ b) (us ++ vs) = fill a us ++ fill b vs := by
  induction a generalizing us with
  | nil => cases us with
    | nil => rfl
    | cons => simp at h
  | cons n a ih =>
    cases us with
    | nil => simp at h
    | cons u us => simp only [List.cons_append, fill]; rw [ih us (by simpa using h)]

/-- Instances can only be made if no member hides `super` or the class name. -/
theorem createClass_free {E : Env} {nm : String} {ds : Option String} {ms : List Defn}
    (h : createClass E nm ds ms = .ok true) : nm ≠ "super" ∧ ∀ d ∈ ms, d.name ≠ "super" ∧ d.name ≠ nm := by
  unfold createClass at h
  simp only at h
  split at h
  · cases h
  split at h
  · cases h
  split at h
  · cases h
  split at h
  · cases h
  simp only [Except.ok.injEq, Bool.not_eq_true', Bool.or_eq_false_iff, List.contains_eq_mem, decide_eq_false_iff_not,
    beq_eq_false_iff_ne, List.mem_map, not_exists, not_and] at h
  exact ⟨h.2, fun d hd => ⟨h.1.1 d hd, h.1.2 d hd⟩⟩

theorem fill_values (names : List String) (vs : List Val) (h : vs.length = names.length) :
    (fill names vs).map (·.2) = vs := by
  induction names generalizing vs with
  | nil => cases vs with
    | nil => rfl
    | cons => simp at h
  | cons n ns ih =>
    cases vs with
    | nil => simp at h
    | cons v vs => simp only [fill, List.map_cons]; rw [ih vs (by simpa using h)]

theorem distinctTypes_left {ms more : List Defn} (h : DistinctTypes (ms ++ more)) : DistinctTypes ms :=
  ⟨fun a ha b hb hn => h.1 a (by simp [ha]) b (by simp [hb]) hn, fun a ha => h.2 a (by simp [ha])⟩

/-! ### C83 -/

/-- **C83** Whenever a structure to which members were added at the end can be mapped, so
can the structure without them, with the same values of its members, from the first of the
bytes taken by the longer one. -/
theorem C83_shorter_partial {E : Env} {h : Hdr} {ms more : List Defn} {m m' : DMap} (hdt : DistinctTypes (ms ++ more))
    (ho : OneOrder E h.order ms) (ho' : OneOrder E h.order (ms ++ more))
    (hm : createMap E (.struct h ms) = .ok m) (hm' : createMap E (.struct h (ms ++ more)) = .ok m')
    (bs : Bytes) (off : Nat) (c : Ctx) (hc : c.Clean) (hu : Unnoticed E h.name c.values ms more)
    (attrs : List (String × Val)) (hv : (mapStream E m' bs off 0 c).1 = .ok (.struct h.name attrs)) :
    (mapStream E m bs off 0 c).1 = .ok (.struct h.name (attrs.take ms.length)) ∧
      ∃ k k', (mapStream E m bs off 0 c).2.byteSize = some k ∧
        (mapStream E m' bs off 0 c).2.byteSize = some k' ∧ k ≤ k' := by
  have hm : createAs E h.name h.order (.struct h ms) = .ok m := hm
  have hm' : createAs E h.name h.order (.struct h (ms ++ more)) = .ok m' := hm'
  obtain ⟨maps, io, hmo, hcls, hiff⟩ := struct_parse_iff (distinctTypes_left hdt) ho hm
  obtain ⟨maps', io', hmo', hcls', hiff'⟩ := struct_parse_iff hdt ho' hm'
  obtain ⟨k', hp, hb⟩ := mapStream_ok hc hv
  obtain ⟨hio', attrs', hpm, heq⟩ := (hiff' bs off 0 c.values _ k').1 hp
  cases heq
  have hfree := createClass_free (hio' ▸ hcls')
  rw [← fill_nil] at hpm
  obtain ⟨vs, e, h1, h2, h3, h4⟩ := layout_of_members E h.name h.order bs 0 c.values _ (ms ++ more) maps' hmo' [] rfl
    (createClass_nodup hcls').1 [] rfl off 0 k' attrs hpm
  simp only [List.nil_append] at h1 h2
  obtain ⟨us, q, h5, h6⟩ := layout_append.1 h1
  obtain ⟨h7, -, h8⟩ := layout_length h5
  obtain ⟨-, h9, h10⟩ := layout_length h6
  have h5 := layout_indifferent (names' := ms.map Defn.name) (fun x hx read fs => (hu x hx read fs).symm) h5
  obtain ⟨h11, h12⟩ := members_of_layout E h.name h.order bs 0 c.values _ ms maps hmo [] rfl
    (createClass_nodup hcls).1 [] rfl off 0 us q h5
  rw [fill_nil] at h12
  have hp := (hiff bs off 0 c.values _ _).2 (createClass_inst hcls ⟨hfree.1, fun d hd => hfree.2 d (by simp [hd])⟩) (by omega) _ h12 rfl
  obtain ⟨h13, h14⟩ := mapStream_of_parse hc hp
  have hl : us.length = ms.length := by simpa using h7
  have hvs : vs = us ++ vs.drop us.length := by
    conv => lhs; rw [← List.take_append_drop us.length vs, h9]
  have hf : attrs.take ms.length = fill (ms.map Defn.name) us := by
    rw [h2, hvs, List.map_append, fill_append _ _ _ _ (by simpa using hl), List.take_append_of_le_length, List.take_of_length_le]
    · have := congrArg List.length (fill_keys (ms.map Defn.name) us)
      simp at this
      omega
    · have := congrArg List.length (fill_keys (ms.map Defn.name) us)
      simp at this
      omega
  exact ⟨by rw [hf]; exact h13, _, _, h14, hb, by omega⟩

/-- **C83** Conversely, if the shorter structure can be mapped, and the added members can be
laid out from where it ends, the longer one maps to the values of both. -/
theorem C83_longer_partial {E : Env} {h : Hdr} {ms more : List Defn} {m m' : DMap} (hdt : DistinctTypes (ms ++ more))
    (ho : OneOrder E h.order ms) (ho' : OneOrder E h.order (ms ++ more))
    (hs : ∀ d ∈ more, d.name ≠ "super" ∧ d.name ≠ h.name)
    (hm : createMap E (.struct h ms) = .ok m) (hm' : createMap E (.struct h (ms ++ more)) = .ok m')
    (bs : Bytes) (off : Nat) (c : Ctx) (hc : c.Clean) (hu : Unnoticed E h.name c.values ms more)
    (attrs : List (String × Val)) (hv : (mapStream E m bs off 0 c).1 = .ok (.struct h.name attrs))
    (k : Nat) (hk : (mapStream E m bs off 0 c).2.byteSize = some k) (vs : List Val) (e : Nat)
    (hl : Layout E bs 0 c.values h.name h.order ((ms ++ more).map Defn.name) (attrs.map (·.2)) more (off + k) vs e) :
    (mapStream E m' bs off 0 c).1 = .ok (.struct h.name (fill ((ms ++ more).map Defn.name) vs)) ∧
      attrs <+: fill ((ms ++ more).map Defn.name) vs ∧
      ∃ k', (mapStream E m' bs off 0 c).2.byteSize = some k' ∧ e = off + k' := by
  have hm : createAs E h.name h.order (.struct h ms) = .ok m := hm
  have hm' : createAs E h.name h.order (.struct h (ms ++ more)) = .ok m' := hm'
  obtain ⟨maps, io, hmo, hcls, hiff⟩ := struct_parse_iff (distinctTypes_left hdt) ho hm
  obtain ⟨maps', io', hmo', hcls', hiff'⟩ := struct_parse_iff hdt ho' hm'
  obtain ⟨k', hp, hb⟩ := mapStream_ok hc hv
  rw [hk] at hb
  cases hb
  obtain ⟨hio, attrs', hpm, heq⟩ := (hiff bs off 0 c.values _ k).1 hp
  cases heq
  have hfree := createClass_free (hio ▸ hcls)
  rw [← fill_nil] at hpm
  obtain ⟨us, q, h1, h2, h3, h4⟩ := layout_of_members E h.name h.order bs 0 c.values _ ms maps hmo [] rfl
    (createClass_nodup hcls).1 [] rfl off 0 k attrs hpm
  simp only [List.nil_append] at h1 h2 h4
  have h1 := layout_indifferent (names' := (ms ++ more).map Defn.name) hu h1
  rw [h2, fill_values _ _ h4] at hl
  obtain rfl : q = off + k := by omega
  have h5 := layout_append.2 ⟨_, _, h1, hl⟩
  obtain ⟨h6, h7⟩ := members_of_layout E h.name h.order bs 0 c.values _ (ms ++ more) maps' hmo' [] rfl
    (createClass_nodup hcls').1 [] rfl off 0 vs e h5
  rw [fill_nil] at h7
  have hio' : io' = true := createClass_inst hcls' ⟨hfree.1, fun d hd => by
    rcases List.mem_append.1 hd with hd | hd
    · exact hfree.2 d hd
    · exact hs d hd⟩
  have hp := (hiff' bs off 0 c.values _ _).2 hio' (by omega) _ h7 rfl
  obtain ⟨h8, h9⟩ := mapStream_of_parse hc hp
  obtain ⟨-, h10, -⟩ := layout_length hl
  refine ⟨h8, ?_, _, h9, by omega⟩
  have hvs : vs = us ++ vs.drop us.length := by
    conv => lhs; rw [← List.take_append_drop us.length vs, h10]
  rw [h2, hvs, List.map_append, fill_append _ _ _ _ h4]
  exact List.prefix_append _ _

/-! ### Examples -/

/-- The structure object is what its name means to expressions. -/
theorem inside_own {cls : String} {names : List String} {read : List Val} (hc : cls ≠ "__builtins__")
    (fs : List (String × List (String × Val))) :
    nsGet (withBuiltins (inside fs (scope cls names read []))) cls = some (.struct cls (fill names read)) := by
  rw [withBuiltins, nsGet_nsSet_ne hc]
  have : nsGet (inside fs (scope cls names read [])) cls = some (.struct cls (fill names read)) ∧
      ((inside fs (scope cls names read [])).map (·.1)).Nodup := by
    induction fs with
    | nil => simp [inside, scope, nsUpdate, nsGet]
    | cons f fs ih =>
      obtain ⟨n, a⟩ := f
      exact ⟨nsGet_nsUpdate ih.2 ih.1 _, nsUpdate_nodup (by simp) _⟩
  exact this.1

/-- The example of C16, and the same with a further member. -/
def exCondMembers : List Defn :=
  [.member { name := "a" } exU8 none (some "uint8") none,
    .member { name := "b" } exU16 (some "T.a == 1") (some "uint16") none,
    .member { name := "c" } exU8 none (some "uint8") (some [.int 5, .int 7])]
def exMore : List Defn := [.member { name := "d" } exU16 none (some "uint16") none]

/-- Its condition does not notice the further member. -/
theorem exUnnoticed : Unnoticed exEnvE "T" [] exCondMembers exMore := by
  intro e he read fs
  have he : e = "T.a == 1" := by
    simp [namesUsedByAll, namesUsedBy, exCondMembers, exU8, exU16] at he
    exact he
  subst he
  simp only [exEnvE, if_pos]
  rw [inside_own (by decide), inside_own (by decide)]
  cases read <;> rfl

example : ∃ m m', DistinctTypes (exCondMembers ++ exMore) ∧ OneOrder exEnvE .little exCondMembers ∧
    OneOrder exEnvE .little (exCondMembers ++ exMore) ∧ Unnoticed exEnvE "T" [] exCondMembers exMore ∧
    createMap exEnvE (.struct { name := "T", order := .little } exCondMembers) = .ok m ∧
    createMap exEnvE (.struct { name := "T", order := .little } (exCondMembers ++ exMore)) = .ok m' ∧
    (mapStream exEnvE m' [1, 2, 0, 5, 6, 0] 0 0 {}).1 =
      .ok (.struct "T" [("a", .int 1), ("b", .int 2), ("c", .int 5), ("d", .int 6)]) ∧
    (mapStream exEnvE m' [1, 2, 0, 5, 6, 0] 0 0 {}).2.byteSize = some 6 ∧
    (mapStream exEnvE m [1, 2, 0, 5, 6, 0] 0 0 {}).1 =
      .ok (.struct "T" [("a", .int 1), ("b", .int 2), ("c", .int 5)]) ∧
    (mapStream exEnvE m [1, 2, 0, 5, 6, 0] 0 0 {}).2.byteSize = some 4 := by
  refine ⟨_, _, ?_, ?_, ?_, exUnnoticed, rfl, rfl, rfl, rfl, rfl, rfl⟩
  · simp [DistinctTypes, exCondMembers, exMore, exU8, exU16, Defn.target, Defn.name, Defn.hdr]
  · intro hh
    have := hh (.member { name := "b" } exU16 (some "T.a == 1") (some "uint16") none) (by simp [exCondMembers])
    simp [Defn.isComposite, truthyStr] at this
  · intro hh
    have := hh (.member { name := "b" } exU16 (some "T.a == 1") (some "uint16") none) (by simp [exCondMembers])
    simp [Defn.isComposite, truthyStr] at this

/-- The added member can be laid out from the fifth byte on. -/
example : Layout exEnvE [1, 2, 0, 5, 6, 0] 0 [] "T" .little ((exCondMembers ++ exMore).map Defn.name)
    [.int 1, .int 2, .int 5] exMore (0 + 4) [.int 1, .int 2, .int 5, .int 6] 6 :=
  .present (.always (.inl rfl)) ⟨_, _, rfl, rfl⟩ rfl rfl (fun _ h => nomatch h) (.done _ _)

/-- The claim is false if the members are read in one go against the byte order one of them
declares: a further member of another byte order makes the code read them one by one, and
the value of the first member is another one. -/
theorem C83_refuted : ∃ ms more m m', DistinctTypes (ms ++ more) ∧ (∀ E cls ns, Unnoticed E cls ns ms more) ∧
    createMap exEnv (.struct { name := "T" } ms) = .ok m ∧
    createMap exEnv (.struct { name := "T" } (ms ++ more)) = .ok m' ∧
    (mapStream exEnv m' [0, 1, 2, 0] 0 0 {}).1 = .ok (.struct "T" [("a", .int 1), ("b", .int 2)]) ∧
    (mapStream exEnv m [0, 1, 2, 0] 0 0 {}).1 = .ok (.struct "T" [("a", .int 256)]) := by
  refine ⟨[.member { name := "a" } exBE none (some "be16") none],
    [.member { name := "b" } exU16 none (some "uint16") none],
    _, _, ?_, ?_, rfl, rfl, rfl, rfl⟩
  · simp [DistinctTypes, exBE, exU16, Defn.target, Defn.name, Defn.hdr]
  · intro E cls ns e he
    simp [namesUsedByAll, namesUsedBy, exBE] at he

end Dtf
