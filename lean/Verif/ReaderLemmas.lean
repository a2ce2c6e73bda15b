import Verif.Reader
import Verif.Every
import Verif.PyLemmas
/-! What a successful call of each reader function says about the document. -/
namespace Dtf

theorem bind_ok {α β : Type} {e : Except Err α} {f : α → Except Err β} {b : β} :
    (e >>= f) = .ok b ↔ ∃ a, e = .ok a ∧ f a = .ok b := by
  cases e <;> simp [bind, Except.bind]

theorem bind_error {α β : Type} {e : Except Err α} {f : α → Except Err β} {x : Err} :
    (e >>= f) = .error x ↔ e = .error x ∨ ∃ a, e = .ok a ∧ f a = .error x := by
  cases e <;> simp [bind, Except.bind]

theorem guard_ok {α : Type} {c : Prop} [Decidable c] {x : Err} {e : Except Err α} {b : α} :
    (if c then .error x else e) = .ok b ↔ ¬ c ∧ e = .ok b := by
  split <;> simp [*]

/-- The value of key `k` of a mapping, `dflt` when there is none. -/
def entryD (es : List (Key × Yaml)) (k : String) (dflt : Yaml) : Yaml :=
  ((es.find? (·.1 == .str k)).map (·.2)).getD dflt

/-- The value of key `k` of a mapping, null when there is none. -/
def entry (es : List (Key × Yaml)) (k : String) : Yaml := entryD es k .null

theorem get_ok {d : Yaml} {k : String} {v : Yaml} (h : d.get k = .ok v) :
    ∃ es, d = .map es ∧ v = entry es k := by
  cases d <;> simp [Yaml.get, Yaml.getD] at h
  exact ⟨_, rfl, h.symm⟩

@[simp] theorem get_map (es : List (Key × Yaml)) (k : String) :
    (Yaml.map es).get k = .ok (entry es k) := rfl

@[simp] theorem getD_map (es : List (Key × Yaml)) (k : String) (x : Yaml) :
    (Yaml.map es).getD k x = .ok (entryD es k x) := rfl

/-- All keys of the mapping are texts in the list. -/
def KeysIn (supported : List String) (d : Yaml) : Prop :=
  ∃ es, d = .map es ∧ ∀ e ∈ es, ∃ s ∈ supported, e.1 = .str s

theorem checkKeys_ok {sup : List String} {d : Yaml} {u : Unit} (h : checkKeys sup d = .ok u) :
    KeysIn sup d := by
  unfold checkKeys at h
  cases d <;> simp only [Yaml.keys, reduceCtorEq] at h
  rename_i es
  refine ⟨es, rfl, fun e he => ?_⟩
  split at h
  · rename_i hu
    rw [List.isEmpty_iff, List.filter_eq_nil_iff] at hu
    have := hu e.1 (List.mem_map_of_mem he)
    simpa using this
  · split at h <;> cases h

theorem checkKeys_map {sup : List String} {es : List (Key × Yaml)}
    (h : ∀ e ∈ es, ∃ s ∈ sup, e.1 = .str s) : checkKeys sup (.map es) = .ok () := by
  have : (es.map (·.1)).filter (fun k => !(sup.any (k == .str ·))) = [] := by
    rw [List.filter_eq_nil_iff]
    intro k hk
    obtain ⟨e, he, rfl⟩ := List.mem_map.mp hk
    obtain ⟨s, hs, hk⟩ := h e he
    simp only [Bool.not_eq_true', Bool.not_eq_false, List.any_eq_true]
    exact ⟨s, hs, by simp [hk]⟩
  simp only [checkKeys, Yaml.keys, this, List.isEmpty_nil, if_true]

theorem checkKeys_error {sup : List String} {es : List (Key × Yaml)} {x : Err}
    (hk : ∀ e ∈ es, ∃ s, e.1 = .str s) (h : checkKeys sup (.map es) = .error x) : x = .reader := by
  simp only [checkKeys, Yaml.keys] at h
  split at h
  · cases h
  · rw [if_neg] at h
    · cases h; rfl
    · simp only [Bool.not_eq_true, List.any_eq_false, List.mem_filter, and_imp]
      intro k hk' _
      obtain ⟨e, he, rfl⟩ := List.mem_map.mp hk'
      obtain ⟨s, hs⟩ := hk e he
      simp [hs]

structure HdrRead (sup : List String) (d : Yaml) (name : String) (h : Hdr) : Prop where
  keys : KeysIn sup d
  name : h.name = name
  order : h.order = .native
  aliases : ∃ es, d = .map es ∧ (entry es "aliases").names = .ok h.aliases
  description : ∃ es, d = .map es ∧ (entry es "description").text? = .ok h.description

theorem readHdr_ok {sup : List String} {d : Yaml} {name : String} {h : Hdr}
    (hr : readHdr sup d name = .ok h) : HdrRead sup d name h := by
  simp only [readHdr, bind_ok, Except.ok.injEq] at hr
  obtain ⟨_, hk, a, ha, de, hde, as, has, ds, hds, rfl⟩ := hr
  obtain ⟨es, rfl, rfl⟩ := get_ok ha
  rw [get_map] at hde
  cases hde
  exact ⟨checkKeys_ok hk, rfl, rfl, ⟨es, rfl, has⟩, ⟨es, rfl, hds⟩⟩

/-- The texts of the byte orders. -/
def orderText : Order → String
  | .big => "big-endian"
  | .little => "little-endian"
  | .native => "native"

theorem readOrder_ok {a : Yaml} {o : Order} (h : readOrder a = .ok o) :
    ∃ es, a = .map es ∧
      entryD es "byte_order" (.str "native") =
        .str (orderText o) := by
  simp only [readOrder, bind_ok] at h
  obtain ⟨v, hv, h⟩ := h
  cases a <;> simp [Yaml.getD] at hv
  rename_i es
  refine ⟨es, rfl, ?_⟩
  rw [entryD, hv]
  split at h
  · cases h
  · split at h <;> cases h <;> rfl

/-- The attributes mapping: either absent (or false), or a mapping with supported
keys and a byte order. -/
inductive AttrsRead (sup : List String) (es : List (Key × Yaml)) : Option Order → Prop
  | absent (h : (entry es "attributes").truthy = false) : AttrsRead sup es none
  | present {as : List (Key × Yaml)} {o : Order} (ht : (entry es "attributes").truthy = true)
      (hm : entry es "attributes" = .map as) (hk : KeysIn sup (.map as))
      (ho : entryD as "byte_order" (.str "native") =
        .str (orderText o)) : AttrsRead sup es (some o)

theorem readAttrs_ok {sup : List String} {es : List (Key × Yaml)} {o : Option Order}
    (h : readAttrs sup (.map es) = .ok o) : AttrsRead sup es o := by
  simp only [readAttrs, bind_ok, get_map, Except.ok.injEq] at h
  obtain ⟨a, rfl, h⟩ := h
  split at h
  · rename_i ht
    simp only [bind_ok, Except.ok.injEq] at h
    obtain ⟨_, hk, o, ho, rfl⟩ := h
    obtain ⟨as, ha, ho⟩ := readOrder_ok ho
    exact .present ht ha (ha ▸ checkKeys_ok hk) ho
  · rename_i ht
    cases h
    exact .absent (by simpa using ht)

theorem readStorage_ok {attrs : List String} {m : Bool} {d : Yaml} {name : String} {h : Hdr}
    (hr : readStorage attrs m d name = .ok h) :
    ∃ es h0 o, d = .map es ∧ HdrRead (if m then valuesMember else valuesStorage) d name h0 ∧
      AttrsRead attrs es o ∧ h = { h0 with order := o.getD .native } := by
  simp only [readStorage, bind_ok, Except.ok.injEq] at hr
  obtain ⟨h0, hh, o, ho, rfl⟩ := hr
  have hh := readHdr_ok hh
  obtain ⟨es, rfl, _⟩ := hh.keys
  exact ⟨es, h0, o, rfl, hh, readAttrs_ok ho, rfl⟩

theorem litEq_int_ok {y : Yaml} {n : Nat} {i : Int} (h : y = .int i)
    (he : litEq y.lit (.int n) = true) : i = n := by
  subst h
  simpa [litEq, Yaml.lit, Lit.num?, Num.eq] using he

/-- The size attribute: the text `native`, or a number in the list. -/
def SizeRead (sizes : List Nat) (y : Yaml) (s : Size) : Prop :=
  (y = .str "native" ∧ s = .native) ∨ ∃ n : Nat, n ∈ sizes ∧ y = .int n ∧ s = .bytes n

theorem readSize_ok {E : Env} {sizes : List Nat} {y : Yaml} {s : Size}
    (h : readSize E sizes y = .ok s) : SizeRead sizes y s := by
  unfold readSize at h
  split at h
  · cases h; exact .inl ⟨rfl, rfl⟩
  · split at h
    · cases h
    · cases h
    · rw [guard_ok] at h
      obtain ⟨hm, h⟩ := h
      split at h
      · rename_i i _ _
        cases h
        simp only [Bool.not_eq_true', Bool.not_eq_false, List.any_eq_true] at hm
        obtain ⟨n, hn, he⟩ := hm
        have := litEq_int_ok rfl he
        subst this
        exact .inr ⟨n, hn, rfl, by simp⟩
      · cases h

/-- What a fixed-size definition takes from its document. -/
inductive FixedRead (attrs : List String) (dflt : Yaml) (init : Size) (sizes : List Nat)
    (es : List (Key × Yaml)) : Size → String → Prop
  | absent (h : (entry es "attributes").truthy = false) :
      FixedRead attrs dflt init sizes es init "bytes"
  | present {as : List (Key × Yaml)} {s : Size} {u : String}
      (ht : (entry es "attributes").truthy = true) (hm : entry es "attributes" = .map as)
      (hs : SizeRead sizes (entryD as "size" dflt) s)
      (hu : entryD as "units" (.str "bytes") = .str u) :
      FixedRead attrs dflt init sizes es s u

theorem text_ok {y : Yaml} {s : String} (h : y.text = .ok s) : y = .str s := by
  cases y <;> simp [Yaml.text] at h
  rw [h]

theorem readFixed_ok {E : Env} {attrs : List String} {dflt : Yaml} {init : Size}
    {sizes : List Nat} {m : Bool} {d : Yaml} {name : String} {h : Hdr} {s : Size} {u : String}
    (hr : readFixed E attrs dflt init sizes m d name = .ok (h, s, u)) :
    ∃ es h0 o, d = .map es ∧ HdrRead (if m then valuesMember else valuesStorage) d name h0 ∧
      AttrsRead attrs es o ∧ h = { h0 with order := o.getD .native } ∧
      FixedRead attrs dflt init sizes es s u := by
  simp only [readFixed, bind_ok] at hr
  obtain ⟨h', hh, a, ha, hr⟩ := hr
  obtain ⟨es, h0, o, rfl, hh0, ho, rfl⟩ := readStorage_ok hh
  rw [get_map] at ha
  cases ha
  refine ⟨es, h0, o, rfl, hh0, ho, ?_⟩
  split at hr
  · rename_i ht
    simp only [bind_ok, Except.ok.injEq, Prod.mk.injEq] at hr
    obtain ⟨sz, hsz, s', hs, un, hun, u', hu, rfl, rfl, rfl⟩ := hr
    cases ho with
    | absent h => rw [h] at ht; cases ht
    | present ht hm hk ho =>
      rw [hm, getD_map] at hsz hun
      cases hsz; cases hun
      exact ⟨rfl, .present ht hm (readSize_ok hs) (text_ok hu)⟩
  · rename_i ht
    cases hr
    exact ⟨rfl, .absent (by simpa using ht)⟩

theorem FixedRead.size {attrs : List String} {dflt : Yaml} {init : Size} {sizes : List Nat}
    {es : List (Key × Yaml)} {s : Size} {u : String} (h : FixedRead attrs dflt init sizes es s u) :
    s = init ∨ s = .native ∨ ∃ n ∈ sizes, s = .bytes n := by
  cases h with
  | absent _ => exact .inl rfl
  | present _ _ hs _ =>
    rcases hs with ⟨_, h⟩ | ⟨n, hn, _, h⟩
    · exact .inr (.inl h)
    · exact .inr (.inr ⟨n, hn, h⟩)

theorem resolve_ok {E : Env} {reg : Registry} {y : Yaml} {d : Defn}
    (h : resolve E reg y = .ok d) : ∃ n, y = .str n ∧ reg.getByName E n = some d := by
  unfold resolve at h
  split at h
  · split at h
    · cases h; exact ⟨_, rfl, by assumption⟩
    · cases h
  · cases h
  · cases h

/-- A size or count: absent, a number, or an expression. -/
inductive RuleRead (E : Env) (y : Yaml) : Option Int → Option String → Prop
  | absent (h : y = .null) : RuleRead E y none none
  | number {i : Int} (hn : y ≠ .null) (h : E.toInt y = .ok i) : RuleRead E y (some i) none
  | expr {s : String} (h : y = .str s) (hp : E.parseInt s = none) : RuleRead E y none (some s)

theorem isNone_iff {y : Yaml} : y.isNone = true ↔ y = .null := by
  cases y <;> simp [Yaml.isNone]

theorem readRule_ok {E : Env} {y : Yaml} {a : Option Int} {b : Option String}
    (h : readRule E y = .ok (a, b)) : RuleRead E y a b := by
  unfold readRule at h
  split at h
  · rename_i hn
    cases h; exact .absent (isNone_iff.mp hn)
  · rename_i hn
    split at h
    · cases h
      exact .number (fun e => hn (isNone_iff.mpr e)) (by assumption)
    · rename_i he
      split at h
      · cases h
        refine .expr rfl ?_
        simp only [Env.toInt] at he
        split at he
        · cases he
        · assumption
      · cases h
    · cases h

/-- The terminator: absent, an ASCII text as bytes, or another value as it is. -/
inductive TermRead (y : Yaml) : Option Lit → Prop
  | absent (h : y = .null) : TermRead y none
  | text {s : String} {b : Bytes} (h : y = .str s) (he : encodeBelow 128 s = .ok b) :
      TermRead y (some (.bytes b))
  | value (hn : y ≠ .null) (hs : ∀ s, y ≠ .str s) : TermRead y (some y.lit)

theorem readTerminator_ok {y : Yaml} {t : Option Lit} (h : readTerminator y = .ok t) :
    TermRead y t := by
  unfold readTerminator at h
  split at h
  · cases h; exact .absent rfl
  · split at h
    · cases h; exact .text rfl (by assumption)
    · cases h
  · cases h
    exact .value (by rintro rfl; simp_all) (by rintro s rfl; simp_all)

structure ElementsRead (E : Env) (reg : Registry) (sup : List String) (es : List (Key × Yaml))
    (name : String) (h : Hdr) (i : SeqInfo) (e : Defn) : Prop where
  hdr : ∃ h0, HdrRead sup (.map es) name h0 ∧ h = { h0 with order := e.orderOrNative }
  element : ∃ n, entry es "element_data_type" = .str n ∧ n ≠ "" ∧ i.elementDataType = some n ∧
    reg.getByName E n = some e
  some_rule : entry es "elements_data_size" ≠ .null ∨ entry es "elements_terminator" ≠ .null ∨
    entry es "number_of_elements" ≠ .null
  not_both : entry es "elements_data_size" = .null ∨ entry es "number_of_elements" = .null
  size : RuleRead E (entry es "elements_data_size") i.dataSize i.dataSizeExpr
  number : RuleRead E (entry es "number_of_elements") i.numElements i.numElementsExpr
  terminator : TermRead (entry es "elements_terminator") i.terminator

theorem readElements_ok {E : Env} {reg : Registry} {k : SeqKind} {sup : List String} {d : Yaml}
    {name : String} {x : Defn} (hr : readElements E reg k sup d name = .ok x) :
    ∃ es h i e, d = .map es ∧ x = .seq h i e ∧ i.kind = k ∧ ElementsRead E reg sup es name h i e := by
  simp only [readElements, bind_ok, guard_ok] at hr
  obtain ⟨_, hk, el, hel, ht, sz, hsz, te, hte, nu, hnu, h1, h2, e, he, h0, hh, dt, hdt,
    ⟨ds, dse⟩, hds, ⟨ne, nee⟩, hne, t, htt, hx⟩ := hr
  obtain ⟨es, rfl, _⟩ := checkKeys_ok hk
  rw [get_map] at hel hsz hte hnu
  cases hel; cases hsz; cases hte; cases hnu
  simp only [Except.ok.injEq] at hx
  obtain ⟨n, hn, hg⟩ := resolve_ok he
  have hdt := text_ok hdt
  rw [hn] at ht
  have hdn : dt = n := by rw [hn] at hdt; cases hdt; rfl
  subst hdn
  simp only [Bool.and_eq_true, isNone_iff, Bool.not_eq_true', not_and, Bool.not_eq_false] at h1 h2
  refine ⟨es, _, _, e, rfl, hx.symm, rfl, ⟨⟨h0, readHdr_ok hh, rfl⟩, ⟨dt, hn, ?_, rfl, hg⟩, ?_, ?_,
    readRule_ok hds, readRule_ok hne, readTerminator_ok htt⟩⟩
  · simpa [Yaml.truthy] using ht
  · by_cases ha : entry es "elements_data_size" = .null
    · by_cases hb : entry es "elements_terminator" = .null
      · exact .inr (.inr (h1 ⟨ha, hb⟩))
      · exact .inr (.inl hb)
    · exact .inl ha
  · by_cases ha : entry es "elements_data_size" = .null
    · exact .inl ha
    · refine .inr (h2 ?_)
      cases hh : (entry es "elements_data_size").isNone
      · rfl
      · exact absurd (isNone_iff.mp hh) ha

theorem readString_ok {E : Env} {reg : Registry} {m : Bool} {d : Yaml} {name : String} {x : Defn}
    (hr : readString E reg m d name = .ok x) :
    ∃ es h i e enc, d = .map es ∧ x = .seq h i e ∧ i.kind = .string enc ∧ enc ≠ "" ∧
      entry es "encoding" = .str enc ∧
      ElementsRead E reg (if m then valuesStringMember else valuesString) es name h i e := by
  simp only [readString, bind_ok, guard_ok] at hr
  obtain ⟨s, hs, en, hen, ht, enc, henc, hx⟩ := hr
  obtain ⟨es, h, i, e, rfl, rfl, hk, hel⟩ := readElements_ok hs
  rw [get_map] at hen
  cases hen
  have henc := text_ok henc
  rw [henc] at ht
  simp only [Except.ok.injEq] at hx
  refine ⟨es, h, _, e, enc, rfl, hx.symm, rfl, by simpa [Yaml.truthy] using ht, henc, ?_⟩
  exact ⟨hel.hdr, hel.element, hel.some_rule, hel.not_both, hel.size, hel.number, hel.terminator⟩

theorem readConstant_ok {m : Bool} {d : Yaml} {name : String} {x : Defn}
    (hr : readConstant m d name = .ok x) :
    m = false ∧ ∃ es h, d = .map es ∧ HdrRead valuesConstant d name h ∧
      entry es "value" ≠ .null ∧ x = .constant h (entry es "value").lit := by
  simp only [readConstant, guard_ok, bind_ok, Except.ok.injEq, Bool.not_eq_true] at hr
  obtain ⟨hm, v, hv, hn, h, hh, rfl⟩ := hr
  have hh := readHdr_ok hh
  obtain ⟨es, rfl, _⟩ := hh.keys
  rw [get_map] at hv
  cases hv
  refine ⟨hm, es, h, rfl, hh, fun e => ?_, rfl⟩
  rw [e] at hn
  cases hn

theorem readPadding_ok {E : Env} {m : Bool} {d : Yaml} {name : String} {x : Defn}
    (hr : readPadding E m d name = .ok x) :
    m = true ∧ ∃ es h, ∃ a : Nat, d = .map es ∧ HdrRead valuesPadding d name h ∧
      a ∈ [2, 4, 8, 16] ∧ entry es "alignment_size" = .int a ∧ x = .padding h (some a) := by
  simp only [readPadding, guard_ok, bind_ok] at hr
  obtain ⟨hm, h, hh, v, hv, ht, hr⟩ := hr
  have hh := readHdr_ok hh
  obtain ⟨es, rfl, _⟩ := hh.keys
  rw [get_map] at hv
  cases hv
  refine ⟨by simpa using hm, es, h, ?_⟩
  split at hr
  · cases hr
  · cases hr
  · rw [guard_ok] at hr
    obtain ⟨ha, hr⟩ := hr
    split at hr
    · rename_i i he
      cases hr
      simp only [Bool.not_eq_true', Bool.not_eq_false, List.any_eq_true] at ha
      obtain ⟨n, hn, hl⟩ := ha
      have := litEq_int_ok he hl
      subst this
      exact ⟨n, rfl, hh, hn, he, by simp⟩
    · cases hr

/-- The members, in order, without the sections. -/
inductive MembersRead (rm : Yaml → Except Err Defn) : List Yaml → List Defn → Prop
  | nil : MembersRead rm [] []
  | sect {es : List (Key × Yaml)} {ms : List Yaml} {ds : List Defn}
      (hs : (entry es "section").truthy = true) (h : MembersRead rm ms ds) :
      MembersRead rm (.map es :: ms) ds
  | member {es : List (Key × Yaml)} {d : Defn} {ms : List Yaml} {ds : List Defn}
      (hs : (entry es "section").truthy = false) (hd : rm (.map es) = .ok d)
      (h : MembersRead rm ms ds) : MembersRead rm (.map es :: ms) (d :: ds)

theorem addMembers_ok {rm : Yaml → Except Err Defn} {ms : List Yaml} {b b' : Builder}
    (h : addMembers rm b ms = .ok b') :
    ∃ ds, MembersRead rm ms ds ∧ b'.members = b.members ++ ds ∧
      ((b.members.map (·.name)).Nodup → (b'.members.map (·.name)).Nodup) := by
  induction ms generalizing b with
  | nil => cases h; exact ⟨[], .nil, by simp, id⟩
  | cons m ms ih =>
    simp only [addMembers, bind_ok] at h
    obtain ⟨sv, hsv, h⟩ := h
    obtain ⟨es, rfl, rfl⟩ := get_ok hsv
    split at h
    · rename_i ht
      simp only [bind_ok] at h
      obtain ⟨n, hn, h⟩ := h
      obtain ⟨ds, h1, h2, h3⟩ := ih h
      exact ⟨ds, .sect ht h1, h2, h3⟩
    · rename_i ht
      simp only [bind_ok] at h
      obtain ⟨d, hd, h⟩ := h
      unfold Builder.addMember at h
      split at h
      · rename_i he
        split at he <;> simp at he
        cases h
      · rename_i b1 he
        split at he
        · simp at he
        · rename_i hnew
          simp only [Prod.mk.injEq, true_and] at he
          subst he
          obtain ⟨ds, h1, h2, h3⟩ := ih h
          refine ⟨d :: ds, .member (by simpa using ht) hd h1, by simp [h2], fun hnd => h3 ?_⟩
          simp only [List.map_append, List.map_cons, List.map_nil]
          rw [List.nodup_append]
          refine ⟨hnd, by simp, ?_⟩
          intro a ha b hb
          simp only [List.mem_singleton] at hb
          subst hb
          simp only [Bool.not_eq_true, List.any_eq_false, beq_iff_eq] at hnew
          obtain ⟨x, hx, rfl⟩ := List.mem_map.mp ha
          exact hnew x hx

theorem readWithMembers_ok {rm : Yaml → Except Err Defn} {u : Bool} {d : Yaml} {name : String}
    {x : Defn} (hr : readWithMembers rm u d name = .ok x) :
    ∃ es h h0 o items ds, d = .map es ∧ HdrRead valuesWithMembers d name h0 ∧
      AttrsRead attrsStorage es o ∧ h = { h0 with order := o.getD .native } ∧
      (entry es "members").truthy = true ∧ (entry es "members").iter = .ok items ∧
      MembersRead rm items ds ∧ (ds.map (·.name)).Nodup ∧
      x = (if u then .union h ds else .struct h ds) := by
  simp only [readWithMembers, bind_ok, guard_ok, Except.ok.injEq] at hr
  obtain ⟨ms, hms, ht, h0, hh, o, ho, items, hi, b, hb, rfl⟩ := hr
  have hh := readHdr_ok hh
  obtain ⟨es, rfl, _⟩ := hh.keys
  rw [get_map] at hms
  cases hms
  obtain ⟨ds, h1, h2, h3⟩ := addMembers_ok hb
  simp only [List.nil_append] at h2
  rw [h2] at h3 ⊢
  exact ⟨es, _, h0, o, items, ds, rfl, hh, readAttrs_ok ho, rfl, by simpa using ht, hi, h1,
    h3 (by simp), rfl⟩

/-- Items and the definitions they name. -/
inductive Named (E : Env) (reg : Registry) : List Yaml → List Defn → Prop
  | nil : Named E reg [] []
  | cons {n : String} {d : Defn} {ms : List Yaml} {ds : List Defn}
      (hd : reg.getByName E n = some d) (h : Named E reg ms ds) :
      Named E reg (.str n :: ms) (d :: ds)

theorem nodup_snoc {acc : List Defn} {d : Defn} (hnew : ¬ (acc.any (·.name == d.name)) = true)
    (hnd : (acc.map (·.name)).Nodup) : ((acc ++ [d]).map (·.name)).Nodup := by
  simp only [List.map_append, List.map_cons, List.map_nil]
  rw [List.nodup_append]
  refine ⟨hnd, by simp, ?_⟩
  intro a ha b hb
  simp only [List.mem_singleton] at hb
  subst hb
  simp only [Bool.not_eq_true, List.any_eq_false, beq_iff_eq] at hnew
  obtain ⟨x, hx, rfl⟩ := List.mem_map.mp ha
  exact hnew x hx

theorem addFamily_ok {E : Env} {reg : Registry} {ms : List Yaml} {acc ds : List Defn}
    (h : addFamily E reg acc ms = .ok ds) :
    ∃ r, Named E reg ms r ∧ ds = acc ++ r ∧ ((acc.map (·.name)).Nodup → (ds.map (·.name)).Nodup) := by
  induction ms generalizing acc with
  | nil => cases h; exact ⟨[], .nil, by simp, id⟩
  | cons m ms ih =>
    simp only [addFamily, bind_ok, guard_ok] at h
    obtain ⟨d, hd, hnew, h⟩ := h
    obtain ⟨n, rfl, hn⟩ := resolve_ok hd
    obtain ⟨r, h1, h2, h3⟩ := ih h
    exact ⟨d :: r, .cons hn h1, by simp [h2], fun hnd => h3 (nodup_snoc hnew hnd)⟩

theorem readFamily_ok {E : Env} {reg : Registry} {m : Bool} {d : Yaml} {name : String} {x : Defn}
    (hr : readFamily E reg m d name = .ok x) :
    m = false ∧ ∃ es h b base items ds, d = .map es ∧ HdrRead valuesFamily d name h ∧
      entry es "base" = .str b ∧ b ≠ "" ∧ reg.getByName E b = some base ∧
      (entry es "members").truthy = true ∧ (entry es "members").iter = .ok items ∧
      Named E reg items ds ∧ (ds.map (·.name)).Nodup ∧ x = .family h base ds := by
  simp only [readFamily, guard_ok, bind_ok, Except.ok.injEq, Bool.not_eq_true] at hr
  obtain ⟨hm, _, hk, bv, hbv, hbt, base, hbase, h, hh, mv, hmv, hmt, items, hi, ds, hds, rfl⟩ := hr
  obtain ⟨es, rfl, _⟩ := checkKeys_ok hk
  rw [get_map] at hbv hmv
  cases hbv; cases hmv
  obtain ⟨b, hb, hg⟩ := resolve_ok hbase
  obtain ⟨r, h1, h2, h3⟩ := addFamily_ok hds
  simp only [List.nil_append] at h2
  subst h2
  rw [hb] at hbt
  exact ⟨hm, es, h, b, base, items, ds, rfl, readHdr_ok hh, hb, by simpa [Yaml.truthy] using hbt, hg,
    by simpa using hmt, hi, h1, h3 (by simp), rfl⟩

theorem addGroup_ok {E : Env} {reg : Registry} {i : String} {ms : List Yaml} {acc ds : List Defn}
    (h : addGroup E reg i acc ms = .ok ds) :
    ∃ r, Named E reg ms r ∧ ds = acc ++ r ∧
      (∀ d ∈ r, ∃ inner, d.members? = some inner ∧ ∃ x ∈ inner, x.name = i) ∧
      ((acc.map (·.name)).Nodup → (ds.map (·.name)).Nodup) := by
  induction ms generalizing acc with
  | nil => cases h; exact ⟨[], .nil, by simp, by simp, id⟩
  | cons m ms ih =>
    simp only [addGroup, bind_ok] at h
    obtain ⟨d, hd, h⟩ := h
    obtain ⟨n, rfl, hn⟩ := resolve_ok hd
    split at h
    · cases h
    · rename_i inner hin
      simp only [guard_ok] at h
      obtain ⟨hid, hnew, h⟩ := h
      obtain ⟨r, h1, h2, h4, h3⟩ := ih h
      refine ⟨d :: r, .cons hn h1, by simp [h2], ?_, fun hnd => h3 (nodup_snoc hnew hnd)⟩
      intro y hy
      rcases List.mem_cons.mp hy with rfl | hy
      · refine ⟨inner, hin, ?_⟩
        simpa using hid
      · exact h4 y hy

theorem readGroup_ok {E : Env} {reg : Registry} {m : Bool} {d : Yaml} {name : String} {x : Defn}
    (hr : readGroup E reg m d name = .ok x) :
    m = false ∧ ∃ es h h0 b base i df items ds, d = .map es ∧ HdrRead valuesGroup d name h0 ∧
      h = { h0 with order := base.orderOrNative } ∧
      entry es "base" = .str b ∧ b ≠ "" ∧ reg.getByName E b = some base ∧
      entry es "identifier" = .str i ∧ i ≠ "" ∧
      (((entry es "default").truthy = false ∧ df = none) ∨
        ∃ n dd, entry es "default" = .str n ∧ n ≠ "" ∧ reg.getByName E n = some dd ∧ df = some dd) ∧
      (entry es "members").truthy = true ∧ (entry es "members").iter = .ok items ∧
      Named E reg items ds ∧ (ds.map (·.name)).Nodup ∧
      (∀ d ∈ ds, ∃ inner, d.members? = some inner ∧ ∃ x ∈ inner, x.name = i) ∧
      x = .group h base i df ds := by
  simp only [readGroup, guard_ok, bind_ok, Except.ok.injEq, Bool.not_eq_true] at hr
  obtain ⟨hm, _, hk, bv, hbv, hbt, base, hbase, iv, hiv, hit, dv, hdv, df, hdf, i, hi, h0, hh,
    mv, hmv, hmt, items, hit', ds, hds, rfl⟩ := hr
  obtain ⟨es, rfl, _⟩ := checkKeys_ok hk
  rw [get_map] at hbv hmv hiv hdv
  cases hbv; cases hmv; cases hiv; cases hdv
  obtain ⟨b, hb, hg⟩ := resolve_ok hbase
  obtain ⟨r, h1, h2, h4, h3⟩ := addGroup_ok hds
  simp only [List.nil_append] at h2
  subst h2
  rw [hb] at hbt
  have hi := text_ok hi
  rw [hi] at hit
  refine ⟨hm, es, _, h0, b, base, i, df, items, ds, rfl, readHdr_ok hh, rfl, hb,
    by simpa [Yaml.truthy] using hbt, hg, hi, by simpa [Yaml.truthy] using hit, ?_,
    by simpa using hmt, hit', h1, h3 (by simp), h4, rfl⟩
  unfold readDefault at hdf
  split at hdf
  · rename_i ht
    cases hdf
    exact .inl ⟨by simpa using ht, rfl⟩
  · rename_i ht
    right
    cases hres : resolve E reg (entry es "default") with
    | error e => rw [hres] at hdf; cases hdf
    | ok dd =>
      rw [hres] at hdf
      cases hdf
      obtain ⟨n, hn, hgn⟩ := resolve_ok hres
      rw [hn] at ht
      exact ⟨n, dd, hn, by simpa [Yaml.truthy] using ht, hgn, rfl⟩

/-- The values of an enumeration, in order. -/
inductive ValuesRead : List Yaml → List AddCall → Prop
  | nil : ValuesRead [] []
  | cons {es : List (Key × Yaml)} {n : String} {as : List String} {vs : List Yaml}
      {cs : List AddCall} (hn : entry es "name" = .str n) (he : n ≠ "")
      (hv : entry es "number" ≠ .null) (ha : (entry es "aliases").names = .ok as)
      (h : ValuesRead vs cs) :
      ValuesRead (.map es :: vs) (⟨n, (entry es "number").lit, as⟩ :: cs)

theorem addValues_ok {vs : List Yaml} {b b' : EnumBuilder} (h : addValues b vs = .ok b') :
    ∃ cs, ValuesRead vs cs ∧
      b' = cs.foldl (fun b c => (b.addValue c.name c.number c.aliases).2) b ∧
      b'.values = b.values ++ cs.map fun c => ⟨c.name, c.number, c.aliases⟩ := by
  induction vs generalizing b with
  | nil => cases h; exact ⟨[], .nil, rfl, by simp⟩
  | cons v vs ih =>
    simp only [addValues, bind_ok, guard_ok] at h
    obtain ⟨av, hav, nv, hnv, uv, huv, hc, n, hn, as, has, h⟩ := h
    obtain ⟨es, rfl, rfl⟩ := get_ok hav
    rw [get_map] at hnv huv
    cases hnv; cases huv
    have hn := text_ok hn
    simp only [Bool.or_eq_true, not_or, Bool.not_eq_true', Bool.not_eq_false] at hc
    rw [hn] at hc
    split at h
    · cases h
    · cases h
    · rename_i b1 he
      obtain ⟨cs, h1, h2, h3⟩ := ih h
      refine ⟨⟨n, (entry es "number").lit, as⟩ :: cs, .cons hn (by simpa [Yaml.truthy] using hc.1)
        (fun e => hc.2 (isNone_iff.mpr e)) has h1, ?_, ?_⟩
      · simp only [List.foldl_cons, he, h2]
      · rw [h3]
        have : b1.values = b.values ++ [⟨n, (entry es "number").lit, as⟩] := by
          unfold EnumBuilder.addValue at he
          split at he
          · cases he
          · split at he
            · cases he
            · split at he
              · cases he
              · split at he
                · cases he
                · cases he; rfl
        rw [this]
        simp

theorem readEnumeration_ok {m : Bool} {d : Yaml} {name : String} {x : Defn}
    (hr : readEnumeration m d name = .ok x) :
    m = false ∧ ∃ es h items cs, d = .map es ∧ HdrRead valuesEnumeration d name h ∧
      (entry es "values").truthy = true ∧ (entry es "values").iter = .ok items ∧
      ValuesRead items cs ∧ (EnumBuilder.run cs).values = (cs.map fun c => ⟨c.name, c.number, c.aliases⟩) ∧
      x = .enumeration h (EnumBuilder.run cs).values := by
  simp only [readEnumeration, guard_ok, bind_ok, Except.ok.injEq, Bool.not_eq_true] at hr
  obtain ⟨hm, vv, hvv, ht, h, hh, items, hi, b, hb, rfl⟩ := hr
  have hh := readHdr_ok hh
  obtain ⟨es, rfl, _⟩ := hh.keys
  rw [get_map] at hvv
  cases hvv
  obtain ⟨cs, h1, h2, h3⟩ := addValues_ok hb
  simp only [List.nil_append] at h3
  subst h2
  exact ⟨hm, es, h, items, cs, rfl, hh, by simpa using ht, hi, h1, h3, rfl⟩

/-- The elements of a layout, in order. -/
inductive LayoutRead : List Yaml → List (String × Option Int) → Prop
  | nil : LayoutRead [] []
  | cons {es : List (Key × Yaml)} {n : String} {o : Option Int} {ys : List Yaml}
      {l : List (String × Option Int)} (hn : entry es "data_type" = .str n) (he : n ≠ "")
      (hk : KeysIn valuesLayoutElement (.map es)) (ho : readOffset (entry es "offset") = .ok o)
      (h : LayoutRead ys l) : LayoutRead (.map es :: ys) ((n, o) :: l)

theorem readLayout_ok {ys : List Yaml} {l : List (String × Option Int)}
    (h : readLayout ys = .ok l) : LayoutRead ys l := by
  induction ys generalizing l with
  | nil => cases h; exact .nil
  | cons y ys ih =>
    simp only [readLayout, bind_ok, guard_ok, Except.ok.injEq] at h
    obtain ⟨dv, hdv, ov, hov, ht, _, hk, n, hn, o, ho, r, hr, rfl⟩ := h
    obtain ⟨es, rfl, rfl⟩ := get_ok hdv
    rw [get_map] at hov
    cases hov
    have hn := text_ok hn
    rw [hn] at ht
    exact .cons hn (by simpa [Yaml.truthy] using ht) (checkKeys_ok hk) ho (ih hr)

theorem readFormat_ok {m : Bool} {d : Yaml} {name : String} {x : Defn}
    (hr : readFormat m d name = .ok x) :
    m = false ∧ ∃ es h items l o, d = .map es ∧ HdrRead valuesFormat d name h ∧
      (entryD es "layout" (.list [])).iter = .ok items ∧
      LayoutRead items l ∧ AttrsRead attrsFormat es o ∧ x = .format h o l := by
  simp only [readFormat, guard_ok, bind_ok, Except.ok.injEq, Bool.not_eq_true] at hr
  obtain ⟨hm, h, hh, lv, hlv, items, hi, l, hl, o, ho, rfl⟩ := hr
  have hh := readHdr_ok hh
  obtain ⟨es, rfl, _⟩ := hh.keys
  rw [getD_map] at hlv
  cases hlv
  exact ⟨hm, es, h, items, l, o, rfl, hh, hi, readLayout_ok hl, readAttrs_ok ho, rfl⟩

/-- The texts of the integer formats. -/
def signText : Bool → String
  | true => "unsigned"
  | false => "signed"

theorem readSignedness_ok {a : Yaml} {u : Bool} (h : readSignedness a = .ok u) :
    ∃ es, a = .map es ∧
      entryD es "format" (.str "signed") = .str (signText u) := by
  simp only [readSignedness, bind_ok] at h
  obtain ⟨v, hv, h⟩ := h
  cases a <;> simp [Yaml.getD] at hv
  rename_i es
  refine ⟨es, rfl, ?_⟩
  rw [entryD, hv]
  split at h
  · cases h
  · split at h <;> cases h <;> rfl

/-- The format of an integer, signed without attributes. -/
inductive SignRead (es : List (Key × Yaml)) : Bool → Prop
  | absent (h : (entry es "attributes").truthy = false) : SignRead es false
  | present {as : List (Key × Yaml)} {u : Bool} (ht : (entry es "attributes").truthy = true)
      (hm : entry es "attributes" = .map as)
      (hs : entryD as "format" (.str "signed") =
        .str (signText u)) : SignRead es u

theorem readInteger_ok {E : Env} {m : Bool} {d : Yaml} {name : String} {x : Defn}
    (hr : readInteger E m d name = .ok x) :
    ∃ es h h0 o s u un, d = .map es ∧
      HdrRead (if m then valuesMember else valuesStorage) d name h0 ∧
      AttrsRead attrsInteger es o ∧ h = { h0 with order := o.getD .native } ∧
      FixedRead attrsInteger (.str "native") .native [1, 2, 4, 8] es s u ∧ SignRead es un ∧
      x = .prim h (.integer un) s u := by
  simp only [readInteger, bind_ok] at hr
  obtain ⟨⟨h, s, u⟩, hf, av, hav, hr⟩ := hr
  obtain ⟨es, h0, o, rfl, hh, ho, he, hfr⟩ := readFixed_ok hf
  rw [get_map] at hav
  cases hav
  split at hr
  · rename_i ht
    simp only [bind_ok, Except.ok.injEq] at hr
    obtain ⟨un, hun, rfl⟩ := hr
    obtain ⟨as, has, hs⟩ := readSignedness_ok hun
    exact ⟨es, h, h0, o, s, u, un, rfl, hh, ho, he, hfr, .present ht has hs, rfl⟩
  · rename_i ht
    cases hr
    exact ⟨es, h, h0, o, s, u, false, rfl, hh, ho, he, hfr, .absent (by simpa using ht), rfl⟩

/-- The supported values of a member. -/
theorem memberCondition_ok {y : Yaml} {c : Option String} (h : memberCondition y = .ok c) :
    truthyStr c = y.truthy := by
  unfold memberCondition at h
  split at h
  · cases h; simp [truthyStr, Yaml.truthy]
  · split at h
    · cases h
    · cases h; simp_all [truthyStr]

theorem supportedValues_ok {v vs : Yaml} {sv : Option (List Lit)}
    (h : supportedValues v vs = .ok sv) :
    (sv = none ∧ (valueList v vs).truthy = false) ∨
    ∃ items ls, (valueList v vs).truthy = true ∧
      (valueList v vs).iter = .ok items ∧
      items.mapM supportedValue = .ok ls ∧ sv = some ls := by
  simp only [supportedValues] at h
  split at h
  · rename_i ht
    simp only [bind_ok, Except.ok.injEq] at h
    obtain ⟨items, hi, ls, hl, rfl⟩ := h
    exact .inr ⟨items, ls, ht, hi, hl, rfl⟩
  · rename_i ht
    cases h
    exact .inl ⟨rfl, by simpa using ht⟩

/-- A member: the name, and either an inline type or the name of a data type. -/
structure MemberRead (E : Env) (reg : Registry) (rm : Bool → Yaml → Except Err Defn)
    (conditions : Bool) (es : List (Key × Yaml)) (x : Defn) : Prop where
  nonempty : es ≠ []
  name : ∃ nm, memberName (entry es "name") = .ok nm ∧
    (nm = "" → entry es "type" = .str "union") ∧
    ∃ sv c, supportedValues (entry es "value") (entry es "values") = .ok sv ∧
      memberCondition (entry es "condition") = .ok c ∧
      ((∃ ty t inner, entry es "type" = .str ty ∧ TypeInd.ofString ty = some t ∧
          entry es "data_type" = .null ∧
          readTyped E reg rm t true (.map es) nm = .ok inner ∧
          x = (if truthyStr c || sv.isSome then
            .member { name := nm, order := inner.orderOrNative } inner c none sv else inner)) ∨
       (∃ dt inner h, entry es "data_type" = .str dt ∧ entry es "type" = .null ∧
          reg.getByName E dt = some inner ∧ KeysIn valuesMember (.map es) ∧ h.name = nm ∧
          x = .member h inner c (some dt) sv))
  condition : conditions = false → (entry es "condition").truthy = false
  values : entry es "value" = .null ∨ entry es "values" = .null

theorem callback_ok {y : Yaml} {t : TypeInd} (h : callback y = .ok t) :
    ∃ s, y = .str s ∧ TypeInd.ofString s = some t := by
  unfold callback at h
  split at h
  · cases h
  · split at h
    · split at h
      · cases h; exact ⟨_, rfl, by assumption⟩
      · cases h
    all_goals cases h

theorem readMember_ok {E : Env} {reg : Registry} {fuel : Nat} {c : Bool} {d : Yaml} {x : Defn}
    (hr : readMember E reg (fuel + 1) c d = .ok x) :
    ∃ es, d = .map es ∧ MemberRead E reg (readMember E reg fuel) c es x := by
  rw [readMember] at hr
  simp only [bind_ok, guard_ok] at hr
  obtain ⟨hd, nv, hnv, ty, hty, hnt, nm, hnm, dv, hdv, h1, h2, cv, hcv, hc, vv, hvv, vs, hvs, h3,
    sv, hsv, hr⟩ := hr
  obtain ⟨es, rfl, rfl⟩ := get_ok hnv
  rw [get_map] at hty hdv hcv hvv hvs
  cases hty; cases hdv; cases hcv; cases hvv; cases hvs
  refine ⟨es, rfl, ⟨?_, ⟨nm, hnm, ?_, ?_⟩, ?_, ?_⟩⟩
  · rintro rfl; simp [Yaml.truthy] at hd
  · rintro rfl
    have : entry es "name" = .null := by
      unfold memberName at hnm
      split at hnm
      · assumption
      · split at hnm
        · cases hnm
        · cases hnm; simp_all
      · cases hnm
    rw [this] at hnt
    simp only [Yaml.truthy, Bool.not_false, Bool.true_and] at hnt
    split at hnt
    · assumption
    · simp at hnt
  · split at hr
    · rename_i ht
      simp only [bind_ok] at hr
      obtain ⟨t, htt, inner, hin, cond, hcond, hr⟩ := hr
      obtain ⟨s, hs, ho⟩ := callback_ok htt
      refine ⟨sv, cond, hsv, hcond, .inl ⟨s, t, inner, hs, ho, ?_, hin, ?_⟩⟩
      · rw [hs] at h2
        simp only [Bool.and_eq_true, not_and, Bool.not_eq_true', Bool.not_eq_false] at h2
        cases hn : (entry es "data_type").isNone
        · have := h2 hn
          simp [Yaml.isNone] at this
        · exact isNone_iff.mp hn
      · rw [memberCondition_ok hcond]
        split at hr <;> cases hr <;> simp_all
    · rename_i ht
      simp only [bind_ok, Except.ok.injEq] at hr
      obtain ⟨inner, hin, _, hk, av, hav, dv, hdv, as, has, desc, hdesc, dt, hdt, cond, hcond, rfl⟩ := hr
      obtain ⟨n, hn, hg⟩ := resolve_ok hin
      have hdt := text_ok hdt
      have hdn : dt = n := by rw [hn] at hdt; cases hdt; rfl
      subst hdn
      refine ⟨sv, cond, hsv, hcond, .inr ⟨dt, inner, _, hn, ?_, hg, checkKeys_ok hk, rfl, rfl⟩⟩
      simp only [Bool.not_eq_true', Bool.not_eq_false] at ht
      exact isNone_iff.mp ht
  · rintro rfl
    simpa using hc
  · simp only [Bool.and_eq_true, Bool.not_eq_true', not_and, Bool.not_eq_false] at h3
    cases hn : (entry es "value").isNone
    · exact .inr (isNone_iff.mp (h3 hn))
    · exact .inl (isNone_iff.mp hn)

theorem readDefinition_ok {E : Env} {reg : Registry} {d : Yaml} {x : Defn}
    (hr : readDefinition E reg d = .ok x) :
    ∃ es nm ty t, d = .map es ∧ entry es "name" = .str nm ∧ nm ≠ "" ∧ entry es "type" = .str ty ∧
      TypeInd.ofString ty = some t ∧
      readTyped E reg (readMember E reg d.depth) t false d nm = .ok x := by
  simp only [readDefinition, bind_ok, guard_ok] at hr
  obtain ⟨hd, nv, hnv, hnt, nm, hnm, tv, htv, htt, t, ht, hr⟩ := hr
  obtain ⟨es, rfl, rfl⟩ := get_ok hnv
  rw [get_map] at htv
  cases htv
  have hnm := text_ok hnm
  rw [hnm] at hnt
  obtain ⟨s, hs, ho⟩ := callback_ok ht
  exact ⟨es, nm, s, t, rfl, hnm, by simpa [Yaml.truthy] using hnt, hs, ho, hr⟩

/-! ### The bound on the recursion -/

theorem depth_pos (y : Yaml) : 1 ≤ y.depth := by
  cases y <;> simp [Yaml.depth]

theorem depthList_mem {l : List Yaml} {y : Yaml} (h : y ∈ l) : y.depth ≤ depthList l := by
  induction l with
  | nil => cases h
  | cons z l ih =>
    simp only [depthList]
    rcases List.mem_cons.mp h with rfl | h
    · omega
    · have := ih h; omega

theorem depthEntries_mem {es : List (Key × Yaml)} {e : Key × Yaml} (h : e ∈ es) :
    e.2.depth ≤ depthEntries es := by
  induction es with
  | nil => cases h
  | cons f es ih =>
    simp only [depthEntries]
    rcases List.mem_cons.mp h with rfl | h
    · rcases e with ⟨k, y⟩
      simp only [depthEntry]
      omega
    · have := ih h; omega

theorem entry_depth (es : List (Key × Yaml)) (k : String) (h : es ≠ []) :
    (entry es k).depth ≤ depthEntries es := by
  unfold entry entryD
  cases hf : es.find? (·.1 == .str k) with
  | none =>
    cases es with
    | nil => exact absurd rfl h
    | cons e es =>
      have h1 := depthEntries_mem (es := e :: es) List.mem_cons_self
      have h2 := depth_pos e.2
      show Yaml.null.depth ≤ _
      simp only [Yaml.depth]
      omega
  | some p => exact depthEntries_mem (List.mem_of_find?_eq_some hf)

/-- Items of a member list are less deep than the document. -/
theorem iter_depth {y : Yaml} {items : List Yaml} (h : y.iter = .ok items) {m : Yaml} (hm : m ∈ items) :
    m.depth ≤ y.depth := by
  cases y <;> simp only [Yaml.iter, reduceCtorEq, Except.ok.injEq] at h
  all_goals subst h
  case list l =>
    have := depthList_mem hm
    simp only [Yaml.depth]; omega
  all_goals
    obtain ⟨e, _, rfl⟩ := List.mem_map.mp hm
  case map => rcases e with ⟨_ | _, _⟩ <;> simp [Yaml.depth]
  all_goals simp [Yaml.depth]

theorem addMembers_congr {rm rm' : Yaml → Except Err Defn} {ms : List Yaml}
    (h : ∀ m ∈ ms, rm m = rm' m) (b : Builder) : addMembers rm b ms = addMembers rm' b ms := by
  induction ms generalizing b with
  | nil => rfl
  | cons m ms ih =>
    have ih := ih fun m hm => h m (List.mem_cons_of_mem _ hm)
    have hm := h m List.mem_cons_self
    unfold addMembers
    rw [hm]
    simp only [ih]

theorem readWithMembers_congr {rm rm' : Yaml → Except Err Defn} {d : Yaml}
    (h : ∀ m, m.depth < d.depth → rm m = rm' m) (u : Bool) (name : String) :
    readWithMembers rm u d name = readWithMembers rm' u d name := by
  unfold readWithMembers
  cases hg : d.get "members" with
  | error e => rfl
  | ok ms =>
    obtain ⟨es, rfl, rfl⟩ := get_ok hg
    show (if _ then _ else _) = (if _ then _ else _)
    congr 1
    congr 1; funext _
    congr 1; funext _
    cases hi : (entry es "members").iter with
    | error e => rfl
    | ok items =>
      have : ∀ b, addMembers rm b items = addMembers rm' b items := by
        intro b
        apply addMembers_congr
        intro m hm
        apply h
        have h1 := iter_depth hi hm
        have hne : es ≠ [] := by
          rintro rfl
          cases hi
        have h2 := entry_depth es "members" hne
        simp only [Yaml.depth]
        omega
      show (addMembers rm _ items >>= _) = (addMembers rm' _ items >>= _)
      rw [this]

theorem readTyped_congr {E : Env} {reg : Registry} {rm rm' : Bool → Yaml → Except Err Defn}
    {d : Yaml} (h : ∀ c m, m.depth < d.depth → rm c m = rm' c m) (t : TypeInd) (mem : Bool)
    (name : String) : readTyped E reg rm t mem d name = readTyped E reg rm' t mem d name := by
  cases t <;> simp only [readTyped]
  · rw [readWithMembers_congr (h true)]
  · rw [readWithMembers_congr (h false)]

/-- The bound of `readMember` does not matter as long as it is not below the depth
of the document: the recursion never runs into it. -/
theorem readMember_fuel (E : Env) (reg : Registry) (f g : Nat) (c : Bool) (d : Yaml)
    (hf : d.depth ≤ f) (hg : d.depth ≤ g) : readMember E reg f c d = readMember E reg g c d := by
  induction f generalizing g c d with
  | zero => have := depth_pos d; omega
  | succ f ih =>
    cases g with
    | zero => have := depth_pos d; omega
    | succ g =>
      have hc : ∀ c m, m.depth < d.depth → readMember E reg f c m = readMember E reg g c m :=
        fun c m hm => ih g c m (by omega) (by omega)
      have := fun t nm => readTyped_congr (E := E) (reg := reg) hc t true nm
      unfold readMember
      simp only [this]

/-- `readDefinition` with any larger bound. -/
theorem readDefinition_fuel (E : Env) (reg : Registry) (d : Yaml) (f : Nat) (hf : d.depth ≤ f)
    (t : TypeInd) (nm : String) :
    readTyped E reg (readMember E reg d.depth) t false d nm =
      readTyped E reg (readMember E reg f) t false d nm :=
  readTyped_congr (fun c m hm => readMember_fuel E reg _ _ c m (by omega) (by omega)) t false nm

end Dtf
