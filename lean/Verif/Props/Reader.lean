import Verif.ReaderLemmas
import Verif.Props.Registry
import Verif.Props.Definitions
/-!
# Properties C41, C42, C44: what the reader registers
-/
namespace Dtf

namespace Spec

/-- The document cannot be read, or its definition cannot be registered. -/
def Fails (E : Env) (r : Registry) (d : Yaml) : Prop :=
  (∃ e, readDefinition E r d = .error e) ∨
  ∃ x e, readDefinition E r d = .ok x ∧ (r.register E x).1 = .error e

/-- `Loaded E r ds xs r'`: starting from registry `r` every document of `ds` was
read, with the definitions registered so far, and its definition registered, in
order; `xs` are the definitions and `r'` is the registry afterwards. -/
inductive Loaded (E : Env) : Registry → List Yaml → List Defn → Registry → Prop
  | nil (r : Registry) : Loaded E r [] [] r
  | cons {r r1 r2 : Registry} {d : Yaml} {x : Defn} {ds : List Yaml} {xs : List Defn}
      (hd : readDefinition E r d = .ok x) (hr : r.register E x = (.ok (), r1))
      (h : Loaded E r1 ds xs r2) : Loaded E r (d :: ds) (x :: xs) r2

end Spec
open Spec

/-! ### C44: reading stops at the first bad document -/

theorem register_pair {E : Env} {r r' : Registry} {x : Defn} {res : Except Err Unit}
    (h : r.register E x = (res, r')) :
    (res = .ok () ∧ r'.getDefinitions = r.getDefinitions ++ [x]) ∨ (res = .error .key ∧ r' = r) := by
  cases res with
  | ok u =>
    obtain ⟨-, -, -, h4, -⟩ := register_ok (E := E) (r := r) (d := x) (by rw [h])
    rw [h] at h4
    left
    refine ⟨rfl, ?_⟩
    simp only [Registry.getDefinitions]
    rw [h4]; simp
  | error e =>
    obtain ⟨rfl, h2⟩ := register_error (E := E) (r := r) (d := x) (e := e) (by rw [h])
    rw [h] at h2
    exact .inr ⟨rfl, h2⟩

theorem readDocs_loaded (E : Env) (ds : List Yaml) (r : Registry) :
    ∃ k xs, k ≤ ds.length ∧ Loaded E r (ds.take k) xs (readDocs E r ds).2 ∧
      (∀ h : k < ds.length, Fails E (readDocs E r ds).2 ds[k] ∧ ∃ e, (readDocs E r ds).1 = .error e ∧
        (readDefinition E (readDocs E r ds).2 ds[k] = .error e ∨ e = .key)) ∧
      (k = ds.length → (readDocs E r ds).1 = .ok ()) := by
  induction ds generalizing r with
  | nil => exact ⟨0, [], Nat.le_refl _, .nil r, fun h => absurd h (Nat.lt_irrefl _), fun _ => rfl⟩
  | cons d ds ih =>
    unfold readDocs
    cases hd : readDefinition E r d with
    | error e =>
      refine ⟨0, [], Nat.zero_le _, .nil r, fun _ => ⟨.inl ⟨e, hd⟩, e, rfl, .inl hd⟩, fun h => ?_⟩
      simp at h
    | ok x =>
      cases hp : r.register E x with
      | mk res r1 =>
        cases res with
        | error e =>
          rcases register_pair hp with ⟨h, _⟩ | ⟨he, hr⟩
          · cases h
          · cases he
            subst hr
            simp only [hp]
            refine ⟨0, [], Nat.zero_le _, .nil r1,
              fun _ => ⟨.inr ⟨x, .key, hd, by rw [hp]⟩, .key, rfl, .inr rfl⟩, fun h => ?_⟩
            simp at h
        | ok u =>
          obtain ⟨k, xs, hk, h1, h2, h3⟩ := ih r1
          refine ⟨k + 1, x :: xs, Nat.succ_le_succ hk, ?_, ?_, ?_⟩
          · simp only [hp]
            exact .cons hd hp h1
          · intro hlt
            simp only [hp]
            exact h2 (Nat.lt_of_succ_lt_succ hlt)
          · intro he
            simp only [hp]
            exact h3 (by simpa using he)

theorem Spec.Loaded.definitions {E : Env} {r r' : Registry} {ds : List Yaml} {xs : List Defn}
    (h : Loaded E r ds xs r') : r'.getDefinitions = r.getDefinitions ++ xs := by
  induction h with
  | nil r => simp
  | cons hd hr h ih =>
    rcases register_pair hr with ⟨_, h⟩ | ⟨h, _⟩
    · rw [ih, h]; simp
    · cases h

/-- **C44** ReadFileObject registers, in order, the definitions of the first `k`
documents and nothing else. If `k` is not the number of documents, document `k`
fails and an error is raised; if it is, an error is raised exactly when the YAML
parser reports one after the last document. -/
theorem C44_stops (E : Env) (r : Registry) (f : YamlFile) :
    ∃ k xs, k ≤ f.docs.length ∧ Loaded E r (f.docs.take k) xs (readFileObject E r f).2 ∧
      (readFileObject E r f).2.getDefinitions = r.getDefinitions ++ xs ∧
      (∀ h : k < f.docs.length, Fails E (readFileObject E r f).2 f.docs[k] ∧
        ∃ e, (readFileObject E r f).1 = .error e) ∧
      (k = f.docs.length → ((readFileObject E r f).1 = .ok () ↔ f.ending = .done)) := by
  obtain ⟨k, xs, hk, h1, h2, h3⟩ := readDocs_loaded E f.docs r
  have hreg : (readFileObject E r f).2 = (readDocs E r f.docs).2 := by
    unfold readFileObject
    generalize readDocs E r f.docs = p
    rcases p with ⟨_ | _, _⟩
    · rfl
    · simp only; split <;> rfl
  rw [hreg]
  refine ⟨k, xs, hk, h1, h1.definitions, fun hlt => ⟨(h2 hlt).1, ?_⟩, fun he => ?_⟩
  · obtain ⟨e, he, _⟩ := (h2 hlt).2
    refine ⟨asFormat e, ?_⟩
    unfold readFileObject
    generalize readDocs E r f.docs = p at he
    rcases p with ⟨_ | _, _⟩
    · cases he; rfl
    · cases he
  · have h3 := h3 he
    unfold readFileObject
    generalize readDocs E r f.docs = p at h3
    rcases p with ⟨_ | _, _⟩
    · cases h3
    · simp only
      cases f.ending <;> simp

/-! ### C41: registered definitions are well-formed -/

namespace Spec

/-- The sizes a primitive data type supports. -/
def supportedSizes : PrimKind → List Nat
  | .boolean _ _ | .character => [1, 2, 4]
  | .floatingPoint => [4, 8]
  | .integer _ => [1, 2, 4, 8]

/-- A definition that can be registered: not one that only exists as a member. -/
def Registrable : Defn → Prop
  | .padding _ _ | .member _ _ _ _ _ => False
  | d => d.name ≠ ""

/-- A member without condition. -/
def Unconditional : Defn → Prop
  | .member _ _ c _ _ => c = none ∨ c = some ""
  | _ => True

/-- A type that can be given in a member definition instead of the name of a type. -/
def Inline : Defn → Prop
  | .prim _ _ _ _ | .uuid _ _ _ | .padding _ _ | .seq _ _ _ => True
  | _ => False

/-- Members have distinct names and only unions have no name. -/
def MemberNames (ms : List Defn) : Prop :=
  (ms.map Defn.name).Nodup ∧ ∀ m ∈ ms, m.name = "" → ∃ h xs, m = .union h xs

/-- What the reader guarantees for one definition. -/
def WellFormed : Defn → Prop
  | .prim _ k s _ => (s = .native ∨ ∃ n ∈ supportedSizes k, s = .bytes n) ∧ k ≠ .boolean none none
  | .uuid _ s _ => s = .native ∨ s = .bytes 16
  | .padding _ a => ∃ n ∈ [2, 4, 8, 16], a = some n
  | .seq _ i e =>
    (i.dataSize.isSome ∨ i.dataSizeExpr.isSome ∨ i.terminator.isSome ∨ i.numElements.isSome ∨
      i.numElementsExpr.isSome) ∧
    ¬ ((i.dataSize.isSome ∨ i.dataSizeExpr.isSome) ∧
      (i.numElements.isSome ∨ i.numElementsExpr.isSome)) ∧
    (∀ enc, i.kind = .string enc → enc ≠ "") ∧ Registrable e ∧ i.elementDataType ≠ none
  | .struct _ ms => MemberNames ms
  | .union _ ms => MemberNames ms ∧ ∀ m ∈ ms, Unconditional m
  | .constant _ v => v ≠ .null
  | .enumeration _ vs => vs ≠ [] ∧ vs.Pairwise fun v w =>
      v.name ≠ w.name ∧ ¬ Alike v.number w.number ∧ ∀ a ∈ v.aliases, a ∉ w.aliases
  | .format _ _ l => ∀ p ∈ l, p.1 ≠ ""
  | .family _ b ms => Registrable b ∧ ms ≠ [] ∧ (ms.map Defn.name).Nodup ∧ ∀ m ∈ ms, Registrable m
  | .group _ b i df ms => Registrable b ∧ (∀ x, df = some x → Registrable x) ∧ i ≠ "" ∧ ms ≠ [] ∧
      (ms.map Defn.name).Nodup ∧
      ∀ m ∈ ms, Registrable m ∧ ∃ inner, m.members? = some inner ∧ i ∈ inner.map Defn.name
  | .member _ t _ dt vs => vs ≠ some [] ∧ (dt = none → Inline t)

/-- The registry after reading files one after the other into an empty registry;
files that fail are passed over. -/
def readFiles (E : Env) (fs : List YamlFile) : Registry :=
  fs.foldl (fun r f => (readFileObject E r f).2) {}

end Spec

/-- What holds of every definition of a registry. -/
def RegOk (E : Env) (reg : Registry) : Prop :=
  ∀ n x, reg.getByName E n = some x → x.Every WellFormed ∧ Registrable x

theorem getByName_mem {E : Env} {reg : Registry} {n : String} {x : Defn}
    (h : reg.getByName E n = some x) : x ∈ reg.getDefinitions := by
  unfold Registry.getByName at h
  exact List.mem_map.mpr ⟨_, mem_of_dictGet h, rfl⟩

/-- What a read member satisfies. -/
def MemberRd (conditions : Bool) (x : Defn) : Prop :=
  x.Every WellFormed ∧ (conditions = false → Unconditional x) ∧
    (x.name = "" → ∃ h xs, x = .union h xs)

theorem fixed_wf {h : Hdr} {k : PrimKind} {s : Size} {u : String} {attrs : List String}
    {es : List (Key × Yaml)}
    (hf : FixedRead attrs (.str "native") .native (supportedSizes k) es s u)
    (hk : k ≠ .boolean none none) : WellFormed (.prim h k s u) := by
  refine ⟨?_, hk⟩
  rcases hf.size with h | h | h
  · exact .inl h
  · exact .inl h
  · exact .inr h

theorem rule_some {E : Env} {y : Yaml} {a : Option Int} {b : Option String}
    (h : RuleRead E y a b) : y ≠ .null ↔ a.isSome ∨ b.isSome := by
  cases h with
  | absent h => simp [h]
  | number hn _ => simp [hn]
  | expr h _ => simp [h]

theorem term_some {y : Yaml} {t : Option Lit} (h : TermRead y t) : y ≠ .null ↔ t.isSome := by
  cases h with
  | absent h => simp [h]
  | text h _ => simp [h]
  | value hn _ => simp [hn]

theorem elements_wf {E : Env} {reg : Registry} (hreg : RegOk E reg) {sup : List String}
    {es : List (Key × Yaml)} {name : String} {h : Hdr} {i : SeqInfo} {e : Defn}
    (hr : ElementsRead E reg sup es name h i e) (hk : ∀ enc, i.kind = .string enc → enc ≠ "") :
    (Defn.seq h i e).Every WellFormed := by
  obtain ⟨n, _, _, hd, hg⟩ := hr.element
  obtain ⟨he, ht⟩ := hreg n e hg
  refine ⟨⟨?_, ?_, hk, ht, by simp [hd]⟩, he⟩
  · have h1 := rule_some hr.size
    have h2 := rule_some hr.number
    have h3 := term_some hr.terminator
    rcases hr.some_rule with h | h | h
    · rcases h1.mp h with h | h <;> simp [h]
    · simp [h3.mp h]
    · rcases h2.mp h with h | h <;> simp [h]
  · rintro ⟨ha, hb⟩
    rcases hr.not_both with h | h
    · exact (rule_some hr.size).mpr ha h
    · exact (rule_some hr.number).mpr hb h

theorem elements_name {E : Env} {reg : Registry} {sup : List String} {es : List (Key × Yaml)}
    {name : String} {h : Hdr} {i : SeqInfo} {e : Defn}
    (hr : ElementsRead E reg sup es name h i e) : h.name = name := by
  obtain ⟨h0, hh, rfl⟩ := hr.hdr
  exact hh.name

theorem membersRead_mem {rm : Yaml → Except Err Defn} {ms : List Yaml} {ds : List Defn}
    (h : MembersRead rm ms ds) : ∀ d ∈ ds, ∃ es, .map es ∈ ms ∧ rm (.map es) = .ok d ∧
      (entry es "section").truthy = false := by
  induction h with
  | nil => simp
  | sect hs h ih =>
    intro d hd
    obtain ⟨es, h1, h2⟩ := ih d hd
    exact ⟨es, List.mem_cons_of_mem _ h1, h2⟩
  | member hs hd h ih =>
    intro d hm
    rcases List.mem_cons.mp hm with rfl | hm
    · exact ⟨_, List.mem_cons_self, hd, hs⟩
    · obtain ⟨es, h1, h2⟩ := ih d hm
      exact ⟨es, List.mem_cons_of_mem _ h1, h2⟩

theorem named_mem {E : Env} {reg : Registry} {ms : List Yaml} {ds : List Defn}
    (h : Named E reg ms ds) : ∀ d ∈ ds, ∃ n, .str n ∈ ms ∧ reg.getByName E n = some d := by
  induction h with
  | nil => simp
  | cons hd h ih =>
    intro d hm
    rcases List.mem_cons.mp hm with rfl | hm
    · exact ⟨_, List.mem_cons_self, hd⟩
    · obtain ⟨n, h1, h2⟩ := ih d hm
      exact ⟨n, List.mem_cons_of_mem _ h1, h2⟩

theorem named_ne {E : Env} {reg : Registry} {ms : List Yaml} {ds : List Defn}
    (h : Named E reg ms ds) (hm : ms ≠ []) : ds ≠ [] := by
  cases h with
  | nil => exact absurd rfl hm
  | cons _ _ => simp

theorem iter_ne {y : Yaml} {l : List Yaml} (ht : y.truthy = true) (h : y.iter = .ok l) : l ≠ [] := by
  cases y <;> simp [Yaml.iter] at h
  · rename_i s
    subst h
    simp only [Yaml.truthy, bne_iff_ne, ne_eq] at ht
    intro e
    apply ht
    rw [List.map_eq_nil_iff] at e
    simpa using e
  · subst h; simpa [Yaml.truthy] using ht
  · subst h; simpa [Yaml.truthy] using ht
  · subst h; simpa [Yaml.truthy] using ht

theorem lit_ne {y : Yaml} (h : y ≠ .null) : y.lit ≠ .null := by
  cases y <;> simp_all [Yaml.lit]

theorem layout_wf {ys : List Yaml} {l : List (String × Option Int)} (h : LayoutRead ys l) :
    ∀ p ∈ l, p.1 ≠ "" := by
  induction h with
  | nil => simp
  | cons hn he hk ho h ih =>
    intro p hp
    rcases List.mem_cons.mp hp with rfl | hp
    · exact he
    · exact ih p hp

theorem values_ne {vs : List Yaml} {cs : List AddCall} (h : ValuesRead vs cs) (hv : vs ≠ []) :
    cs ≠ [] := by
  cases h with
  | nil => exact absurd rfl hv
  | cons => simp

theorem withMembers_wf {rm : Yaml → Except Err Defn} {c u : Bool} (hcu : c = !u)
    (hrm : ∀ m x, rm m = .ok x → MemberRd c x) {d : Yaml} {name : String} {x : Defn}
    (hr : readWithMembers rm u d name = .ok x) :
    x.Every WellFormed ∧ x.name = name ∧
      ((∃ h ds, x = .union h ds) ∨ (u = false ∧ ∃ h ds, x = .struct h ds)) := by
  obtain ⟨es, h, h0, o, items, ds, rfl, hh, -, he, -, -, hm, hnd, rfl⟩ := readWithMembers_ok hr
  have hall : ∀ m ∈ ds, MemberRd c m := by
    intro m hm'
    obtain ⟨es, _, h2, _⟩ := membersRead_mem hm m hm'
    exact hrm _ _ h2
  have hnames : MemberNames ds := ⟨hnd, fun m hm h => (hall m hm).2.2 h⟩
  cases u with
  | true =>
    subst hcu
    refine ⟨⟨⟨hnames, fun m hm => (hall m hm).2.1 rfl⟩, ?_⟩, ?_, .inl ⟨_, _, rfl⟩⟩
    · rw [everyDefn_iff]; exact fun m hm => (hall m hm).1
    · show h.name = name
      rw [he]; exact hh.name
  | false =>
    refine ⟨⟨hnames, ?_⟩, ?_, .inr ⟨rfl, _, _, rfl⟩⟩
    · rw [everyDefn_iff]; exact fun m hm => (hall m hm).1
    · show h.name = name
      rw [he]; exact hh.name

theorem readTyped_wf {E : Env} {reg : Registry} (hreg : RegOk E reg)
    {rm : Bool → Yaml → Except Err Defn} (hrm : ∀ c m x, rm c m = .ok x → MemberRd c x)
    {t : TypeInd} {mem : Bool} {d : Yaml} {name : String} {x : Defn}
    (hr : readTyped E reg rm t mem d name = .ok x) :
    x.Every WellFormed ∧ x.name = name ∧ (mem = false → name ≠ "" → Registrable x) ∧
      Unconditional x ∧ (t = .union → ∃ h xs, x = .union h xs) := by
  have hfix : ∀ {attrs dflt init sizes h s u} {k : PrimKind},
      readFixed E attrs dflt init sizes mem d name = .ok (h, s, u) → h.name = name := by
    intro attrs dflt init sizes h s u k hf
    obtain ⟨es, h0, o, rfl, hh, -, rfl, -⟩ := readFixed_ok hf
    exact hh.name
  have hprim : ∀ {h : Hdr} {k s u}, h.name = name → WellFormed (.prim h k s u) →
      (Defn.prim h k s u).Every WellFormed ∧ (Defn.prim h k s u).name = name ∧
      (mem = false → name ≠ "" → Registrable (.prim h k s u)) ∧ Unconditional (.prim h k s u) := by
    intro h k s u hn hw
    exact ⟨hw, hn, fun _ hne => by show h.name ≠ ""; rw [hn]; exact hne, trivial⟩
  have hseq : ∀ {sup es h i e}, ElementsRead E reg sup es name h i e →
      (∀ enc, i.kind = .string enc → enc ≠ "") →
      (Defn.seq h i e).Every WellFormed ∧ (Defn.seq h i e).name = name ∧
      (mem = false → name ≠ "" → Registrable (.seq h i e)) ∧ Unconditional (.seq h i e) := by
    intro sup es h i e he hk
    have hn := elements_name he
    exact ⟨elements_wf hreg he hk, hn, fun _ hne => by show h.name ≠ ""; rw [hn]; exact hne, trivial⟩
  cases t with
  | boolean =>
    simp only [readTyped, readBoolean, bind_ok, Except.ok.injEq] at hr
    obtain ⟨⟨h, s, u⟩, hf, rfl⟩ := hr
    obtain ⟨es, h0, o, rfl, hh, -, rfl, hfr⟩ := readFixed_ok hf
    obtain ⟨a, b, c, e⟩ := hprim (k := .boolean (some 0) none) hh.name (fixed_wf hfr (by simp))
    exact ⟨a, b, c, e, by simp⟩
  | character =>
    simp only [readTyped, readCharacter, bind_ok, Except.ok.injEq] at hr
    obtain ⟨⟨h, s, u⟩, hf, rfl⟩ := hr
    obtain ⟨es, h0, o, rfl, hh, -, rfl, hfr⟩ := readFixed_ok hf
    obtain ⟨a, b, c, e⟩ := hprim (k := .character) hh.name (fixed_wf hfr (by simp))
    exact ⟨a, b, c, e, by simp⟩
  | floatingPoint =>
    simp only [readTyped, readFloat, bind_ok, Except.ok.injEq] at hr
    obtain ⟨⟨h, s, u⟩, hf, rfl⟩ := hr
    obtain ⟨es, h0, o, rfl, hh, -, rfl, hfr⟩ := readFixed_ok hf
    obtain ⟨a, b, c, e⟩ := hprim (k := .floatingPoint) hh.name (fixed_wf hfr (by simp))
    exact ⟨a, b, c, e, by simp⟩
  | integer =>
    simp only [readTyped] at hr
    obtain ⟨es, h, h0, o, s, u, un, rfl, hh, -, rfl, hfr, -, rfl⟩ := readInteger_ok hr
    obtain ⟨a, b, c, e⟩ := hprim (k := .integer un) hh.name (fixed_wf hfr (by simp))
    exact ⟨a, b, c, e, by simp⟩
  | uuid =>
    simp only [readTyped, readUuid, bind_ok, Except.ok.injEq] at hr
    obtain ⟨⟨h, s, u⟩, hf, rfl⟩ := hr
    obtain ⟨es, h0, o, rfl, hh, -, rfl, hfr⟩ := readFixed_ok hf
    refine ⟨?_, hh.name, fun _ hne => ?_, trivial, by simp⟩
    · show s = .native ∨ s = .bytes 16
      rcases hfr.size with h | h | ⟨n, hn, h⟩
      · exact .inr h
      · exact .inl h
      · rw [List.mem_singleton] at hn
        subst hn
        exact .inr h
    · show h0.name ≠ ""
      rw [hh.name]; exact hne
  | constant =>
    simp only [readTyped] at hr
    obtain ⟨-, es, h, rfl, hh, hv, rfl⟩ := readConstant_ok hr
    exact ⟨lit_ne hv, hh.name, fun _ hne => by show h.name ≠ ""; rw [hh.name]; exact hne, trivial,
      by simp⟩
  | enumeration =>
    simp only [readTyped] at hr
    obtain ⟨-, es, h, items, cs, rfl, hh, ht, hi, hv, hvs, rfl⟩ := readEnumeration_ok hr
    refine ⟨⟨?_, C35_values_distinct cs⟩, hh.name,
      fun _ hne => by show h.name ≠ ""; rw [hh.name]; exact hne, trivial, by simp⟩
    rw [hvs]
    simpa using values_ne hv (iter_ne ht hi)
  | format =>
    simp only [readTyped] at hr
    obtain ⟨-, es, h, items, l, o, rfl, hh, hi, hl, ho, rfl⟩ := readFormat_ok hr
    exact ⟨layout_wf hl, hh.name, fun _ hne => by show h.name ≠ ""; rw [hh.name]; exact hne, trivial,
      by simp⟩
  | padding =>
    simp only [readTyped] at hr
    obtain ⟨rfl, es, h, a, rfl, hh, ha, -, rfl⟩ := readPadding_ok hr
    exact ⟨⟨a, ha, rfl⟩, hh.name, by simp, trivial, by simp⟩
  | sequence =>
    simp only [readTyped, readSequence] at hr
    obtain ⟨es, h, i, e, rfl, rfl, hk, hel⟩ := readElements_ok hr
    obtain ⟨a, b, c, f⟩ := hseq hel (by simp [hk])
    exact ⟨a, b, c, f, by simp⟩
  | stream =>
    simp only [readTyped, readStream] at hr
    obtain ⟨es, h, i, e, rfl, rfl, hk, hel⟩ := readElements_ok hr
    obtain ⟨a, b, c, f⟩ := hseq hel (by simp [hk])
    exact ⟨a, b, c, f, by simp⟩
  | string =>
    simp only [readTyped] at hr
    obtain ⟨es, h, i, e, enc, rfl, rfl, hk, hne, -, hel⟩ := readString_ok hr
    obtain ⟨a, b, c, f⟩ := hseq hel (by simp [hk, hne])
    exact ⟨a, b, c, f, by simp⟩
  | «structure» =>
    simp only [readTyped, guard_ok] at hr
    obtain ⟨hw, hn, hc⟩ := withMembers_wf (c := true) rfl (hrm true) hr.2
    refine ⟨hw, hn, fun _ hne => ?_, ?_, by simp⟩
    · rcases hc with ⟨h, ds, rfl⟩ | ⟨_, h, ds, rfl⟩
      all_goals
        show h.name ≠ ""
        have : h.name = name := hn
        rw [this]; exact hne
    · rcases hc with ⟨h, ds, rfl⟩ | ⟨_, h, ds, rfl⟩ <;> trivial
  | union =>
    simp only [readTyped] at hr
    obtain ⟨hw, hn, hc⟩ := withMembers_wf (c := false) rfl (hrm false) hr
    rcases hc with ⟨h, ds, rfl⟩ | ⟨hu, _⟩
    · refine ⟨hw, hn, fun _ hne => ?_, trivial, fun _ => ⟨h, ds, rfl⟩⟩
      show h.name ≠ ""
      have : h.name = name := hn
      rw [this]; exact hne
    · cases hu
  | family =>
    simp only [readTyped] at hr
    obtain ⟨-, es, h, b, base, items, ds, rfl, hh, -, -, hg, ht, hi, hnm, hnd, rfl⟩ :=
      readFamily_ok hr
    have hmem : ∀ m ∈ ds, m.Every WellFormed ∧ Registrable m := by
      intro m hm
      obtain ⟨n, _, h2⟩ := named_mem hnm m hm
      exact hreg n m h2
    refine ⟨⟨⟨(hreg _ _ hg).2, named_ne hnm (iter_ne ht hi), hnd, fun m hm => (hmem m hm).2⟩,
      (hreg _ _ hg).1, ?_⟩, hh.name, fun _ hne => by show h.name ≠ ""; rw [hh.name]; exact hne,
      trivial, by simp⟩
    rw [everyDefn_iff]; exact fun m hm => (hmem m hm).1
  | group =>
    simp only [readTyped] at hr
    obtain ⟨-, es, h, h0, b, base, i, df, items, ds, rfl, hh, rfl, -, -, hg, -, hi0, hdf, ht, hi, hnm,
      hnd, hid, rfl⟩ := readGroup_ok hr
    have hmem : ∀ m ∈ ds, m.Every WellFormed ∧ Registrable m := by
      intro m hm
      obtain ⟨n, _, h2⟩ := named_mem hnm m hm
      exact hreg n m h2
    have hdef : ∀ y, df = some y → y.Every WellFormed ∧ Registrable y := by
      rintro y rfl
      rcases hdf with ⟨_, h⟩ | ⟨n, dd, _, _, h2, h⟩
      · cases h
      · cases h; exact hreg n _ h2
    refine ⟨⟨⟨(hreg _ _ hg).2, fun y hy => (hdef y hy).2, hi0, named_ne hnm (iter_ne ht hi), hnd,
      fun m hm => ⟨(hmem m hm).2, ?_⟩⟩, (hreg _ _ hg).1, ?_, ?_⟩, hh.name,
      fun _ hne => by show h0.name ≠ ""; rw [hh.name]; exact hne, trivial, by simp⟩
    · obtain ⟨inner, h1, x, hx, hxn⟩ := hid m hm
      exact ⟨inner, h1, List.mem_map.mpr ⟨x, hx, hxn⟩⟩
    · cases df with
      | none => trivial
      | some y => exact (hdef y rfl).1
    · rw [everyDefn_iff]; exact fun m hm => (hmem m hm).1

/-- What a member definition with `type` can be. -/
theorem readTyped_inline {E : Env} {reg : Registry} {rm : Bool → Yaml → Except Err Defn} {t : TypeInd}
    {d : Yaml} {name : String} {x : Defn} (hr : readTyped E reg rm t true d name = .ok x) :
    t = .union ∨ Inline x := by
  cases t with
  | boolean =>
    simp only [readTyped, readBoolean, bind_ok, Except.ok.injEq] at hr
    obtain ⟨⟨h, s, u⟩, hf, rfl⟩ := hr
    exact .inr trivial
  | character =>
    simp only [readTyped, readCharacter, bind_ok, Except.ok.injEq] at hr
    obtain ⟨⟨h, s, u⟩, hf, rfl⟩ := hr
    exact .inr trivial
  | floatingPoint =>
    simp only [readTyped, readFloat, bind_ok, Except.ok.injEq] at hr
    obtain ⟨⟨h, s, u⟩, hf, rfl⟩ := hr
    exact .inr trivial
  | integer =>
    simp only [readTyped] at hr
    obtain ⟨es, h, h0, o, s, u, un, rfl, hh, -, rfl, hfr, -, rfl⟩ := readInteger_ok hr
    exact .inr trivial
  | uuid =>
    simp only [readTyped, readUuid, bind_ok, Except.ok.injEq] at hr
    obtain ⟨⟨h, s, u⟩, hf, rfl⟩ := hr
    exact .inr trivial
  | constant => simp only [readTyped] at hr; obtain ⟨h, -⟩ := readConstant_ok hr; cases h
  | enumeration => simp only [readTyped] at hr; obtain ⟨h, -⟩ := readEnumeration_ok hr; cases h
  | format => simp only [readTyped] at hr; obtain ⟨h, -⟩ := readFormat_ok hr; cases h
  | padding =>
    simp only [readTyped] at hr
    obtain ⟨-, es, h, a, rfl, hh, ha, -, rfl⟩ := readPadding_ok hr
    exact .inr trivial
  | sequence =>
    simp only [readTyped, readSequence] at hr
    obtain ⟨es, h, i, e, rfl, rfl, hk, hel⟩ := readElements_ok hr
    exact .inr trivial
  | stream =>
    simp only [readTyped, readStream] at hr
    obtain ⟨es, h, i, e, rfl, rfl, hk, hel⟩ := readElements_ok hr
    exact .inr trivial
  | string =>
    simp only [readTyped] at hr
    obtain ⟨es, h, i, e, enc, rfl, rfl, hk, hne, -, hel⟩ := readString_ok hr
    exact .inr trivial
  | «structure» => simp only [readTyped, guard_ok] at hr; exact absurd hr.1 (by simp)
  | union => exact .inl rfl
  | family => simp only [readTyped] at hr; obtain ⟨h, -⟩ := readFamily_ok hr; cases h
  | group => simp only [readTyped] at hr; obtain ⟨h, -⟩ := readGroup_ok hr; cases h

theorem mapM_ne {f : Yaml → Except Err Lit} {l : List Yaml} {r : List Lit}
    (h : l.mapM f = .ok r) (hl : l ≠ []) : r ≠ [] := by
  cases l with
  | nil => exact absurd rfl hl
  | cons a l =>
    simp only [List.mapM_cons, bind_ok, pure, Except.pure, Except.ok.injEq] at h
    obtain ⟨b, _, bs, _, rfl⟩ := h
    simp

theorem readMember_wf {E : Env} {reg : Registry} (hreg : RegOk E reg) (fuel : Nat) (c : Bool)
    (m : Yaml) (x : Defn) (hr : readMember E reg fuel c m = .ok x) : MemberRd c x := by
  induction fuel generalizing c m x with
  | zero => cases hr
  | succ fuel ih =>
    obtain ⟨es, rfl, hm⟩ := readMember_ok hr
    obtain ⟨nm, hnm, hun, sv, cond, hsv, hcond, hx⟩ := hm.name
    have hvs : sv ≠ some [] := by
      rcases supportedValues_ok hsv with ⟨h, _⟩ | ⟨items, ls, ht, hi, hl, h⟩
      · simp [h]
      · rw [h]
        intro e
        cases e
        exact mapM_ne hl (iter_ne ht hi) rfl
    have hunc : c = false → cond = none ∨ cond = some "" := by
      intro hc
      have h1 := hm.condition hc
      rw [← memberCondition_ok hcond] at h1
      cases cond with
      | none => exact .inl rfl
      | some s => right; simpa [truthyStr] using h1
    rcases hx with ⟨ty, t, inner, hty, ht, hd, hin, rfl⟩ | ⟨dt, inner, h, hdt, hty, hg, hk, hn, rfl⟩
    · obtain ⟨h1, h2, h3, h4, h5⟩ := readTyped_wf hreg ih hin
      split
      · rename_i hcs
        have hnu : t ≠ .union := by
          rintro rfl
          simp only [readTyped] at hin
          obtain ⟨es', h, h0, o, items, ds, he, hh, -⟩ := readWithMembers_ok hin
          cases he
          obtain ⟨es'', he, hk⟩ := hh.keys
          cases he
          have hno : ∀ k, k ∉ valuesWithMembers → entry es k = .null := by
            intro k hk'
            unfold entry entryD
            cases hf : es.find? (·.1 == .str k) with
            | none => rfl
            | some p =>
              have h1 := List.mem_of_find?_eq_some hf
              have h2 := List.find?_some hf
              obtain ⟨s, hs, hps⟩ := hk p h1
              rw [hps] at h2
              simp only [beq_iff_eq, Key.str.injEq] at h2
              rw [h2] at hs
              exact absurd hs hk'
          have e1 := hno "condition" (by decide)
          have e2 := hno "value" (by decide)
          have e3 := hno "values" (by decide)
          rw [e1] at hcond
          rw [e2, e3] at hsv
          cases hcond
          cases hsv
          simp [truthyStr] at hcs
        refine ⟨⟨⟨hvs, fun _ => (readTyped_inline hin).resolve_left hnu⟩, h1⟩, hunc, ?_⟩
        intro hn
        have hn : nm = "" := hn
        have := hun hn
        rw [this] at hty
        cases hty
        exact absurd (by simpa [TypeInd.ofString] using ht.symm) hnu
      · refine ⟨h1, fun _ => h4, ?_⟩
        intro hn
        rw [h2] at hn
        have := hun hn
        rw [this] at hty
        cases hty
        have hu : t = .union := by simpa [TypeInd.ofString] using ht.symm
        exact h5 hu
    · refine ⟨⟨⟨hvs, by simp⟩, (hreg _ _ hg).1⟩, hunc, ?_⟩
      intro hn'
      have hn' : h.name = "" := hn'
      rw [hn] at hn'
      have := hun hn'
      rw [hty] at this
      cases this

theorem readDefinition_wf {E : Env} {reg : Registry} (hreg : RegOk E reg) {d : Yaml} {x : Defn}
    (hr : readDefinition E reg d = .ok x) : x.Every WellFormed ∧ Registrable x := by
  obtain ⟨es, nm, ty, t, rfl, hn, hne, hty, ht, hr⟩ := readDefinition_ok hr
  obtain ⟨h1, h2, h3, h4, h5⟩ := readTyped_wf hreg (readMember_wf hreg _) hr
  exact ⟨h1, h3 rfl hne⟩

theorem loaded_wf {E : Env} {r r' : Registry} {ds : List Yaml} {xs : List Defn}
    (h : Loaded E r ds xs r') (hr : ∀ d ∈ r.getDefinitions, d.Every WellFormed ∧ Registrable d) :
    ∀ d ∈ r'.getDefinitions, d.Every WellFormed ∧ Registrable d := by
  induction h with
  | nil r => exact hr
  | cons hd hreg h ih =>
    apply ih
    have hx := readDefinition_wf (fun n x hx => hr x (getByName_mem hx)) hd
    rcases register_pair hreg with ⟨_, h⟩ | ⟨h, _⟩
    · rw [h]
      intro d hd
      rcases List.mem_append.mp hd with hd | hd
      · exact hr d hd
      · rw [List.mem_singleton] at hd
        subst hd
        exact hx
    · cases h

theorem readFileObject_wf {E : Env} {r : Registry} (f : YamlFile)
    (hr : ∀ d ∈ r.getDefinitions, d.Every WellFormed ∧ Registrable d) :
    ∀ d ∈ (readFileObject E r f).2.getDefinitions, d.Every WellFormed ∧ Registrable d := by
  obtain ⟨k, xs, _, h1, _⟩ := C44_stops E r f
  exact loaded_wf h1 hr

theorem readFiles_wf (E : Env) (fs : List YamlFile) :
    ∀ d ∈ (readFiles E fs).getDefinitions, d.Every WellFormed ∧ Registrable d := by
  unfold readFiles
  have : ∀ (fs : List YamlFile) (r : Registry),
      (∀ d ∈ r.getDefinitions, d.Every WellFormed ∧ Registrable d) →
      ∀ d ∈ (fs.foldl (fun r f => (readFileObject E r f).2) r).getDefinitions,
        d.Every WellFormed ∧ Registrable d := by
    intro fs
    induction fs with
    | nil => exact fun _ h => h
    | cons f fs ih => exact fun r h => ih _ (readFileObject_wf f h)
  exact this fs {} (by simp [Registry.getDefinitions])

/-- **C41** After any files were read, in whatever order and whether or not
reading them failed, every registered definition and every definition it is built
from is well-formed. Missing for the full claim: that structures and unions have
a member, see `C41_members_partial` and `C41_members_refuted`. -/
theorem C41_wellformed_partial (E : Env) (fs : List YamlFile) (d : Defn)
    (h : d ∈ (readFiles E fs).getDefinitions) : d.Every WellFormed ∧ Registrable d :=
  readFiles_wf E fs d h

namespace Spec

/-- `Within v d`: `v` is `d` or a value somewhere inside it. -/
inductive Within (v : Yaml) : Yaml → Prop
  | refl : Within v v
  | list {ys : List Yaml} {y : Yaml} (hm : y ∈ ys) (h : Within v y) : Within v (.list ys)
  | map {es : List (Key × Yaml)} {k : Key} {y : Yaml} (hm : (k, y) ∈ es) (h : Within v y) :
      Within v (.map es)

/-- No mapping in the document has a `section`. -/
def NoSections (d : Yaml) : Prop :=
  ∀ es, Within (.map es) d → ∀ v, (Key.str "section", v) ∉ es

/-- A structure or union has a member. -/
def HasMembers : Defn → Prop
  | .struct _ ms | .union _ ms => ms ≠ []
  | _ => True

end Spec

/-- A predicate holds for all parts of a definition that was read if it holds for
the definition itself, for registered definitions and for members. -/
theorem readTyped_every {E : Env} {reg : Registry} {P : Defn → Prop}
    (hreg : ∀ n x, reg.getByName E n = some x → x.Every P)
    {rm : Bool → Yaml → Except Err Defn} {t : TypeInd} {mem : Bool} {d : Yaml} {name : String}
    {x : Defn} (hrm : ∀ c es es' items x, d = .map es → (entry es "members").iter = .ok items →
      .map es' ∈ items → rm c (.map es') = .ok x → x.Every P)
    (hr : readTyped E reg rm t mem d name = .ok x) (hx : P x) : x.Every P := by
  have hseq : ∀ {sup es h i e}, ElementsRead E reg sup es name h i e → P (.seq h i e) →
      (Defn.seq h i e).Every P := by
    intro sup es h i e he hp
    obtain ⟨n, _, _, _, hg⟩ := he.element
    exact ⟨hp, hreg n e hg⟩
  have hmem : ∀ {c u}, readWithMembers (rm c) u d name = .ok x → x.Every P := by
    intro c u hr
    obtain ⟨es, h, h0, o, items, ds, he, hh, -, -, -, hi, hm, -, rfl⟩ := readWithMembers_ok hr
    have : everyDefn P ds := by
      rw [everyDefn_iff]
      intro m hm'
      obtain ⟨es', h1, h2, _⟩ := membersRead_mem hm m hm'
      exact hrm c es es' items m he hi h1 h2
    cases u
    · exact ⟨hx, this⟩
    · exact ⟨hx, this⟩
  have hnamed : ∀ {items ds}, Named E reg items ds → everyDefn P ds := by
    intro items ds hn
    rw [everyDefn_iff]
    intro m hm
    obtain ⟨n, _, h2⟩ := named_mem hn m hm
    exact hreg n m h2
  cases t with
  | boolean =>
    simp only [readTyped, readBoolean, bind_ok, Except.ok.injEq] at hr
    obtain ⟨_, _, rfl⟩ := hr
    exact hx
  | character =>
    simp only [readTyped, readCharacter, bind_ok, Except.ok.injEq] at hr
    obtain ⟨_, _, rfl⟩ := hr
    exact hx
  | floatingPoint =>
    simp only [readTyped, readFloat, bind_ok, Except.ok.injEq] at hr
    obtain ⟨_, _, rfl⟩ := hr
    exact hx
  | uuid =>
    simp only [readTyped, readUuid, bind_ok, Except.ok.injEq] at hr
    obtain ⟨_, _, rfl⟩ := hr
    exact hx
  | integer =>
    simp only [readTyped] at hr
    obtain ⟨es, h, h0, o, s, u, un, -, -, -, -, -, -, rfl⟩ := readInteger_ok hr
    exact hx
  | constant =>
    simp only [readTyped] at hr
    obtain ⟨-, es, h, -, -, -, rfl⟩ := readConstant_ok hr
    exact hx
  | enumeration =>
    simp only [readTyped] at hr
    obtain ⟨-, es, h, items, cs, -, -, -, -, -, -, rfl⟩ := readEnumeration_ok hr
    exact hx
  | format =>
    simp only [readTyped] at hr
    obtain ⟨-, es, h, items, l, o, -, -, -, -, -, rfl⟩ := readFormat_ok hr
    exact hx
  | padding =>
    simp only [readTyped] at hr
    obtain ⟨-, es, h, a, -, -, -, -, rfl⟩ := readPadding_ok hr
    exact hx
  | sequence =>
    simp only [readTyped, readSequence] at hr
    obtain ⟨es, h, i, e, -, rfl, -, hel⟩ := readElements_ok hr
    exact hseq hel hx
  | stream =>
    simp only [readTyped, readStream] at hr
    obtain ⟨es, h, i, e, -, rfl, -, hel⟩ := readElements_ok hr
    exact hseq hel hx
  | string =>
    simp only [readTyped] at hr
    obtain ⟨es, h, i, e, enc, -, rfl, -, -, -, hel⟩ := readString_ok hr
    exact hseq hel hx
  | «structure» =>
    simp only [readTyped, guard_ok] at hr
    exact hmem hr.2
  | union =>
    simp only [readTyped] at hr
    exact hmem hr
  | family =>
    simp only [readTyped] at hr
    obtain ⟨-, es, h, b, base, items, ds, -, -, -, -, hg, -, -, hnm, -, rfl⟩ := readFamily_ok hr
    exact ⟨hx, hreg _ _ hg, hnamed hnm⟩
  | group =>
    simp only [readTyped] at hr
    obtain ⟨-, es, h, h0, b, base, i, df, items, ds, -, -, -, -, -, hg, -, -, hdf, -, -, hnm,
      -, -, rfl⟩ := readGroup_ok hr
    refine ⟨hx, hreg _ _ hg, ?_, hnamed hnm⟩
    rcases hdf with ⟨_, rfl⟩ | ⟨n, dd, _, _, h2, rfl⟩
    · trivial
    · exact hreg n _ h2

theorem entry_mem {es : List (Key × Yaml)} {k : String} (h : entry es k ≠ .null) :
    (Key.str k, entry es k) ∈ es := by
  unfold entry entryD at h ⊢
  cases hf : es.find? (·.1 == .str k) with
  | none => rw [hf] at h; exact absurd rfl h
  | some p =>
    have h1 := List.mem_of_find?_eq_some hf
    have h2 := List.find?_some hf
    simp only [beq_iff_eq] at h2
    rw [← h2]
    exact h1

/-- A mapping in the list of members is within the document. -/
theorem members_within {es es' : List (Key × Yaml)} {items : List Yaml}
    (hi : (entry es "members").iter = .ok items) (hm : .map es' ∈ items) :
    Within (.map es') (.map es) := by
  cases hy : entry es "members" <;> rw [hy] at hi <;> simp only [Yaml.iter, reduceCtorEq,
    Except.ok.injEq] at hi
  all_goals subst hi
  case list ys =>
    have := entry_mem (es := es) (k := "members") (by rw [hy]; simp)
    rw [hy] at this
    exact .map this (.list hm .refl)
  all_goals
    obtain ⟨_, _, h⟩ := List.mem_map.mp hm
    first
    | cases h
    | (rename_i p _; rcases p with ⟨_ | _, _⟩ <;> cases h)

theorem Within.trans {a b c : Yaml} (h1 : Within a b) (h2 : Within b c) : Within a c := by
  induction h2 with
  | refl => exact h1
  | list hm _ ih => exact .list hm ih
  | map hm _ ih => exact .map hm ih

theorem NoSections.entry {es : List (Key × Yaml)} (h : NoSections (.map es)) :
    Dtf.entry es "section" = .null := by
  by_cases hy : Dtf.entry es "section" = .null
  · exact hy
  · exact absurd (entry_mem hy) (h es .refl _)

theorem membersRead_ne {rm : Yaml → Except Err Defn} {ms : List Yaml} {ds : List Defn}
    (h : MembersRead rm ms ds) (hne : ms ≠ [])
    (hs : ∀ es, .map es ∈ ms → (entry es "section").truthy = false) : ds ≠ [] := by
  cases h with
  | nil => exact absurd rfl hne
  | sect hs' h => rw [hs _ List.mem_cons_self] at hs'; cases hs'
  | member hs hd h => simp

theorem readTyped_hasMembers {E : Env} {reg : Registry} {rm : Bool → Yaml → Except Err Defn}
    {t : TypeInd} {mem : Bool} {d : Yaml} {name : String} {x : Defn} (hd : NoSections d)
    (hr : readTyped E reg rm t mem d name = .ok x) : HasMembers x := by
  have hmem : ∀ {c u}, readWithMembers (rm c) u d name = .ok x → HasMembers x := by
    intro c u hr
    obtain ⟨es, h, h0, o, items, ds, rfl, hh, -, -, ht, hi, hm, -, rfl⟩ := readWithMembers_ok hr
    have : ds ≠ [] := by
      apply membersRead_ne hm (iter_ne ht hi)
      intro es' hes'
      have hw := members_within hi hes'
      have : NoSections (.map es') := fun es2 h2 => hd es2 (Within.trans h2 hw)
      rw [NoSections.entry this]
      rfl
    cases u <;> exact this
  cases t with
  | boolean =>
    simp only [readTyped, readBoolean, bind_ok, Except.ok.injEq] at hr
    obtain ⟨_, _, rfl⟩ := hr
    trivial
  | character =>
    simp only [readTyped, readCharacter, bind_ok, Except.ok.injEq] at hr
    obtain ⟨_, _, rfl⟩ := hr
    trivial
  | floatingPoint =>
    simp only [readTyped, readFloat, bind_ok, Except.ok.injEq] at hr
    obtain ⟨_, _, rfl⟩ := hr
    trivial
  | uuid =>
    simp only [readTyped, readUuid, bind_ok, Except.ok.injEq] at hr
    obtain ⟨_, _, rfl⟩ := hr
    trivial
  | integer =>
    simp only [readTyped] at hr
    obtain ⟨es, h, h0, o, s, u, un, -, -, -, -, -, -, rfl⟩ := readInteger_ok hr
    trivial
  | constant =>
    simp only [readTyped] at hr
    obtain ⟨-, es, h, -, -, -, rfl⟩ := readConstant_ok hr
    trivial
  | enumeration =>
    simp only [readTyped] at hr
    obtain ⟨-, es, h, items, cs, -, -, -, -, -, -, rfl⟩ := readEnumeration_ok hr
    trivial
  | format =>
    simp only [readTyped] at hr
    obtain ⟨-, es, h, items, l, o, -, -, -, -, -, rfl⟩ := readFormat_ok hr
    trivial
  | padding =>
    simp only [readTyped] at hr
    obtain ⟨-, es, h, a, -, -, -, -, rfl⟩ := readPadding_ok hr
    trivial
  | sequence =>
    simp only [readTyped, readSequence] at hr
    obtain ⟨es, h, i, e, -, rfl, -, hel⟩ := readElements_ok hr
    trivial
  | stream =>
    simp only [readTyped, readStream] at hr
    obtain ⟨es, h, i, e, -, rfl, -, hel⟩ := readElements_ok hr
    trivial
  | string =>
    simp only [readTyped] at hr
    obtain ⟨es, h, i, e, enc, -, rfl, -, -, -, hel⟩ := readString_ok hr
    trivial
  | «structure» =>
    simp only [readTyped, guard_ok] at hr
    exact hmem hr.2
  | union =>
    simp only [readTyped] at hr
    exact hmem hr
  | family =>
    simp only [readTyped] at hr
    obtain ⟨-, es, h, b, base, items, ds, -, -, -, -, hg, -, -, hnm, -, rfl⟩ := readFamily_ok hr
    trivial
  | group =>
    simp only [readTyped] at hr
    obtain ⟨-, es, h, h0, b, base, i, df, items, ds, -, -, -, -, -, hg, -, -, hdf, -, -, hnm,
      -, -, rfl⟩ := readGroup_ok hr
    trivial

theorem readMember_members {E : Env} {reg : Registry}
    (hreg : ∀ n x, reg.getByName E n = some x → x.Every HasMembers) (fuel : Nat) (c : Bool)
    (m : Yaml) (x : Defn) (hm : NoSections m) (hr : readMember E reg fuel c m = .ok x) :
    x.Every HasMembers := by
  induction fuel generalizing c m x with
  | zero => cases hr
  | succ fuel ih =>
    obtain ⟨es, rfl, hrd⟩ := readMember_ok hr
    obtain ⟨nm, hnm, hun, sv, cond, hsv, hcond, hx⟩ := hrd.name
    rcases hx with ⟨ty, t, inner, hty, ht, hd, hin, rfl⟩ | ⟨dt, inner, h, hdt, hty, hg, hk, hn, rfl⟩
    · have hinner : inner.Every HasMembers := by
        refine readTyped_every hreg ?_ hin (readTyped_hasMembers hm hin)
        intro c es1 es2 items x he hi hmi hrx
        cases he
        exact ih c _ x (fun es3 h3 => hm es3 (Within.trans h3 (members_within hi hmi))) hrx
      split
      · exact ⟨trivial, hinner⟩
      · exact hinner
    · exact ⟨trivial, hreg _ _ hg⟩

theorem readDefinition_members {E : Env} {reg : Registry}
    (hreg : ∀ n x, reg.getByName E n = some x → x.Every HasMembers) {d : Yaml} {x : Defn}
    (hd : NoSections d) (hr : readDefinition E reg d = .ok x) : x.Every HasMembers := by
  obtain ⟨es, nm, ty, t, rfl, hn, hne, hty, ht, hr⟩ := readDefinition_ok hr
  refine readTyped_every hreg ?_ hr (readTyped_hasMembers hd hr)
  intro c es1 es2 items x he hi hmi hrx
  cases he
  exact readMember_members hreg _ c _ x
    (fun es3 h3 => hd es3 (Within.trans h3 (members_within hi hmi))) hrx

theorem loaded_members {E : Env} {r r' : Registry} {ds : List Yaml} {xs : List Defn}
    (h : Loaded E r ds xs r') (hs : ∀ d ∈ ds, NoSections d)
    (hr : ∀ d ∈ r.getDefinitions, d.Every HasMembers) :
    ∀ d ∈ r'.getDefinitions, d.Every HasMembers := by
  induction h with
  | nil r => exact hr
  | cons hd hreg h ih =>
    apply ih fun d hd => hs d (List.mem_cons_of_mem _ hd)
    have hx := readDefinition_members (fun n x hx => hr x (getByName_mem hx))
      (hs _ List.mem_cons_self) hd
    rcases register_pair hreg with ⟨_, h⟩ | ⟨h, _⟩
    · rw [h]
      intro d hd
      rcases List.mem_append.mp hd with hd | hd
      · exact hr d hd
      · rw [List.mem_singleton] at hd
        subst hd
        exact hx
    · cases h

/-- **C41** If no document contains a section, every structure and union that is
registered or part of a registered definition has a member. -/
theorem C41_members_partial (E : Env) (fs : List YamlFile)
    (hs : ∀ f ∈ fs, ∀ d ∈ f.docs, NoSections d) (d : Defn)
    (h : d ∈ (readFiles E fs).getDefinitions) : d.Every HasMembers := by
  unfold readFiles at h
  have : ∀ (fs : List YamlFile) (r : Registry), (∀ f ∈ fs, ∀ d ∈ f.docs, NoSections d) →
      (∀ d ∈ r.getDefinitions, d.Every HasMembers) →
      ∀ d ∈ (fs.foldl (fun r f => (readFileObject E r f).2) r).getDefinitions,
        d.Every HasMembers := by
    intro fs
    induction fs with
    | nil => exact fun _ _ h => h
    | cons f fs ih =>
      intro r hs hr
      apply ih _ fun g hg => hs g (List.mem_cons_of_mem _ hg)
      obtain ⟨k, xs, _, h1, _⟩ := C44_stops E r f
      exact loaded_members h1
        (fun d hd => hs f List.mem_cons_self d (List.mem_of_mem_take hd)) hr
  exact this fs {} hs (by simp [Registry.getDefinitions]) d h

/-! Documents for the examples. -/

/-- A mapping with text keys. -/
def doc (es : List (String × Yaml)) : Yaml := .map (es.map fun e => (.str e.1, e.2))

def docU8 : Yaml := doc [("name", .str "u8"), ("type", .str "integer"),
  ("attributes", doc [("format", .str "unsigned"), ("size", .int 1), ("units", .str "bytes")])]

def docPoint : Yaml := doc [("name", .str "point"), ("type", .str "structure"),
  ("attributes", doc [("byte_order", .str "little-endian")]),
  ("members", .list [
    doc [("name", .str "x"), ("data_type", .str "u8")],
    doc [("name", .str "y"), ("data_type", .str "u8"), ("condition", .str "point.x > 0")],
    doc [("name", .str "data"), ("type", .str "stream"), ("element_data_type", .str "u8"),
      ("elements_data_size", .str "point.x")]])]

def docSection : Yaml := doc [("name", .str "empty"), ("type", .str "structure"),
  ("members", .list [doc [("section", .str "header")]])]

def exEnvR : Env := { exEnv with parseInt := fun _ => none }

def exU8r : Defn := .prim { name := "u8", order := .native } (.integer true) (.bytes 1) "bytes"

def exPoint : Defn := .struct { name := "point", order := .little } [
  .member { name := "x" } exU8r none (some "u8") none,
  .member { name := "y" } exU8r (some "point.x > 0") (some "u8") none,
  .seq { name := "data" }
    { kind := .stream, elementDataType := some "u8", dataSizeExpr := some "point.x" } exU8r]

example : ((readFiles exEnvR [{ docs := [docU8, docPoint] }]).getDefinitions) = [exU8r, exPoint] := by
  rfl

example : exPoint.Every WellFormed ∧ Registrable exPoint :=
  C41_wellformed_partial exEnvR [{ docs := [docU8, docPoint] }] _
    (List.mem_cons_of_mem _ List.mem_cons_self)

/-- **C41** fails for member lists: a structure whose only entry is a section is
registered without members. -/
theorem C41_members_refuted : ∃ (f : YamlFile) (d : Defn),
    (readFileObject exEnvR {} f).1 = .ok () ∧ d ∈ (readFiles exEnvR [f]).getDefinitions ∧
      ¬ HasMembers d :=
  ⟨{ docs := [docSection] }, .struct { name := "empty" } [], rfl, List.mem_cons_self,
    fun h => h rfl⟩

/-- The hypothesis of `C41_members_partial` for a document. -/
example : NoSections docU8 := by
  intro es h
  cases h with
  | refl => intro v hv; simp at hv
  | map hm h =>
    simp only [doc, List.map_cons, List.map_nil, List.mem_cons, Prod.mk.injEq,
      List.not_mem_nil, or_false] at hm
    rcases hm with ⟨-, rfl⟩ | ⟨-, rfl⟩ | ⟨-, rfl⟩
    · cases h
    · cases h
    · cases h with
      | refl => intro v hv; simp at hv
      | map hm h =>
        simp only [List.mem_cons, Prod.mk.injEq, List.not_mem_nil, or_false] at hm
        rcases hm with ⟨-, rfl⟩ | ⟨-, rfl⟩ | ⟨-, rfl⟩ <;> cases h

/-- A file whose second document fails: the first is registered, the third is
not. -/
example : (readFileObject exEnvR {} { docs := [docU8, .str "bad", docPoint] }).1 =
      .error .attribute ∧
    (readFileObject exEnvR {} { docs := [docU8, .str "bad", docPoint] }).2.getDefinitions = [exU8r] :=
  ⟨rfl, rfl⟩

end Dtf
