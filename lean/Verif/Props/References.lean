import Verif.Props.Reader
/-!
# Property C42: names in documents are resolved to definitions registered before
-/
namespace Dtf

namespace Spec

/-- The entries of a list of members that are not sections. -/
def memberDocs (items : List Yaml) : List Yaml :=
  items.filter fun
    | .map es => !(entry es "section").truthy
    | _ => true

/-- `Uses x y`: definition `x` refers to the separately defined `y`. -/
inductive Uses : Defn → Defn → Prop
  | element {h : Hdr} {i : SeqInfo} {e : Defn} : Uses (.seq h i e) e
  | struct {h : Hdr} {ms : List Defn} {m y : Defn} (hm : m ∈ ms) (hu : Uses m y) :
      Uses (.struct h ms) y
  | union {h : Hdr} {ms : List Defn} {m y : Defn} (hm : m ∈ ms) (hu : Uses m y) :
      Uses (.union h ms) y
  | member {h : Hdr} {d : Defn} {c : Option String} {n : String} {vs : Option (List Lit)} :
      Uses (.member h d c (some n) vs) d
  | inline {h : Hdr} {d y : Defn} {c : Option String} {vs : Option (List Lit)} (hu : Uses d y) :
      Uses (.member h d c none vs) y
  | familyBase {h : Hdr} {b : Defn} {ms : List Defn} : Uses (.family h b ms) b
  | familyMember {h : Hdr} {b m : Defn} {ms : List Defn} (hm : m ∈ ms) : Uses (.family h b ms) m
  | groupBase {h : Hdr} {b : Defn} {i : String} {df : Option Defn} {ms : List Defn} :
      Uses (.group h b i df ms) b
  | groupDefault {h : Hdr} {b y : Defn} {i : String} {ms : List Defn} :
      Uses (.group h b i (some y) ms) y
  | groupMember {h : Hdr} {b m : Defn} {i : String} {df : Option Defn} {ms : List Defn}
      (hm : m ∈ ms) : Uses (.group h b i df ms) m

/-- `Cites d x n y`: where document `d` has the name `n`, its definition `x` has
the definition `y`. -/
inductive Cites : Yaml → Defn → String → Defn → Prop
  | element {es : List (Key × Yaml)} {h : Hdr} {i : SeqInfo} {e : Defn} {n : String}
      (hn : entry es "element_data_type" = .str n) : Cites (.map es) (.seq h i e) n e
  | struct {es : List (Key × Yaml)} {items : List Yaml} {h : Hdr} {ms : List Defn} {k : Nat}
      {d : Yaml} {m y : Defn} {n : String} (hi : entry es "members" = .list items)
      (hd : (memberDocs items)[k]? = some d) (hm : ms[k]? = some m) (hc : Cites d m n y) :
      Cites (.map es) (.struct h ms) n y
  | union {es : List (Key × Yaml)} {items : List Yaml} {h : Hdr} {ms : List Defn} {k : Nat}
      {d : Yaml} {m y : Defn} {n : String} (hi : entry es "members" = .list items)
      (hd : (memberDocs items)[k]? = some d) (hm : ms[k]? = some m) (hc : Cites d m n y) :
      Cites (.map es) (.union h ms) n y
  | member {es : List (Key × Yaml)} {h : Hdr} {d : Defn} {c : Option String} {n n' : String}
      {vs : Option (List Lit)} (hn : entry es "data_type" = .str n) :
      Cites (.map es) (.member h d c (some n') vs) n d
  | inline {es : List (Key × Yaml)} {h : Hdr} {d y : Defn} {c : Option String} {n : String}
      {vs : Option (List Lit)} (hc : Cites (.map es) d n y) :
      Cites (.map es) (.member h d c none vs) n y
  | familyBase {es : List (Key × Yaml)} {h : Hdr} {b : Defn} {ms : List Defn} {n : String}
      (hn : entry es "base" = .str n) : Cites (.map es) (.family h b ms) n b
  | familyMember {es : List (Key × Yaml)} {items : List Yaml} {h : Hdr} {b m : Defn}
      {ms : List Defn} {k : Nat} {n : String} (hi : (entry es "members").iter = .ok items)
      (hn : items[k]? = some (.str n)) (hm : ms[k]? = some m) : Cites (.map es) (.family h b ms) n m
  | groupBase {es : List (Key × Yaml)} {h : Hdr} {b : Defn} {i : String} {df : Option Defn}
      {ms : List Defn} {n : String} (hn : entry es "base" = .str n) :
      Cites (.map es) (.group h b i df ms) n b
  | groupDefault {es : List (Key × Yaml)} {h : Hdr} {b y : Defn} {i : String} {ms : List Defn}
      {n : String} (hn : entry es "default" = .str n) : Cites (.map es) (.group h b i (some y) ms) n y
  | groupMember {es : List (Key × Yaml)} {items : List Yaml} {h : Hdr} {b m : Defn} {i : String}
      {df : Option Defn} {ms : List Defn} {k : Nat} {n : String}
      (hi : (entry es "members").iter = .ok items) (hn : items[k]? = some (.str n))
      (hm : ms[k]? = some m) : Cites (.map es) (.group h b i df ms) n m

end Spec
open Spec

/-- All names are resolved with the registry and every use has a name. -/
structure Resolved (E : Env) (reg : Registry) (d : Yaml) (x : Defn) : Prop where
  named : ∀ y, Uses x y → ∃ n, Cites d x n y
  resolved : ∀ n y, Cites d x n y → reg.getByName E n = some y

theorem membersRead_docs {rm : Yaml → Except Err Defn} {ms : List Yaml} {ds : List Defn}
    (h : MembersRead rm ms ds) : All2 (fun m d => rm m = .ok d) (memberDocs ms) ds := by
  induction h with
  | nil => exact .nil
  | sect hs h ih => simpa [memberDocs, hs] using ih
  | member hs hd h ih =>
    have := All2.cons (R := fun m d => rm m = .ok d) hd ih
    simpa [memberDocs, hs] using this

theorem All2.left {α β : Type} {R : α → β → Prop} {as : List α} {bs : List β} (h : All2 R as bs)
    {k : Nat} {b : β} (hb : bs[k]? = some b) : ∃ a, as[k]? = some a := by
  have hl := h.length_eq
  have : k < bs.length := by
    have := List.getElem?_eq_some_iff.mp hb
    exact this.1
  exact ⟨as[k], List.getElem?_eq_getElem (by omega)⟩

theorem named_all2 {E : Env} {reg : Registry} {ms : List Yaml} {ds : List Defn}
    (h : Named E reg ms ds) :
    All2 (fun m d => ∃ n, m = .str n ∧ reg.getByName E n = some d) ms ds := by
  induction h with
  | nil => exact .nil
  | cons hd h ih => exact .cons ⟨_, rfl, hd⟩ ih

/-- A member list with at least one mapping in it is a list. -/
theorem iter_map_list {y : Yaml} {items : List Yaml} {es : List (Key × Yaml)}
    (hi : y.iter = .ok items) (hm : .map es ∈ items) : y = .list items := by
  cases y <;> simp only [Yaml.iter, reduceCtorEq, Except.ok.injEq] at hi
  all_goals subst hi
  case list => rfl
  all_goals
    obtain ⟨_, _, h⟩ := List.mem_map.mp hm
    first
    | cases h
    | (rename_i p _; rcases p with ⟨_ | _, _⟩ <;> cases h)

theorem withMembers_resolved {E : Env} {reg : Registry} {rm : Yaml → Except Err Defn} {u : Bool}
    (hrm : ∀ m x, rm m = .ok x → Resolved E reg m x) {d : Yaml} {name : String} {x : Defn}
    (hr : readWithMembers rm u d name = .ok x) : Resolved E reg d x := by
  obtain ⟨es, h, h0, o, items, ds, rfl, hh, -, he, -, hi, hm, hnd, rfl⟩ := readWithMembers_ok hr
  have hall := membersRead_docs hm
  have huse : ∀ m ∈ ds, ∀ y, Uses m y → ∃ (k : Nat) (d : Yaml) (n : String), entry es "members" = .list items ∧
      (memberDocs items)[k]? = some d ∧ ds[k]? = some m ∧ Cites d m n y := by
    intro m hmem y hu
    obtain ⟨k, hk⟩ := List.getElem?_of_mem hmem
    obtain ⟨d, hd⟩ := hall.left hk
    obtain ⟨n, hn⟩ := (hrm d m (hall.get hd hk)).named y hu
    obtain ⟨es', h1, _⟩ := membersRead_mem hm m hmem
    exact ⟨k, d, n, iter_map_list hi h1, hd, hk, hn⟩
  have hres : ∀ {items' : List Yaml} {k : Nat} {d m n y}, entry es "members" = .list items' →
      (memberDocs items')[k]? = some d → ds[k]? = some m → Cites d m n y →
      reg.getByName E n = some y := by
    intro items' k d m n y h1 h2 h3 h4
    rw [h1] at hi
    cases hi
    exact (hrm d m (hall.get h2 h3)).resolved n y h4
  cases u with
  | true =>
    refine ⟨fun y hu => ?_, fun n y hc => ?_⟩
    · cases hu with
      | union hmem hu =>
        obtain ⟨k, d, n, h1, h2, h3, h4⟩ := huse _ hmem y hu
        exact ⟨n, .union h1 h2 h3 h4⟩
    · cases hc with
      | union h1 h2 h3 h4 => exact hres h1 h2 h3 h4
  | false =>
    refine ⟨fun y hu => ?_, fun n y hc => ?_⟩
    · cases hu with
      | struct hmem hu =>
        obtain ⟨k, d, n, h1, h2, h3, h4⟩ := huse _ hmem y hu
        exact ⟨n, .struct h1 h2 h3 h4⟩
    · cases hc with
      | struct h1 h2 h3 h4 => exact hres h1 h2 h3 h4

theorem elements_resolved {E : Env} {reg : Registry} {sup : List String} {es : List (Key × Yaml)}
    {name : String} {h : Hdr} {i : SeqInfo} {e : Defn} (hr : ElementsRead E reg sup es name h i e) :
    Resolved E reg (.map es) (.seq h i e) := by
  obtain ⟨n, h1, _, _, h2⟩ := hr.element
  refine ⟨fun y hu => ?_, fun n' y hc => ?_⟩
  · cases hu; exact ⟨n, .element h1⟩
  · cases hc with
    | element h3 => rw [h1] at h3; cases h3; exact h2

theorem family_resolved {E : Env} {reg : Registry} {es : List (Key × Yaml)} {h : Hdr} {b : String}
    {base : Defn} {items : List Yaml} {ds : List Defn} (hb : entry es "base" = .str b)
    (hg : reg.getByName E b = some base) (hi : (entry es "members").iter = .ok items)
    (hn : Named E reg items ds) : Resolved E reg (.map es) (.family h base ds) := by
  have hall := named_all2 hn
  refine ⟨fun y hu => ?_, fun n' y hc => ?_⟩
  · cases hu with
    | familyBase => exact ⟨b, .familyBase hb⟩
    | familyMember hm =>
      obtain ⟨k, hk⟩ := List.getElem?_of_mem hm
      obtain ⟨d, hd⟩ := hall.left hk
      obtain ⟨n, rfl, _⟩ := hall.get hd hk
      exact ⟨n, .familyMember hi hd hk⟩
  · cases hc with
    | familyBase h3 => rw [hb] at h3; cases h3; exact hg
    | familyMember h1 h2 h3 =>
      rw [hi] at h1
      cases h1
      obtain ⟨n, h4, h5⟩ := hall.get h2 h3
      cases h4
      exact h5

theorem group_resolved {E : Env} {reg : Registry} {es : List (Key × Yaml)} {h : Hdr} {b i : String}
    {base : Defn} {items : List Yaml} {ds : List Defn} {df : Option Defn}
    (hb : entry es "base" = .str b) (hg : reg.getByName E b = some base)
    (hdf : ((entry es "default").truthy = false ∧ df = none) ∨
      ∃ n dd, entry es "default" = .str n ∧ n ≠ "" ∧ reg.getByName E n = some dd ∧ df = some dd)
    (hi : (entry es "members").iter = .ok items) (hn : Named E reg items ds) :
    Resolved E reg (.map es) (.group h base i df ds) := by
  have hall := named_all2 hn
  refine ⟨fun y hu => ?_, fun n' y hc => ?_⟩
  · cases hu with
    | groupBase => exact ⟨b, .groupBase hb⟩
    | groupDefault =>
      rcases hdf with ⟨_, h⟩ | ⟨n, dd, h1, h2, h3, h4⟩
      · cases h
      · exact ⟨n, .groupDefault h1⟩
    | groupMember hm =>
      obtain ⟨k, hk⟩ := List.getElem?_of_mem hm
      obtain ⟨d, hd⟩ := hall.left hk
      obtain ⟨n, rfl, _⟩ := hall.get hd hk
      exact ⟨n, .groupMember hi hd hk⟩
  · cases hc with
    | groupBase h3 => rw [hb] at h3; cases h3; exact hg
    | groupDefault h3 =>
      rcases hdf with ⟨_, h⟩ | ⟨n, dd, h1, h2, h4, h5⟩
      · cases h
      · rw [h1] at h3; cases h3; cases h5; exact h4
    | groupMember h1 h2 h3 =>
      rw [hi] at h1
      cases h1
      obtain ⟨n, h4, h5⟩ := hall.get h2 h3
      cases h4
      exact h5

/-- A definition that refers to no other. -/
theorem atom_resolved {E : Env} {reg : Registry} {d : Yaml} {x : Defn} (hu : ∀ y, ¬ Uses x y)
    (hc : ∀ n y, ¬ Cites d x n y) : Resolved E reg d x :=
  ⟨fun y h => absurd h (hu y), fun n y h => absurd h (hc n y)⟩

theorem readTyped_resolved {E : Env} {reg : Registry} {rm : Bool → Yaml → Except Err Defn}
    (hrm : ∀ c m x, rm c m = .ok x → Resolved E reg m x) {t : TypeInd} {mem : Bool} {d : Yaml}
    {name : String} {x : Defn} (hr : readTyped E reg rm t mem d name = .ok x) :
    Resolved E reg d x := by
  cases t with
  | boolean =>
    simp only [readTyped, readBoolean, bind_ok, Except.ok.injEq] at hr
    obtain ⟨_, _, rfl⟩ := hr
    exact atom_resolved nofun nofun
  | character =>
    simp only [readTyped, readCharacter, bind_ok, Except.ok.injEq] at hr
    obtain ⟨_, _, rfl⟩ := hr
    exact atom_resolved nofun nofun
  | floatingPoint =>
    simp only [readTyped, readFloat, bind_ok, Except.ok.injEq] at hr
    obtain ⟨_, _, rfl⟩ := hr
    exact atom_resolved nofun nofun
  | uuid =>
    simp only [readTyped, readUuid, bind_ok, Except.ok.injEq] at hr
    obtain ⟨_, _, rfl⟩ := hr
    exact atom_resolved nofun nofun
  | integer =>
    simp only [readTyped] at hr
    obtain ⟨es, h, h0, o, s, u, un, -, -, -, -, -, -, rfl⟩ := readInteger_ok hr
    exact atom_resolved nofun nofun
  | constant =>
    simp only [readTyped] at hr
    obtain ⟨-, es, h, -, -, -, rfl⟩ := readConstant_ok hr
    exact atom_resolved nofun nofun
  | enumeration =>
    simp only [readTyped] at hr
    obtain ⟨-, es, h, items, cs, -, -, -, -, -, -, rfl⟩ := readEnumeration_ok hr
    exact atom_resolved nofun nofun
  | format =>
    simp only [readTyped] at hr
    obtain ⟨-, es, h, items, l, o, -, -, -, -, -, rfl⟩ := readFormat_ok hr
    exact atom_resolved nofun nofun
  | padding =>
    simp only [readTyped] at hr
    obtain ⟨-, es, h, a, -, -, -, -, rfl⟩ := readPadding_ok hr
    exact atom_resolved nofun nofun
  | sequence =>
    simp only [readTyped, readSequence] at hr
    obtain ⟨es, h, i, e, rfl, rfl, -, hel⟩ := readElements_ok hr
    exact elements_resolved hel
  | stream =>
    simp only [readTyped, readStream] at hr
    obtain ⟨es, h, i, e, rfl, rfl, -, hel⟩ := readElements_ok hr
    exact elements_resolved hel
  | string =>
    simp only [readTyped] at hr
    obtain ⟨es, h, i, e, enc, rfl, rfl, -, -, -, hel⟩ := readString_ok hr
    exact elements_resolved hel
  | «structure» =>
    simp only [readTyped, guard_ok] at hr
    exact withMembers_resolved (hrm true) hr.2
  | union =>
    simp only [readTyped] at hr
    exact withMembers_resolved (hrm false) hr
  | family =>
    simp only [readTyped] at hr
    obtain ⟨-, es, h, b, base, items, ds, rfl, -, hb, -, hg, -, hi, hnm, -, rfl⟩ := readFamily_ok hr
    exact family_resolved hb hg hi hnm
  | group =>
    simp only [readTyped] at hr
    obtain ⟨-, es, h, h0, b, base, i, df, items, ds, rfl, -, -, hb, -, hg, -, -, hdf, -, hi, hnm,
      -, -, rfl⟩ := readGroup_ok hr
    exact group_resolved hb hg hdf hi hnm

theorem readMember_resolved {E : Env} {reg : Registry} (fuel : Nat) (c : Bool) (m : Yaml) (x : Defn)
    (hr : readMember E reg fuel c m = .ok x) : Resolved E reg m x := by
  induction fuel generalizing c m x with
  | zero => cases hr
  | succ fuel ih =>
    obtain ⟨es, rfl, hrd⟩ := readMember_ok hr
    obtain ⟨nm, hnm, hun, sv, cond, hsv, hcond, hx⟩ := hrd.name
    rcases hx with ⟨ty, t, inner, hty, ht, hd, hin, rfl⟩ | ⟨dt, inner, h, hdt, hty, hg, hk, hn, rfl⟩
    · have hi := readTyped_resolved ih hin
      split
      · refine ⟨fun y hu => ?_, fun n y hc => ?_⟩
        · cases hu with
          | inline hu =>
            obtain ⟨n, hn⟩ := hi.named y hu
            exact ⟨n, .inline hn⟩
        · cases hc with
          | inline hc => exact hi.resolved n y hc
      · exact hi
    · refine ⟨fun y hu => ?_, fun n y hc => ?_⟩
      · cases hu; exact ⟨dt, .member hdt⟩
      · cases hc with
        | member h3 => rw [hdt] at h3; cases h3; exact hg

/-- **C42** Every definition a read definition refers to stands where the document
has a name, and wherever the document has a name the definition has the one
registered under that name at the time of reading. -/
theorem C42_resolved (E : Env) (reg : Registry) (d : Yaml) (x : Defn)
    (hr : readDefinition E reg d = .ok x) :
    (∀ y, Uses x y → ∃ n, Cites d x n y) ∧ ∀ n y, Cites d x n y → reg.getByName E n = some y := by
  obtain ⟨es, nm, ty, t, rfl, hn, hne, hty, ht, hr⟩ := readDefinition_ok hr
  have := readTyped_resolved (readMember_resolved _) hr
  exact ⟨this.named, this.resolved⟩

/-- Every definition only refers to definitions registered before it. -/
def Ordered (ds : List Defn) : Prop :=
  ∀ pre x post, ds = pre ++ x :: post → ∀ y, Uses x y → y ∈ pre

theorem ordered_snoc {ds : List Defn} {x : Defn} (h : Ordered ds) (hx : ∀ y, Uses x y → y ∈ ds) :
    Ordered (ds ++ [x]) := by
  intro pre z post he y hu
  rcases List.eq_nil_or_concat post with rfl | ⟨post', w, rfl⟩
  · have he' : ds = pre ∧ x = z := by simpa using he
    obtain ⟨rfl, rfl⟩ := he'
    exact hx y hu
  · rw [List.concat_eq_append, ← List.cons_append, ← List.append_assoc] at he
    have := List.append_inj_left' he rfl
    exact h pre z post' this y hu

theorem loaded_ordered {E : Env} {r r' : Registry} {ds : List Yaml} {xs : List Defn}
    (h : Loaded E r ds xs r') (hr : Ordered r.getDefinitions) : Ordered r'.getDefinitions := by
  induction h with
  | nil r => exact hr
  | cons hd hreg h ih =>
    apply ih
    rcases register_pair hreg with ⟨_, h⟩ | ⟨h, _⟩
    · rw [h]
      apply ordered_snoc hr
      intro y hu
      obtain ⟨h1, h2⟩ := C42_resolved E _ _ _ hd
      obtain ⟨n, hn⟩ := h1 y hu
      exact getByName_mem (h2 n y hn)
    · cases h

/-- **C42** After any files were read every registered definition refers only to
definitions registered before it. -/
theorem C42_before (E : Env) (fs : List YamlFile) (pre post : List Defn) (x y : Defn)
    (h : (readFiles E fs).getDefinitions = pre ++ x :: post) (hu : Uses x y) : y ∈ pre := by
  have : ∀ (fs : List YamlFile) (r : Registry), Ordered r.getDefinitions →
      Ordered (fs.foldl (fun r f => (readFileObject E r f).2) r).getDefinitions := by
    intro fs
    induction fs with
    | nil => exact fun _ h => h
    | cons f fs ih =>
      intro r hr
      apply ih
      obtain ⟨k, xs, _, h1, _⟩ := C44_stops E r f
      exact loaded_ordered h1 hr
  exact this fs {} (by intro pre x post h; simp [Registry.getDefinitions] at h) pre x post h y hu

example : exU8r ∈ [exU8r] :=
  C42_before exEnvR [{ docs := [docU8, docPoint] }] [exU8r] [] exPoint exU8r rfl
    (.struct List.mem_cons_self .member)

example : Cites docPoint exPoint "u8" exU8r :=
  .struct (k := 2) rfl rfl rfl (.element rfl)

end Dtf
