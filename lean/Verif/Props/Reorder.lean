import Verif.Props.Library
/-!
C57: the order of documents that do not refer to each other does not matter.
-/
namespace Dtf
namespace Spec

/-- The document refers to a data type by the text: as type of its elements, base,
default, type of a member, or as member of a family or group. -/
inductive Refers (s : String) : Yaml → Prop
  | here {es : List (Key × Yaml)} {k : String}
      (hk : k ∈ ["element_data_type", "base", "default", "data_type"])
      (h : entry es k = .str s) : Refers s (.map es)
  | item {es : List (Key × Yaml)} {items : List Yaml} (hi : (entry es "members").iter = .ok items)
      (hm : .str s ∈ items) : Refers s (.map es)
  | inner {es : List (Key × Yaml)} {items : List Yaml} {m : Yaml}
      (hi : (entry es "members").iter = .ok items) (hm : m ∈ items) (h : Refers s m) :
      Refers s (.map es)

/-- The text is a name of the definition, ignoring case, or an alias of it. -/
def Names (E : Env) (x : Defn) (s : String) : Prop :=
  E.lower x.name = E.lower s ∨ s ∈ x.hdr.aliases

/-- Two documents are unrelated: neither refers to the definition of the other, and
neither name is an alias of the other. -/
structure Unrelated (E : Env) (d1 d2 : Yaml) (x1 x2 : Defn) : Prop where
  left : ∀ s, Refers s d1 → ¬ Names E x2 s
  right : ∀ s, Refers s d2 → ¬ Names E x1 s
  names : x1.name ∉ x2.hdr.aliases ∧ x2.name ∉ x1.hdr.aliases

end Spec
open Spec

theorem ok_bind {α β : Type} (a : α) (f : α → Except Err β) :
    ((Except.ok a : Except Err α) >>= f) = f a := by
  generalize hb : f a = b
  exact hb

theorem error_bind {α β : Type} (e : Err) (f : α → Except Err β) :
    ((Except.error e : Except Err α) >>= f) = .error e := by
  generalize hb : (Except.error e : Except Err β) = b
  exact hb

/-- The registries agree on the names in the document. -/
def AgreeOn (E : Env) (reg reg' : Registry) (d : Yaml) : Prop :=
  ∀ s, Refers s d → reg.getByName E s = reg'.getByName E s

theorem resolve_local {E : Env} {reg reg' : Registry} {y : Yaml}
    (h : ∀ s, y = .str s → reg.getByName E s = reg'.getByName E s) :
    resolve E reg y = resolve E reg' y := by
  unfold resolve
  split
  · rw [h _ rfl]
  · rfl
  · rfl

theorem AgreeOn.entry {E : Env} {reg reg' : Registry} {es : List (Key × Yaml)}
    (h : AgreeOn E reg reg' (.map es)) {k : String}
    (hk : k ∈ ["element_data_type", "base", "default", "data_type"]) :
    resolve E reg (entry es k) = resolve E reg' (entry es k) :=
  resolve_local fun s hs => h s (.here hk hs)

theorem readElements_local {E : Env} {reg reg' : Registry} {es : List (Key × Yaml)}
    (h : AgreeOn E reg reg' (.map es)) (k : SeqKind) (sup : List String) (name : String) :
    readElements E reg k sup (.map es) name = readElements E reg' k sup (.map es) name := by
  simp only [readElements, get_map, ok_bind, h.entry (k := "element_data_type") (by simp)]

theorem addFamily_local {E : Env} {reg reg' : Registry} {ms : List Yaml}
    (h : ∀ m ∈ ms, resolve E reg m = resolve E reg' m) (acc : List Defn) :
    addFamily E reg acc ms = addFamily E reg' acc ms := by
  induction ms generalizing acc with
  | nil => rfl
  | cons m ms ih =>
    simp only [addFamily, h m List.mem_cons_self, ih fun m hm => h m (List.mem_cons_of_mem _ hm)]

theorem addGroup_local {E : Env} {reg reg' : Registry} {ms : List Yaml} {i : String}
    (h : ∀ m ∈ ms, resolve E reg m = resolve E reg' m) (acc : List Defn) :
    addGroup E reg i acc ms = addGroup E reg' i acc ms := by
  induction ms generalizing acc with
  | nil => rfl
  | cons m ms ih =>
    simp only [addGroup, h m List.mem_cons_self, ih fun m hm => h m (List.mem_cons_of_mem _ hm)]

theorem readTyped_local {E : Env} {reg reg' : Registry} {rm rm' : Bool → Yaml → Except Err Defn}
    {es : List (Key × Yaml)} (h : AgreeOn E reg reg' (.map es))
    (hrm : ∀ items, (entry es "members").iter = .ok items → ∀ m ∈ items, ∀ c, rm c m = rm' c m)
    (t : TypeInd) (mem : Bool) (name : String) :
    readTyped E reg rm t mem (.map es) name = readTyped E reg' rm' t mem (.map es) name := by
  have hwm : ∀ c u, readWithMembers (rm c) u (.map es) name =
      readWithMembers (rm' c) u (.map es) name := by
    intro c u
    simp only [readWithMembers, get_map, ok_bind]
    cases hi : (entry es "members").iter with
    | error e => rfl
    | ok items =>
      simp only [ok_bind, addMembers_congr (fun m hm => hrm items hi m hm c)]
  have hb := h.entry (k := "base") (by simp)
  have hd := h.entry (k := "default") (by simp)
  have hitems : ∀ items, (entry es "members").iter = .ok items →
      ∀ m ∈ items, resolve E reg m = resolve E reg' m := by
    intro items hi m hm
    refine resolve_local fun s hs => h s (.item hi ?_)
    rw [← hs]
    exact hm
  cases t <;> try rfl
  case sequence => exact readElements_local h _ _ _
  case stream => exact readElements_local h _ _ _
  case string => simp only [readTyped, readString, readElements_local h]
  case «structure» => simp only [readTyped, hwm]
  case union => simp only [readTyped, hwm]
  case family =>
    simp only [readTyped, readFamily, get_map, ok_bind, hb]
    cases hi : (entry es "members").iter with
    | error e => rfl
    | ok items => simp only [ok_bind, addFamily_local (hitems items hi)]
  case group =>
    simp only [readTyped, readGroup, get_map, ok_bind, hb, readDefault, hd]
    cases hi : (entry es "members").iter with
    | error e => rfl
    | ok items => simp only [ok_bind, addGroup_local (hitems items hi)]

theorem readMember_local {E : Env} {reg reg' : Registry} (f : Nat) (c : Bool) (d : Yaml)
    (h : AgreeOn E reg reg' d) : readMember E reg f c d = readMember E reg' f c d := by
  induction f generalizing c d with
  | zero => rfl
  | succ f ih =>
    unfold readMember
    split
    · rfl
    · cases hn : d.get "name" with
      | error e => rfl
      | ok n =>
        obtain ⟨es, rfl, rfl⟩ := get_ok hn
        have ht := fun t mem nm => readTyped_local (rm := readMember E reg f) (rm' := readMember E reg' f)
          h (fun items hi m hm c => ih c m fun s hs => h s (.inner hi hm hs)) t mem nm
        simp only [get_map, ok_bind, ht, h.entry (k := "data_type") (by simp)]

theorem readDefinition_local {E : Env} {reg reg' : Registry} {d : Yaml} (h : AgreeOn E reg reg' d) :
    readDefinition E reg d = readDefinition E reg' d := by
  cases d with
  | map es =>
    have ht := fun t mem nm => readTyped_local (rm := readMember E reg (Yaml.map es).depth)
      (rm' := readMember E reg' (Yaml.map es).depth)
      h (fun items hi m hm c => readMember_local _ c m fun s hs => h s (.inner hi hm hs)) t mem nm
    simp only [readDefinition, get_map, ok_bind, ht]
  | _ => simp only [readDefinition, Yaml.get, Yaml.getD, error_bind]

/-! ### Names after definitions were exchanged -/

theorem find_swap {α : Type} (p : α → Bool) (a : List α) (x y : α) (c : List α)
    (h : ¬ (p x = true ∧ p y = true)) :
    (a ++ x :: y :: c).find? p = (a ++ y :: x :: c).find? p := by
  simp only [List.find?_append, List.find?_cons]
  cases hx : p x <;> cases hy : p y <;> simp_all

theorem findName_swap {E : Env} {a c : List Defn} {x y : Defn}
    (h1 : E.lower x.name ≠ E.lower y.name) (h2 : ∀ n ∈ x.hdr.aliases, n ∉ y.hdr.aliases)
    (n : String) : findName E (a ++ x :: y :: c) n = findName E (a ++ y :: x :: c) n := by
  unfold findName
  rw [find_swap, find_swap (fun d : Defn => d.hdr.aliases.contains n)]
  · simp only [List.contains_eq_mem, decide_eq_true_eq]
    exact fun h => h2 n h.1 h.2
  · simp only [beq_iff_eq]
    rintro ⟨ha, hb⟩
    exact h1 (ha.trans hb.symm)

theorem findName_skip {E : Env} {a : List Defn} {x : Defn} {n : String} (h : ¬ Names E x n) :
    findName E (a ++ [x]) n = findName E a n := by
  unfold Names at h
  have h1 : ¬ E.lower x.name = E.lower n := fun e => h (.inl e)
  have h2 : ¬ n ∈ x.hdr.aliases := fun e => h (.inr e)
  unfold findName
  have e1 : [x].find? (E.lower ·.name == E.lower n) = none := by simp [h1]
  have e2 : [x].find? (·.hdr.aliases.contains n) = none := by simp [h2]
  rw [List.find?_append, List.find?_append, e1, e2, Option.or_none, Option.or_none]

theorem fresh_swap {E : Env} {a c : List Defn} {x y z : Defn} :
    Fresh E (a ++ x :: y :: c) z ↔ Fresh E (a ++ y :: x :: c) z := by
  have : ∀ d, d ∈ a ++ x :: y :: c ↔ d ∈ a ++ y :: x :: c := by
    intro d
    simp only [List.mem_append, List.mem_cons]
    constructor <;> rintro (h | h | h | h) <;> simp [h]
  simp only [Fresh, this]

/-- Reading on after two definitions were exchanged. -/
theorem readDocs_swap {E : Env} {r r' : Registry} {a c : List Defn} {x y : Defn}
    (hr : r.Holds E (a ++ x :: y :: c)) (hr' : r'.Holds E (a ++ y :: x :: c))
    (h1 : E.lower x.name ≠ E.lower y.name) (h2 : ∀ n ∈ x.hdr.aliases, n ∉ y.hdr.aliases)
    (ds : List Yaml) :
    (readDocs E r' ds).1 = (readDocs E r ds).1 ∧ ∃ zs,
      (readDocs E r ds).2.Holds E (a ++ x :: y :: (c ++ zs)) ∧
      (readDocs E r' ds).2.Holds E (a ++ y :: x :: (c ++ zs)) := by
  induction ds generalizing r r' c with
  | nil => exact ⟨rfl, [], by simpa [readDocs] using hr, by simpa [readDocs] using hr'⟩
  | cons d ds ih =>
    have hd : readDefinition E r' d = readDefinition E r d :=
      readDefinition_local fun s _ => by
        rw [hr'.getByName, hr.getByName, findName_swap h1 h2]
    unfold readDocs
    rw [hd]
    cases hdd : readDefinition E r d with
    | error e => exact ⟨rfl, [], by simpa using hr, by simpa using hr'⟩
    | ok z =>
      simp only
      by_cases hf : Fresh E (a ++ x :: y :: c) z
      · have hok := (hr.fresh z).mpr hf
        have hok' := (hr'.fresh z).mpr (fresh_swap.mp hf)
        have hz := hr.register hok
        have hz' := hr'.register hok'
        cases hp : r.register E z with
        | mk res r1 =>
          cases hp' : r'.register E z with
          | mk res' r1' =>
            rw [hp] at hok hz
            rw [hp'] at hok' hz'
            simp only at hok hok' hz hz'
            subst hok hok'
            simp only
            obtain ⟨h3, zs, h4, h5⟩ := ih (c := c ++ [z]) (r := r1) (r' := r1') (by simpa using hz)
              (by simpa using hz')
            exact ⟨h3, z :: zs, by simpa using h4, by simpa using h5⟩
      · cases hp : r.register E z with
        | mk res r1 =>
          cases hp' : r'.register E z with
          | mk res' r1' =>
            cases res with
            | ok u => exact absurd ((hr.fresh z).mp (by rw [hp])) hf
            | error e =>
              cases res' with
              | ok u => exact absurd (fresh_swap.mpr ((hr'.fresh z).mp (by rw [hp']))) hf
              | error e' =>
                obtain ⟨h3, h4⟩ := register_error (E := E) (r := r) (d := z) (e := e) (by rw [hp])
                obtain ⟨h5, h6⟩ := register_error (E := E) (r := r') (d := z) (e := e') (by rw [hp'])
                rw [hp] at h4
                rw [hp'] at h6
                simp only at h4 h6
                subst h3 h4 h5 h6
                exact ⟨rfl, [], by simpa using hr, by simpa using hr'⟩

theorem readDocs_append {E : Env} {r : Registry} {as bs : List Yaml}
    (h : (readDocs E r as).1 = .ok ()) :
    readDocs E r (as ++ bs) = readDocs E (readDocs E r as).2 bs := by
  induction as generalizing r with
  | nil => rfl
  | cons d as ih =>
    simp only [List.cons_append, readDocs] at h ⊢
    cases hd : readDefinition E r d with
    | error e => rw [hd] at h; cases h
    | ok x =>
      rw [hd] at h
      simp only at h ⊢
      cases hp : r.register E x with
      | mk res r1 =>
        rw [hp] at h
        cases res with
        | error e => cases h
        | ok u => exact ih h

theorem readDocs_holds {E : Env} {r : Registry} {prev : List Defn} (h : r.Holds E prev)
    (ds : List Yaml) : (readDocs E r ds).2.Holds E (readDocs E r ds).2.getDefinitions := by
  obtain ⟨k, xs, _, hl, -, -⟩ := readDocs_loaded E ds r
  have := loaded_holds hl h
  rw [this.getDefinitions]
  exact this

theorem library_swap {E : Env} {r : Registry} {prev : List Defn} (h : r.Holds E prev) {d1 d2 : Yaml}
    {bs : List Yaml} {x1 x2 : Defn} {ys : List Defn} (hu : Unrelated E d1 d2 x1 x2)
    (hl : Library E prev (d1 :: d2 :: bs) (x1 :: x2 :: ys)) :
    Library E prev (d2 :: d1 :: bs) (x2 :: x1 :: ys) := by
  have lk : ∀ {r : Registry} {prev : List Defn}, r.Holds E prev →
      r.getByName E = findName E prev := fun h => funext h.getByName
  cases hl with
  | cons hd1 hf1 hl =>
  cases hl with
  | cons hd2 hf2 hl =>
  have h1 := h.register ((h.fresh x1).mpr hf1)
  have h12 := h1.register ((h1.fresh x2).mpr hf2)
  have hff := hf2 x1 (by simp)
  have hf2' : Fresh E prev x2 := fun d hd => hf2 d (by simp [hd])
  have h2 := h.register ((h.fresh x2).mpr hf2')
  have hf1' : Fresh E (prev ++ [x2]) x1 := by
    intro d hd
    rcases List.mem_append.mp hd with hd | hd
    · exact hf1 d hd
    · simp only [List.mem_singleton] at hd
      subst hd
      exact ⟨fun e => hff.1 e.symm, hu.names.1, fun a ha hb => hff.2.2 a hb ha⟩
  have h21 := h2.register ((h2.fresh x1).mpr hf1')
  refine .cons ?_ hf2' (.cons ?_ hf1' ?_)
  · rw [← lk h1, ← C54_document] at hd2
    rw [← lk h, ← C54_document, ← hd2]
    refine readDefinition_local fun s hs => ?_
    rw [h.getByName, h1.getByName, findName_skip (hu.right s hs)]
  · rw [← lk h, ← C54_document] at hd1
    rw [← lk h2, ← C54_document, ← hd1]
    refine readDefinition_local fun s hs => ?_
    rw [h.getByName, h2.getByName, findName_skip (hu.left s hs)]
  · rw [List.append_assoc] at h12 h21 hl ⊢
    obtain ⟨h3, zs, h4, h5⟩ := readDocs_swap (a := prev) (c := []) h12 h21 hff.1
      (fun n ha hb => hff.2.2 n hb ha) bs
    obtain ⟨h6, h7⟩ := (readDocs_library h12 bs ys).mpr hl
    rw [h4.getDefinitions] at h7
    refine (readDocs_library h21 bs ys).mp ⟨by rw [h3, h6], ?_⟩
    rw [h5.getDefinitions]
    have : zs = ys := by simpa using h7
    subst this
    simp

theorem Spec.Library.length {E : Env} {prev : List Defn} {ds : List Yaml} {xs : List Defn}
    (h : Library E prev ds xs) : xs.length = ds.length := by
  induction h with
  | nil => rfl
  | cons _ _ _ ih => simp [ih]

/-- **C57**. If a file was read and two documents that follow each other are
unrelated, then the file with the two exchanged can be read too, and gives the same
definitions with the two exchanged. -/
theorem C57_swap (E : Env) (fs : List YamlFile) (as bs : List Yaml) (d1 d2 : Yaml)
    (xs ys : List Defn) (x1 x2 : Defn) (hx : xs.length = as.length)
    (hr : (readFileObject E (readFiles E fs) { docs := as ++ d1 :: d2 :: bs }).1 = .ok ())
    (hd : (readFiles E (fs ++ [{ docs := as ++ d1 :: d2 :: bs }])).getDefinitions =
      (readFiles E fs).getDefinitions ++ (xs ++ x1 :: x2 :: ys))
    (hu : Unrelated E d1 d2 x1 x2) :
    (readFileObject E (readFiles E fs) { docs := as ++ d2 :: d1 :: bs }).1 = .ok () ∧
    (readFiles E (fs ++ [{ docs := as ++ d2 :: d1 :: bs }])).getDefinitions =
      (readFiles E fs).getDefinitions ++ (xs ++ x2 :: x1 :: ys) := by
  have h0 := readFiles_holds E fs
  have hl := (C55_file E fs { docs := as ++ d1 :: d2 :: bs } _).mp ⟨hr, hd⟩
  rw [C55_file]
  generalize (readFiles E fs).getDefinitions = prev at *
  refine ⟨rfl, ?_⟩
  obtain ⟨xs', zs, he, hl1, hl2⟩ := library_append.mp hl.2
  have hlen := hl1.length
  obtain ⟨rfl, rfl⟩ := List.append_inj he (by omega)
  refine library_append.mpr ⟨xs, x2 :: x1 :: ys, rfl, hl1, ?_⟩
  obtain ⟨ha, hb⟩ := (readDocs_library h0 as xs).mpr hl1
  have hh := readDocs_holds h0 as
  rw [hb] at hh
  exact library_swap hh hu hl2

/-- All names refer to the same definitions afterwards. -/
theorem C57_lookup (E : Env) (fs : List YamlFile) (as bs : List Yaml) (d1 d2 : Yaml)
    (xs ys : List Defn) (x1 x2 : Defn) (hx : xs.length = as.length)
    (hr : (readFileObject E (readFiles E fs) { docs := as ++ d1 :: d2 :: bs }).1 = .ok ())
    (hd : (readFiles E (fs ++ [{ docs := as ++ d1 :: d2 :: bs }])).getDefinitions =
      (readFiles E fs).getDefinitions ++ (xs ++ x1 :: x2 :: ys))
    (hu : Unrelated E d1 d2 x1 x2) (n : String) :
    (readFiles E (fs ++ [{ docs := as ++ d2 :: d1 :: bs }])).getByName E n =
      (readFiles E (fs ++ [{ docs := as ++ d1 :: d2 :: bs }])).getByName E n := by
  have h2 := (C57_swap E fs as bs d1 d2 xs ys x1 x2 hx hr hd hu).2
  rw [C55_lookup, C55_lookup, hd, h2, ← List.append_assoc, ← List.append_assoc]
  have hl := (C55_file E fs { docs := as ++ d1 :: d2 :: bs } _).mp ⟨hr, hd⟩
  obtain ⟨xs', zs, he, hl1, hl2⟩ := library_append.mp hl.2
  have hlen := hl1.length
  obtain ⟨rfl, rfl⟩ := List.append_inj he (by omega)
  cases hl2 with
  | cons _ _ hl2 =>
  cases hl2 with
  | cons _ hf _ =>
    have := hf x1 (by simp)
    exact (findName_swap this.1 (fun a ha hb => this.2.2 a hb ha) n).symm

/-- Two integers and a structure of one of them: the structure and the other
integer are unrelated. -/
example :
    let ds := [docU8, docPoint, docNamed "other" []]
    (readFileObject exEnvR (readFiles exEnvR []) { docs := [docU8] ++ docPoint :: docNamed "other" [] :: [] }).1 =
      .ok () ∧
    (readFiles exEnvR [{ docs := ds }]).getDefinitions = [exU8r, exPoint, exNamed "other" []] := ⟨rfl, rfl⟩

theorem exUnrelated : Unrelated exEnvR docPoint (docNamed "other" []) exPoint (exNamed "other" []) where
  left s hs := by
    have : s = "u8" := by
      cases hs with
      | here hk h =>
        simp only [List.mem_cons, List.not_mem_nil, or_false] at hk
        rcases hk with rfl | rfl | rfl | rfl <;> cases h
      | item hi hm =>
        cases hi
        simp [doc] at hm
      | inner hi hm h =>
        cases hi
        simp only [List.mem_cons, List.not_mem_nil, or_false] at hm
        rcases hm with rfl | rfl | rfl
        all_goals
          cases h with
          | here hk h =>
            simp only [List.mem_cons, List.not_mem_nil, or_false] at hk
            rcases hk with rfl | rfl | rfl | rfl <;> cases h <;> rfl
          | item hi hm => cases hi
          | inner hi hm h => cases hi
    subst this
    rintro (h | h)
    · exact absurd h (by decide)
    · cases h
  right s hs := by
    cases hs with
    | here hk h =>
      simp only [List.mem_cons, List.not_mem_nil, or_false] at hk
      rcases hk with rfl | rfl | rfl | rfl <;> cases h
    | item hi hm => cases hi
    | inner hi hm h => cases hi
  names := ⟨by simp [exNamed, Defn.hdr], by simp [exPoint, Defn.hdr]⟩

end Dtf
