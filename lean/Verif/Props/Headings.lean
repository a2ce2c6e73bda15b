import Verif.Props.Documents
import Verif.Props.Library
/-!
# Property C110: sections are only headings
-/
namespace Dtf

namespace Spec

/-- The heading of a section in a list of members. -/
def Heading (y : Yaml) : Prop := ∃ es n, y = .map es ∧ entry es "section" = .str n ∧ n ≠ ""

mutual
/-- Documents of structures and unions, or other values, that differ only in the headings among their members. -/
inductive Headed : Yaml → Yaml → Prop
  | same (y) : Headed y y
  | mapping {es fs} (ht : entry es "type" = .str "structure" ∨ entry es "type" = .str "union")
      (h : HeadedEntries es fs) : Headed (.map es) (.map fs)
inductive HeadedEntries : List (Key × Yaml) → List (Key × Yaml) → Prop
  | nil : HeadedEntries [] []
  | same {k y es fs} (t : HeadedEntries es fs) : HeadedEntries ((k, y) :: es) ((k, y) :: fs)
  | members {l l' es fs} (h : HeadedItems l l') (he : l = [] ↔ l' = []) (t : HeadedEntries es fs) :
      HeadedEntries ((.str "members", .list l) :: es) ((.str "members", .list l') :: fs)
/-- Lists of members that differ only in headings, also in those within their members. -/
inductive HeadedItems : List Yaml → List Yaml → Prop
  | nil : HeadedItems [] []
  | cons {y y' l l'} (h : Headed y y') (t : HeadedItems l l') : HeadedItems (y :: l) (y' :: l')
  | less {y l l'} (h : Heading y) (t : HeadedItems l l') : HeadedItems (y :: l) l'
  | more {y l l'} (h : Heading y) (t : HeadedItems l l') : HeadedItems l (y :: l')
end

end Spec
open Spec

theorem headed_entryD {es fs : List (Key × Yaml)} (h : HeadedEntries es fs) (k : String) (dflt : Yaml) :
    entryD fs k dflt = entryD es k dflt ∨ (k = "members" ∧ ∃ l l', entryD es k dflt = .list l ∧
      entryD fs k dflt = .list l' ∧ HeadedItems l l' ∧ (l = [] ↔ l' = [])) := by
  induction es generalizing fs with
  | nil => cases h; exact .inl rfl
  | cons e es ih =>
    cases h with
    | @same k' y _ fs t =>
      simp only [entryD, List.find?_cons] at ih ⊢
      by_cases hk : k' = .str k
      · subst hk; simp
      · have : (k' == Key.str k) = false := by simpa using hk
        rw [this]
        exact ih t
    | @members l l' _ fs h he t =>
      simp only [entryD, List.find?_cons] at ih ⊢
      by_cases hk : "members" = k
      · subst hk
        exact .inr ⟨rfl, l, l', by simp, by simp, h, he⟩
      · have : (Key.str "members" == Key.str k) = false := by simpa using hk
        rw [this]
        exact ih t

theorem headed_plain {es fs : List (Key × Yaml)} (h : HeadedEntries es fs) {k : String} (hk : k ≠ "members") :
    entry fs k = entry es k := by
  rcases headed_entryD h k .null with h | ⟨h, -⟩
  · exact h
  · exact absurd h hk

theorem headed_keys {es fs : List (Key × Yaml)} (h : HeadedEntries es fs) : fs.map (·.1) = es.map (·.1) := by
  induction es generalizing fs with
  | nil => cases h; rfl
  | cons e es ih =>
    cases h with
    | same t => simp only [List.map_cons, ih t]
    | members _ _ t => simp only [List.map_cons, ih t]

theorem headedEntries_refl (es : List (Key × Yaml)) : HeadedEntries es es := by
  induction es with
  | nil => exact .nil
  | cons e es ih => exact .same ih

theorem headedItems_refl (l : List Yaml) : HeadedItems l l := by
  induction l with
  | nil => exact .nil
  | cons y l ih => exact .cons (.same y) ih

theorem knownKeys_headed {es fs : List (Key × Yaml)} (h : HeadedEntries es fs) {sup : List String}
    (hk : KnownKeys sup es) : KnownKeys sup fs := by
  intro e he
  have : e.1 ∈ fs.map (·.1) := List.mem_map_of_mem he
  rw [headed_keys h] at this
  obtain ⟨e', h1, h2⟩ := List.mem_map.1 this
  obtain ⟨s, h3⟩ := hk e' h1
  exact ⟨s, by rw [← h2]; exact h3⟩

/-- Members of lists that differ in headings. -/
theorem memberList_headed {rm : Yaml → Defn → Prop} {items items' : List Yaml} (h : HeadedItems items items')
    (hrm : ∀ y ∈ items, ∀ y', Headed y y' → ∀ x, rm y x → rm y' x) {ds : List Defn}
    (hd : MemberList rm items ds) : MemberList rm items' ds := by
  have key : ∀ n, ∀ items items' : List Yaml, items.length + items'.length ≤ n → HeadedItems items items' →
      (∀ y ∈ items, ∀ y', Headed y y' → ∀ x, rm y x → rm y' x) → ∀ ds : List Defn,
      MemberList rm items ds → MemberList rm items' ds := by
    intro n
    induction n with
    | zero =>
      intro items items' hn h _ ds hd
      cases items with
      | nil => cases items' with
        | nil => exact hd
        | cons => simp at hn
      | cons => simp at hn
    | succ n ih =>
      intro items items' hn h hrm ds hd
      cases h with
      | nil => exact hd
      | @cons y y' l l' h t =>
        simp only [List.length_cons] at hn
        have hrm' : ∀ y ∈ l, ∀ y', Headed y y' → ∀ x, rm y x → rm y' x :=
          fun y hy => hrm y (List.mem_cons_of_mem _ hy)
        have shape : ∀ es, y = .map es → ∃ fs, y' = .map fs ∧ HeadedEntries es fs := by
          rintro es rfl
          cases h with
          | same => exact ⟨es, rfl, headedEntries_refl es⟩
          | mapping _ h => exact ⟨_, rfl, h⟩
        cases hd with
        | @sect es n _ _ hs he hd =>
          obtain ⟨fs, rfl, hf⟩ := shape es rfl
          exact .sect (by rw [headed_plain hf (by decide)]; exact hs) he (ih _ _ (by omega) t hrm' _ hd)
        | @member es d _ _ hs hx hd =>
          have hx' := hrm _ List.mem_cons_self _ h _ hx
          obtain ⟨fs, rfl, hf⟩ := shape es rfl
          exact .member (by rw [headed_plain hf (by decide)]; exact hs) hx' (ih _ _ (by omega) t hrm' _ hd)
      | @less y l _ h t =>
        obtain ⟨es, n, rfl, h1, h2⟩ := h
        simp only [List.length_cons] at hn
        refine ih _ _ (by omega) t (fun y hy => hrm y (List.mem_cons_of_mem _ hy)) _ ?_
        cases hd with
        | sect _ _ hd => exact hd
        | member hs _ _ =>
          rw [noValue_iff, h1] at hs
          simp [Yaml.truthy, h2] at hs
      | @more y l l' h t =>
        obtain ⟨es, n, rfl, h1, h2⟩ := h
        simp only [List.length_cons] at hn
        exact .sect h1 h2 (ih _ _ (by omega) t hrm _ hd)
  exact key _ _ _ (Nat.le_refl _) h hrm ds hd

theorem ofType_headed {E : Env} {look : String → Option Defn} {es fs : List (Key × Yaml)} (h : HeadedEntries es fs)
    (ih : ∀ c y y' x, y.depth < (Yaml.map es).depth → Headed y y' → Member E look c y x → Member E look c y' x)
    {mem : Bool} {name ty : String} (ht : ty = "structure" ∨ ty = "union") {x : Defn}
    (hx : OfType E look (Member E look) mem name es ty x) : OfType E look (Member E look) mem name fs ty x := by
  have h1 : attrsOf fs = attrsOf es := by rw [attrsOf, attrsOf, headed_plain h (by decide)]
  have f2 : ∀ ty, Attributes ty es → Attributes ty fs := by
    intro ty; rw [Attributes, Attributes, headed_plain h (by decide)]; exact id
  have f3 : ∀ o, ByteOrder es o → ByteOrder fs o := by intro o; rw [ByteOrder, ByteOrder, h1]; exact id
  have f6 : ∀ n o x, Head es n o x → Head fs n o x := fun n o x hx =>
    ⟨hx.name, hx.order, by rw [headed_plain h (by decide)]; exact hx.aliases,
      by rw [headed_plain h (by decide)]; exact hx.description⟩
  have hms : ∀ items, ¬ NoValue (entry es "members") → Items (entry es "members") items →
      ∃ items', ¬ NoValue (entry fs "members") ∧ Items (entry fs "members") items' ∧ HeadedItems items items' := by
    intro items hv hi
    rcases headed_entryD h "members" .null with h | ⟨-, l, l', h1, h2, h3, h4⟩
    · change entry fs "members" = entry es "members" at h
      exact ⟨items, by rw [h]; exact hv, by rw [h]; exact hi, headedItems_refl items⟩
    · change entry es "members" = _ at h1
      change entry fs "members" = _ at h2
      rw [h1] at hv hi
      rw [h2]
      cases hi
      refine ⟨l', ?_, .list, h3⟩
      rw [noValue_iff] at hv ⊢
      simp only [Yaml.truthy] at hv ⊢
      simp_all
  cases hx with
  | «structure» hm ha ho hh hne hi hl hd =>
    obtain ⟨items', h2, h3, h4⟩ := hms _ hne hi
    exact .structure hm (f2 _ ha) (f3 _ ho) (f6 _ _ _ hh) h2 h3 (memberList_headed h4
      (fun y hy y' hyy x hx => ih true y y' x (members_depth (items_iff.1 hi) hy) hyy hx) hl) hd
  | union ha ho hh hne hi hl hd =>
    obtain ⟨items', h2, h3, h4⟩ := hms _ hne hi
    exact .union (f2 _ ha) (f3 _ ho) (f6 _ _ _ hh) h2 h3 (memberList_headed h4
      (fun y hy y' hyy x hx => ih false y y' x (members_depth (items_iff.1 hi) hy) hyy hx) hl) hd
  | primitive _ _ _ hk => cases hk <;> simp at ht
  | _ => simp at ht

theorem member_headed {E : Env} {look : String → Option Defn} (k : Nat) : ∀ c y y' x, y.depth ≤ k → Headed y y' →
    Member E look c y x → Member E look c y' x := by
  induction k with
  | zero =>
    intro c y y' x hk _ hx
    cases hx with
    | typed => rw [Yaml.depth] at hk; omega
    | reference => rw [Yaml.depth] at hk; omega
  | succ k ih =>
    intro c y y' x hk h hx
    cases h with
    | same => exact hx
    | @mapping es fs ht hf =>
      cases hx with
      | @typed _ _ name ty inner cond sv hn hty hdt hc hcc hv hk' hi =>
        have hty' : ty = "structure" ∨ ty = "union" := by
          rw [hty] at ht
          simpa using ht
        refine .typed (name := name) (ty := ty) ?_ ?_ ?_ ?_ ?_ ?_ (knownKeys_headed hf hk')
          (ofType_headed hf (fun c y y' x hd => ih c y y' x (by omega)) hty' hi)
        · rw [headed_plain hf (by decide)]; exact hn
        · rw [headed_plain hf (by decide)]; exact hty
        · rw [headed_plain hf (by decide)]; exact hdt
        · rw [headed_plain hf (by decide)]; exact hc
        · rw [headed_plain hf (by decide)]; exact hcc
        · rw [headed_plain hf (by decide), headed_plain hf (by decide)]; exact hv
      | reference hn hty =>
        rw [hty] at ht
        simp at ht

theorem describes_headed {E : Env} {look : String → Option Defn} {y y' : Yaml} (h : Headed y y') {x : Defn}
    (hx : Describes E look y x) : Describes E look y' x := by
  cases h with
  | same => exact hx
  | @mapping es fs ht hf =>
    obtain ⟨es', name, ty, he, h1, h2, h3, h4, h5⟩ := hx
    cases he
    have hty' : ty = "structure" ∨ ty = "union" := by
      rw [h3] at ht
      simpa using ht
    refine ⟨fs, name, ty, rfl, ?_, h2, ?_, knownKeys_headed hf h4,
      ofType_headed hf (fun c y y' x _ => member_headed _ c y y' x (Nat.le_refl _)) hty' h5⟩
    · rw [headed_plain hf (by decide)]; exact h1
    · rw [headed_plain hf (by decide)]; exact h3

theorem headed_symm (k : Nat) : ∀ y y', y.depth ≤ k → Headed y y' → Headed y' y := by
  induction k with
  | zero => intro y y' hk; cases y <;> simp [Yaml.depth] at hk
  | succ k ih =>
    intro y y' hk h
    cases h with
    | same => exact .same _
    | @mapping es fs ht h =>
      have ht' := ht
      rw [← headed_plain h (k := "type") (by decide)] at ht'
      refine .mapping ht' ?_
      rw [Yaml.depth] at hk
      replace hk : depthEntries es ≤ k := by omega
      have hitems : ∀ n, ∀ l l', l.length + l'.length ≤ n → depthList l ≤ k → HeadedItems l l' → HeadedItems l' l := by
        intro n
        induction n with
        | zero =>
          intro l l' hn _ h
          cases l with
          | nil => cases l' with
            | nil => exact .nil
            | cons => simp at hn
          | cons => simp at hn
        | succ n ihn =>
          intro l l' hn hl h
          cases h with
          | nil => exact .nil
          | cons h t =>
            rw [depthList] at hl
            simp only [List.length_cons] at hn
            exact .cons (ih _ _ (by omega) h) (ihn _ _ (by omega) (by omega) t)
          | less h t =>
            rw [depthList] at hl
            simp only [List.length_cons] at hn
            exact .more h (ihn _ _ (by omega) (by omega) t)
          | more h t =>
            simp only [List.length_cons] at hn
            exact .less h (ihn _ _ (by omega) hl t)
      clear ht ht' ih
      induction es generalizing fs with
      | nil => cases h; exact .nil
      | cons e es ihe =>
        rw [depthEntries] at hk
        cases h with
        | same t => exact .same (ihe t (by omega))
        | @members l l' _ fs h he t =>
          have : depthEntry (Key.str "members", Yaml.list l) = depthList l + 1 := rfl
          exact .members (hitems _ _ _ (Nat.le_refl _) (by omega) h) he.symm (ihe t (by omega))

/-- **C110** A document is read as the same definition, or not at all, with other headings among its members. -/
theorem C110_document (E : Env) (reg : Registry) (y y' : Yaml) (h : Headed y y') (d : Defn) :
    readDefinition E reg y = .ok d ↔ readDefinition E reg y' = .ok d := by
  rw [C54_document, C54_document]
  exact ⟨describes_headed h, describes_headed (headed_symm _ _ _ (Nat.le_refl _) h)⟩

/-- **C110** Files that differ in headings only are both read without error or both not, and the same
definitions are known afterwards. -/
theorem C110_file (E : Env) (reg : Registry) (f f' : YamlFile) (h : All2 Headed f.docs f'.docs)
    (he : f.ending = f'.ending) :
    ((readFileObject E reg f).1 = .ok () ↔ (readFileObject E reg f').1 = .ok ()) ∧
      (readFileObject E reg f).2 = (readFileObject E reg f').2 := by
  have key : ∀ l l' : List Yaml, All2 Headed l l' → ∀ reg : Registry,
      ((readDocs E reg l).1 = .ok () ↔ (readDocs E reg l').1 = .ok ()) ∧
        (readDocs E reg l).2 = (readDocs E reg l').2 := by
    intro l l' h
    induction h with
    | nil => exact fun reg => ⟨Iff.rfl, rfl⟩
    | @cons y y' _ _ h _ ih =>
      intro reg
      have hd := C110_document E reg y y' h
      simp only [readDocs]
      cases hy : readDefinition E reg y with
      | ok d =>
        rw [(hd d).1 hy]
        simp only
        generalize reg.register E d = p
        obtain ⟨a, r⟩ := p
        cases a with
        | error e => exact ⟨Iff.rfl, rfl⟩
        | ok a => exact ih r
      | error e =>
        cases hy' : readDefinition E reg y' with
        | ok d => rw [(hd d).2 hy'] at hy; cases hy
        | error e' => exact ⟨iff_of_false (fun h => nomatch h) (fun h => nomatch h), rfl⟩
  have := key _ _ h reg
  simp only [readFileObject, ← he]
  generalize readDocs E reg f.docs = p at this
  generalize readDocs E reg f'.docs = p' at this
  obtain ⟨a, r⟩ := p
  obtain ⟨a', r'⟩ := p'
  obtain ⟨h1, h2⟩ := this
  simp only at h1 h2
  subst h2
  cases a with
  | error e =>
    cases a' with
    | error e' => exact ⟨iff_of_false (fun h => nomatch h) (fun h => nomatch h), rfl⟩
    | ok a' => cases h1.2 rfl
  | ok a =>
    cases a' with
    | error e' => cases h1.1 rfl
    | ok a' => cases f.ending <;> exact ⟨Iff.rfl, rfl⟩

/-! ### Examples -/

def docHeaded (l : List Yaml) : Yaml := doc [("name", .str "point"), ("type", .str "structure"), ("members", .list l)]

def docX : Yaml := doc [("name", .str "x"), ("data_type", .str "u8")]
def docY : Yaml := doc [("name", .str "y"), ("data_type", .str "u8")]
def docHeading (s : String) : Yaml := doc [("section", .str s)]

theorem heading_doc {s : String} (hs : s ≠ "") : Heading (docHeading s) := ⟨_, s, rfl, rfl, hs⟩

theorem exHeaded : Headed (docHeaded [docX, docY])
    (docHeaded [docHeading "first", docX, docHeading "second", docY, docHeading "empty"]) :=
  .mapping (.inl rfl) (.same (.same (.members (.more (heading_doc (by decide)) (.cons (.same _)
    (.more (heading_doc (by decide)) (.cons (.same _) (.more (heading_doc (by decide)) .nil))))) (by simp) .nil)))

example : (readFileObject exEnvR {} { docs := [docU8, docHeaded [docX, docY]] }).1 = .ok () ∧
    (readFileObject exEnvR {} { docs := [docU8, docHeaded [docX, docY]] }).2 =
      (readFileObject exEnvR {} { docs := [docU8, docHeaded
        [docHeading "first", docX, docHeading "second", docY, docHeading "empty"]] }).2 :=
  ⟨rfl, (C110_file exEnvR {} { docs := [docU8, docHeaded [docX, docY]] } { docs := [docU8, docHeaded
      [docHeading "first", docX, docHeading "second", docY, docHeading "empty"]] }
    (.cons (.same _) (.cons exHeaded .nil)) rfl).2⟩

/-- A list with headings only is a list of members, of none; without them it is missing. -/
theorem C110_alone : (readFileObject exEnvR {} { docs := [docU8, docHeaded [docHeading "alone"]] }).1 = .ok () ∧
    (readFileObject exEnvR {} { docs := [docU8, docHeaded []] }).1 ≠ .ok () := ⟨rfl, (nomatch ·)⟩

end Dtf
