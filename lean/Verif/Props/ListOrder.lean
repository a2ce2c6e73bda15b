import Verif.Props.Loosen
import Verif.Props.Library
import Verif.Props.Documents
import Verif.Props.Definitions
import Verif.Props.GroupGrowth
import Verif.Props.Creation
/-!
# Property C123: the order of supported values, of the values of an enumeration and of aliases does not matter

Nor does the order of the members of a structure group.
-/
namespace Dtf

namespace Spec

/-- Lists of supported values with the same values, in whatever order and however often. -/
inductive AlikeLists : Option (List Lit) → Option (List Lit) → Prop
  | none : AlikeLists none none
  | some {vs ws : List Lit} (h : ∀ x, x ∈ vs ↔ x ∈ ws) : AlikeLists (some vs) (some ws)

mutual
/-- Definitions that differ only in the order of the supported values of members, but for those of the identifiers of the
members of structure groups. -/
inductive Shuffled : Defn → Defn → Prop
  | same (d) : Shuffled d d
  | seq (h : Hdr) (info : SeqInfo) {e e' : Defn} (he : Shuffled e e') : Shuffled (.seq h info e) (.seq h info e')
  | struct (h : Hdr) {ms ms'} (hm : ShuffledAll ms ms') : Shuffled (.struct h ms) (.struct h ms')
  | group (h : Hdr) {b b'} (i : String) {d d' ms ms'} (hb : Shuffled b b') (hd : ShuffledOpt d d')
      (hm : ShuffledAll ms ms') (hi : ms'.map (valuesFor i) = ms.map (valuesFor i)) :
      Shuffled (.group h b i d ms) (.group h b' i d' ms')
  | member (h : Hdr) {d d'} (c t) {vs vs'} (hd : Shuffled d d') (hv : AlikeLists vs vs') :
      Shuffled (.member h d c t vs) (.member h d' c t vs')
inductive ShuffledAll : List Defn → List Defn → Prop
  | nil : ShuffledAll [] []
  | cons {d d' ds ds'} (h : Shuffled d d') (t : ShuffledAll ds ds') : ShuffledAll (d :: ds) (d' :: ds')
inductive ShuffledOpt : Option Defn → Option Defn → Prop
  | none : ShuffledOpt none none
  | some {d d'} (h : Shuffled d d') : ShuffledOpt (some d) (some d')
end

end Spec
open Spec

/-! ### Supported values -/

theorem allows_of_same {vs ws : List Lit} (h : ∀ x, x ∈ vs → x ∈ ws) (h' : ∀ x, x ∈ ws → x ∈ vs) :
    Allows (some vs) (some ws) := by
  cases vs with
  | nil =>
    cases ws with
    | nil => exact .empty _
    | cons w ws => exact nomatch h' w List.mem_cons_self
  | cons v vs => exact .more h

theorem shuffled_loosened {d d' : Defn} (h : Shuffled d d') : Loosened d d' ∧ Loosened d' d := by
  refine Shuffled.rec (motive_1 := fun d d' _ => Loosened d d' ∧ Loosened d' d)
    (motive_2 := fun ds ds' _ => LoosenedAll ds ds' ∧ LoosenedAll ds' ds)
    (motive_3 := fun o o' _ => LoosenedOpt o o' ∧ LoosenedOpt o' o)
    ?_ ?_ ?_ ?_ ?_ ?_ ?_ ?_ ?_ h
  · exact fun d => ⟨.same d, .same d⟩
  · exact fun h i _ _ _ ih => ⟨.seq h i ih.1, .seq h i ih.2⟩
  · exact fun h _ _ _ ih => ⟨.struct h ih.1, .struct h ih.2⟩
  · exact fun h _ _ i _ _ _ _ _ _ _ hi hb hd hm => ⟨.group h i hb.1 hd.1 hm.1 hi, .group h i hb.2 hd.2 hm.2 hi.symm⟩
  · intro h d d' c t vs vs' _ hv ih
    cases hv with
    | none => exact ⟨.member h c t ih.1 (.all _), .member h c t ih.2 (.all _)⟩
    | some hs =>
      exact ⟨.member h c t ih.1 (allows_of_same (fun x => (hs x).1) fun x => (hs x).2),
        .member h c t ih.2 (allows_of_same (fun x => (hs x).2) fun x => (hs x).1)⟩
  · exact ⟨.nil, .nil⟩
  · exact fun _ _ h t => ⟨.cons h.1 t.1, .cons h.2 t.2⟩
  · exact ⟨.none, .none⟩
  · exact fun _ h => ⟨.some h.1, .some h.2⟩

/-- **C123** Definitions whose supported values are in another order: they give a map or raise alike, and the maps map the
same byte streams to the same values with the same sizes, raise the same errors otherwise, fold the same and give the
same size hints. -/
theorem C123_values (E : Env) (d d' : Defn) (h : Shuffled d d') (hd : d.Every TypesDistinct)
    (hd' : d'.Every TypesDistinct) :
    (∀ e, createMap E d = .error e ↔ createMap E d' = .error e) ∧
    ∀ m m', createMap E d = .ok m → createMap E d' = .ok m' →
      (∀ bs off depth c, c.Clean →
        (∀ v n, ((mapStream E m bs off depth c).1 = .ok v ∧ (mapStream E m bs off depth c).2.byteSize = some n) ↔
          ((mapStream E m' bs off depth c).1 = .ok v ∧ (mapStream E m' bs off depth c).2.byteSize = some n)) ∧
        ∀ e, (mapStream E m bs off depth c).1 = .error e ↔ (mapStream E m' bs off depth c).1 = .error e) ∧
      (∀ v ns, fold E m v ns = fold E m' v ns) ∧ ∀ c, getSizeHint E m c = getSizeHint E m' c := by
  obtain ⟨h1, h2⟩ := shuffled_loosened h
  refine ⟨(C105_created E d d' h1 hd hd').2, fun m m' hm hm' => ⟨fun bs off depth c hc => ?_,
    fun v ns => (C105_folded E d d' h1 hd hd' hm hm' v ns).symm, fun c => (C105_hints E d d' h1 hd hd' hm hm' c).symm⟩⟩
  obtain ⟨a1, a2, a3⟩ := C105_mapped E d d' h1 hd hd' hm hm' bs off depth hc
  obtain ⟨b1, b2, b3⟩ := C105_mapped E d' d h2 hd' hd hm' hm bs off depth hc
  refine ⟨fun v n => ⟨a1 v n, b1 v n⟩, fun e => ⟨fun he => ?_, fun he => ?_⟩⟩
  · rcases b3 e he with h | h
    · exact h
    · rcases a3 _ h with h' | h' <;> (rw [he] at h'; cases h'; exact h)
  · rcases a3 e he with h | h
    · exact h
    · rcases b3 _ h with h' | h' <;> (rw [he] at h'; cases h'; exact h)

/-! ### Values of enumerations -/

theorem all2_perm {α β : Type} {R : α → β → Prop} {l l' : List α} (hp : l.Perm l') :
    ∀ {vs : List β}, All2 R l vs → ∃ vs', vs.Perm vs' ∧ All2 R l' vs' := by
  induction hp with
  | nil => intro vs h; cases h; exact ⟨[], .nil, .nil⟩
  | cons a _ ih =>
    intro vs h
    cases h with
    | cons h t =>
      obtain ⟨vs', h1, h2⟩ := ih t
      exact ⟨_, .cons _ h1, .cons h h2⟩
  | swap a b l =>
    intro vs h
    cases h with
    | cons h t =>
      cases t with
      | cons h' t => exact ⟨_, .swap _ _ _, .cons h' (.cons h t)⟩
  | trans _ _ ih1 ih2 =>
    intro vs h
    obtain ⟨vs1, h1, h2⟩ := ih1 h
    obtain ⟨vs2, h3, h4⟩ := ih2 h2
    exact ⟨vs2, h1.trans h3, h4⟩

theorem distinctValues_perm {vs vs' : List EnumVal} (hp : vs.Perm vs') (h : DistinctValues vs) : DistinctValues vs' := by
  refine (hp.pairwise_iff fun {v w} h => ?_).1 h
  refine ⟨h.1.symm, fun ha => h.2.1 ?_, fun a ha hb => h.2.2 a hb ha⟩
  rw [← litEq_iff] at ha ⊢
  exact litEq_symm ha

/-- The value of a key when that of another key is different. -/
theorem entry_other {as bs : List (Key × Yaml)} {k k' : String} (hk : k ≠ k') (y y' : Yaml) :
    entry (as ++ (.str k, y) :: bs) k' = entry (as ++ (.str k, y') :: bs) k' := by
  have : (Key.str k == Key.str k') = false := by simpa using hk
  simp only [entry, entryD, List.find?_append, List.find?_cons, this]

theorem entry_own {as bs : List (Key × Yaml)} {k : String} (hk : ∀ p ∈ as, p.1 ≠ .str k) (y : Yaml) :
    entry (as ++ (.str k, y) :: bs) k = y := by
  have : as.find? (·.1 == .str k) = none := by simpa using hk
  simp [entry, entryD, List.find?_append, this]

theorem knownKeys_other {as bs : List (Key × Yaml)} {sup : List String} {k : Key} {y y' : Yaml}
    (h : KnownKeys sup (as ++ (k, y) :: bs)) : KnownKeys sup (as ++ (k, y') :: bs) := by
  intro e he
  rcases List.mem_append.1 he with he | he
  · exact h e (List.mem_append_left _ he)
  · rcases List.mem_cons.1 he with rfl | he
    · exact h (k, y) (List.mem_append_right _ List.mem_cons_self)
    · exact h e (List.mem_append_right _ (List.mem_cons_of_mem _ he))

/-- **C123** The document of an enumeration with its values in another order is read exactly if the first is, to an
enumeration with the same values in the other order. -/
theorem C123_enumeration_document (E : Env) (reg : Registry) (as bs : List (Key × Yaml)) (l l' : List Yaml)
    (hp : l.Perm l') (hk : ∀ p ∈ as, p.1 ≠ .str "values")
    (ht : entry (as ++ (.str "values", .list l) :: bs) "type" = .str "enumeration") (x : Defn)
    (hx : readDefinition E reg (.map (as ++ (.str "values", .list l) :: bs)) = .ok x) :
    ∃ h vs vs', x = .enumeration h vs ∧ vs.Perm vs' ∧
      readDefinition E reg (.map (as ++ (.str "values", .list l') :: bs)) = .ok (.enumeration h vs') := by
  simp only [C54_document] at hx ⊢
  obtain ⟨es, name, ty, he, h1, h2, h3, h4, h5⟩ := hx
  cases he
  cases Yaml.str.inj (ht.symm.trans h3)
  generalize hT : "enumeration" = T at h5
  cases h5 with
  | primitive _ _ _ hk _ _ => cases hk <;> exact absurd hT (by decide)
  | enumeration hm hh ht hi hv hd =>
    rw [entry_own hk] at hi ht
    cases hi
    obtain ⟨vs', g1, g2⟩ := all2_perm hp hv
    have hne : ∀ k, "values" ≠ k → entry (as ++ (.str "values", .list l) :: bs) k =
      entry (as ++ (.str "values", .list l') :: bs) k := fun k hk => entry_other hk _ _
    refine ⟨_, _, vs', rfl, g1, _, name, "enumeration", rfl, ?_, h2, ?_, knownKeys_other h4,
      .enumeration rfl ?_ ?_ (items := l') ?_ g2 (distinctValues_perm g1 hd)⟩
    · rw [← hne _ (by decide)]; exact h1
    · rw [← hne _ (by decide)]; exact h3
    · exact ⟨hh.name, hh.order, by rw [← hne _ (by decide)]; exact hh.aliases,
        by rw [← hne _ (by decide)]; exact hh.description⟩
    · rw [entry_own hk]
      rw [noValue_iff] at ht ⊢
      simp only [Yaml.truthy] at ht ⊢
      cases l with
      | nil => simp at ht
      | cons a l =>
        cases l' with
        | nil => exact nomatch hp.length_eq
        | cons => simp
    · rw [entry_own hk]; exact .list
  | _ => exact absurd hT (by decide)

/-- **C123** Enumerations with the same values, in whatever order they were added, give the same names to the same
numbers. -/
theorem C123_enumeration (calls calls' : List AddCall)
    (h : ∀ v, v ∈ (EnumBuilder.run calls).values ↔ v ∈ (EnumBuilder.run calls').values) (n : Lit) :
    (EnumBuilder.run calls).getName n = (EnumBuilder.run calls').getName n := by
  obtain ⟨h1, h2⟩ := C35_get_name calls n
  obtain ⟨h3, h4⟩ := C35_get_name calls' n
  by_cases hv : ∃ v ∈ (EnumBuilder.run calls).values, Alike v.number n
  · obtain ⟨v, hv, ha⟩ := hv
    rw [(h1 v hv ha).1, (h3 v ((h v).1 hv) ha).1]
  · rw [h2 fun v hm ha => hv ⟨v, hm, ha⟩, h4 fun v hm ha => hv ⟨v, (h v).2 hm, ha⟩]

/-! ### Aliases -/

/-- **C123** Definitions that differ in the order of their aliases, in whatever else they differ but for the name, are
registered or rejected alike after any files, and afterwards the same names are known: those that stand for the one stand
for the other, all other names for what they stood for. -/
theorem C123_aliases (E : Env) (fs : List YamlFile) (x x' : Defn) (hn : x'.name = x.name)
    (ha : ∀ a, a ∈ x.hdr.aliases ↔ a ∈ x'.hdr.aliases) :
    (((readFiles E fs).register E x).1 = .ok () ↔ ((readFiles E fs).register E x').1 = .ok ()) ∧
    (((readFiles E fs).register E x).1 = .ok () → ∀ n,
      (((readFiles E fs).register E x).2.getByName E n = some x ∧
        ((readFiles E fs).register E x').2.getByName E n = some x') ∨
      ((readFiles E fs).register E x).2.getByName E n = ((readFiles E fs).register E x').2.getByName E n) := by
  have h := readFiles_holds E fs
  have hf : Fresh E (readFiles E fs).getDefinitions x ↔ Fresh E (readFiles E fs).getDefinitions x' := by
    simp only [Fresh, hn, ha]
  refine ⟨by rw [h.fresh, h.fresh, hf], fun hr n => ?_⟩
  have hr' : ((readFiles E fs).register E x').1 = .ok () := by rw [h.fresh, ← hf, ← h.fresh]; exact hr
  rw [(h.register hr).getByName, (h.register hr').getByName]
  have hc : x'.hdr.aliases.contains n = x.hdr.aliases.contains n := by
    rw [Bool.eq_iff_iff]
    simpa using (ha n).symm
  simp only [findName, List.find?_append, List.find?_cons, List.find?_nil, hn, hc]
  cases (readFiles E fs).getDefinitions.find? (E.lower ·.name == E.lower n) with
  | some d => exact .inr rfl
  | none =>
    simp only [Option.none_or]
    by_cases h1 : E.lower x.name == E.lower n
    · simp [h1]
    · simp only [h1]
      cases (readFiles E fs).getDefinitions.find? (·.hdr.aliases.contains n) with
      | some d => exact .inr rfl
      | none => by_cases h2 : n ∈ x.hdr.aliases <;> simp [h2]

/-! ### Examples -/

example : Shuffled (exChecked (some [.int 5, .int 7])) (exChecked (some [.int 7, .int 5, .int 7])) :=
  .struct _ (.cons (.member _ _ _ (.same _) (.some (by simp [or_comm]))) (.cons (.same _) .nil))

/-- The document of an enumeration with these values. -/
def docColours (vs : List Yaml) : Yaml := .map ([(.str "name", .str "colour"), (.str "type", .str "enumeration")] ++
  (.str "values", .list vs) :: [])

def docColour (n : String) (i : Int) : Yaml := doc [("name", .str n), ("number", .int i)]

example : ∃ x h vs vs', readDefinition exEnvR {} (docColours [docColour "red" 1, docColour "green" 2]) = .ok x ∧
    x = .enumeration h vs ∧ vs.Perm vs' ∧
    readDefinition exEnvR {} (docColours [docColour "green" 2, docColour "red" 1]) = .ok (.enumeration h vs') := by
  refine ⟨.enumeration { name := "colour" } [⟨"red", .int 1, []⟩, ⟨"green", .int 2, []⟩], ?_⟩
  obtain ⟨h, vs, vs', h1, h2, h3⟩ := C123_enumeration_document exEnvR {}
    [(.str "name", .str "colour"), (.str "type", .str "enumeration")] [] [docColour "red" 1, docColour "green" 2]
    [docColour "green" 2, docColour "red" 1] (.swap _ _ _) (by simp) rfl
    (.enumeration { name := "colour" } [⟨"red", .int 1, []⟩, ⟨"green", .int 2, []⟩]) rfl
  exact ⟨h, vs, vs', rfl, h1, h2, h3⟩

example : (EnumBuilder.run [⟨"red", .int 1, []⟩, ⟨"green", .int 2, ["g"]⟩]).getName (.int 2) = some "green" ∧
    (EnumBuilder.run [⟨"green", .int 2, ["g"]⟩, ⟨"red", .int 1, []⟩]).getName (.int 2) = some "green" := by
  refine ⟨rfl, ?_⟩
  rw [← C123_enumeration [⟨"red", .int 1, []⟩, ⟨"green", .int 2, ["g"]⟩] _ (by
    intro v
    have h1 : (EnumBuilder.run [⟨"red", .int 1, []⟩, ⟨"green", .int 2, ["g"]⟩]).values =
      [⟨"red", .int 1, []⟩, ⟨"green", .int 2, ["g"]⟩] := rfl
    have h2 : (EnumBuilder.run [⟨"green", .int 2, ["g"]⟩, ⟨"red", .int 1, []⟩]).values =
      [⟨"green", .int 2, ["g"]⟩, ⟨"red", .int 1, []⟩] := rfl
    rw [h1, h2]
    simp [or_comm])]
  rfl

/-- If values clash, which of them is kept does depend on the order: AddValue raises for the second, see C35. -/
example : (EnumBuilder.run [⟨"red", .int 1, []⟩, ⟨"green", .int 1, []⟩]).getName (.int 1) = some "red" ∧
    (EnumBuilder.run [⟨"green", .int 1, []⟩, ⟨"red", .int 1, []⟩]).getName (.int 1) = some "green" := ⟨rfl, rfl⟩

example : (((readFiles exEnvRL [{ docs := [docNamed "other" ["o"]] }]).register exEnvRL (exNamed "word" ["a", "b"])).1 =
      .ok () ↔
    ((readFiles exEnvRL [{ docs := [docNamed "other" ["o"]] }]).register exEnvRL (exNamed "word" ["b", "a"])).1 = .ok ()) :=
  (C123_aliases exEnvRL _ _ _ rfl (by simp [exNamed, Defn.hdr, or_comm])).1

/-! ### Members of structure groups -/

theorem addKeys_iff {keys vs : List Lit} : (∃ ks, addKeys keys vs = .ok ks) ↔
    (∀ v ∈ vs, v.isHashable = true) ∧ (∀ k ∈ keys, ∀ v ∈ vs, litEq k v = false) ∧ vs.Pairwise (litEq · · = false) := by
  induction vs generalizing keys with
  | nil => simp [addKeys]
  | cons v vs ih =>
    rw [addKeys]
    by_cases h1 : v.isHashable = true
    · by_cases h2 : keys.any (litEq · v) = true
      · rw [if_neg (by simp [h1]), if_pos h2]
        obtain ⟨k, hk, he⟩ := List.any_eq_true.1 h2
        refine iff_of_false (fun ⟨_, h⟩ => nomatch h) fun h => ?_
        rw [h.2.1 k hk v List.mem_cons_self] at he
        cases he
      · rw [if_neg (by simp [h1]), if_neg h2, ih]
        have h3 : ∀ k ∈ keys, litEq k v = false := by simpa using h2
        simp only [List.mem_append, List.mem_cons, List.not_mem_nil, or_false, List.pairwise_cons]
        constructor
        · rintro ⟨a, b, c⟩
          refine ⟨?_, ?_, fun w hw => b v (.inr rfl) w hw, c⟩
          · rintro w (rfl | hw)
            · exact h1
            · exact a w hw
          · rintro k hk w (rfl | hw)
            · exact h3 k hk
            · exact b k (.inl hk) w hw
        · rintro ⟨a, b, c, d⟩
          refine ⟨fun w hw => a w (.inr hw), ?_, d⟩
          rintro k (hk | rfl) w hw
          · exact b k hk w (.inr hw)
          · exact c w hw
    · rw [if_pos (by simpa using h1)]
      exact iff_of_false (fun ⟨_, h⟩ => nomatch h) fun h => h1 (h.1 v List.mem_cons_self)

/-- The values of a member of a group, which has a map if there are any. -/
def GroupMember (E : Env) (ident : String) (g : Defn) (vs : List Lit) : Prop :=
  groupValues ident g = .ok vs ∧ (vs ≠ [] → ∃ m, createMap E g = .ok m)

theorem createGroup_iff (E : Env) (ident : String) (gs : List Defn) (keys : List Lit) :
    (∃ r, createGroup E ident keys gs = .ok r) ↔
      ∃ vss, All2 (GroupMember E ident) gs vss ∧ ∃ ks, addKeys keys vss.flatten = .ok ks := by
  induction gs generalizing keys with
  | nil =>
    refine iff_of_true ⟨_, rfl⟩ ⟨[], .nil, _, rfl⟩
  | cons g gs ih =>
    rw [createGroup]
    have hcons : ∀ {vs}, groupValues ident g = .ok vs →
        ((∃ vss, All2 (GroupMember E ident) (g :: gs) vss ∧ ∃ ks, addKeys keys vss.flatten = .ok ks) ↔
          (vs ≠ [] → ∃ m, createMap E g = .ok m) ∧
            ∃ vss, All2 (GroupMember E ident) gs vss ∧ ∃ ks, addKeys keys (vs ++ vss.flatten) = .ok ks) := by
      intro vs hvs
      constructor
      · rintro ⟨_, h, hk⟩
        cases h with
        | cons h t =>
          cases hvs.symm.trans h.1
          exact ⟨h.2, _, t, hk⟩
      · rintro ⟨h, vss, t, hk⟩
        exact ⟨vs :: vss, .cons ⟨hvs, h⟩ t, hk⟩
    cases hg : groupValues ident g with
    | error x =>
      refine iff_of_false (fun ⟨_, h⟩ => nomatch h) ?_
      rintro ⟨_, h, -⟩
      cases h with
      | cons h _ => exact nomatch hg.symm.trans h.1
    | ok vs =>
      rw [hcons hg]
      cases vs with
      | nil =>
        simp only [ne_eq, not_true_eq_false, false_implies, true_and, List.nil_append]
        exact ih keys
      | cons v vs =>
        simp only [addKeys_iff (vs := (v :: vs) ++ _)]
        have hsplit : ∀ ws, ((∀ w ∈ v :: vs ++ ws, w.isHashable = true) ∧ (∀ k ∈ keys, ∀ w ∈ v :: vs ++ ws, litEq k w = false) ∧
            (v :: vs ++ ws).Pairwise (litEq · · = false)) ↔
            (∃ ks, addKeys keys (v :: vs) = .ok ks) ∧ ∃ ks, addKeys (keys ++ v :: vs) ws = .ok ks := by
          intro ws
          rw [addKeys_iff, addKeys_iff, List.pairwise_append]
          simp only [List.mem_append]
          constructor
          · rintro ⟨a, b, c, d, e⟩
            refine ⟨⟨fun w hw => a w (.inl hw), fun k hk w hw => b k hk w (.inl hw), c⟩, fun w hw => a w (.inr hw), ?_, d⟩
            rintro k (hk | hk) w hw
            · exact b k hk w (.inr hw)
            · exact e k hk w hw
          · rintro ⟨⟨a, b, c⟩, a', b', c'⟩
            refine ⟨?_, ?_, c, c', fun k hk w hw => b' k (.inr hk) w hw⟩
            · rintro w (hw | hw)
              · exact a w hw
              · exact a' w hw
            · rintro k hk w (hw | hw)
              · exact b k hk w hw
              · exact b' k (.inl hk) w hw
        simp only [hsplit]
        have hone : (∃ ks, addKeys keys (v :: vs) = .ok ks) → ∃ ks, addKeys keys [v] = .ok ks := by
          rw [addKeys_iff, addKeys_iff]
          rintro ⟨a, b, c⟩
          simp only [List.mem_cons, List.not_mem_nil, or_false, forall_eq]
          exact ⟨a v List.mem_cons_self, fun k hk => b k hk v List.mem_cons_self, List.pairwise_singleton _ _⟩
        simp only [createMap]
        cases h1 : addKeys keys [v] with
        | error x =>
          refine iff_of_false (fun ⟨_, h⟩ => nomatch h) ?_
          rintro ⟨-, vss, -, h, -⟩
          obtain ⟨ks, hk⟩ := hone h
          exact nomatch h1.symm.trans hk
        | ok k1 =>
          cases hm : createAs E g.name g.orderOrNative g with
          | error x =>
            refine iff_of_false (fun ⟨_, h⟩ => nomatch h) ?_
            rintro ⟨h, -⟩
            obtain ⟨m, hm'⟩ := h (List.cons_ne_nil _ _)
            exact nomatch hm'
          | ok m =>
            cases hk : addKeys keys (v :: vs) with
            | error x =>
              refine iff_of_false (fun ⟨_, h⟩ => nomatch h) ?_
              rintro ⟨-, vss, -, ⟨ks, h⟩, -⟩
              exact nomatch h
            | ok keys' =>
              have hkeys := (addKeys_ok hk).1
              subst hkeys
              constructor
              · rintro ⟨r, hr⟩
                refine ⟨fun _ => ⟨m, rfl⟩, ?_⟩
                simp only at hr
                cases hc : createGroup E ident (keys ++ v :: vs) gs with
                | error x => rw [hc] at hr; cases hr
                | ok q =>
                  obtain ⟨vss, h2, h3⟩ := (ih (keys ++ v :: vs)).1 ⟨q, hc⟩
                  exact ⟨vss, h2, ⟨_, rfl⟩, h3⟩
              · rintro ⟨-, vss, h2, -, h3⟩
                obtain ⟨⟨ks, maps⟩, hc⟩ := (ih (keys ++ v :: vs)).2 ⟨vss, h2, h3⟩
                simp only [hc]
                exact ⟨_, rfl⟩

theorem createGroup_perm (E : Env) (ident : String) {gs gs' : List Defn} (hp : gs.Perm gs')
    (h : ∃ r, createGroup E ident [] gs = .ok r) : ∃ r, createGroup E ident [] gs' = .ok r := by
  rw [createGroup_iff] at h ⊢
  obtain ⟨vss, h1, h2⟩ := h
  obtain ⟨vss', h3, h4⟩ := all2_perm hp h1
  refine ⟨vss', h4, ?_⟩
  rw [addKeys_iff] at h2 ⊢
  have hpf : vss.flatten.Perm vss'.flatten := h3.flatten
  refine ⟨fun v hv => h2.1 v (hpf.mem_iff.2 hv), (fun k hk => nomatch hk), ?_⟩
  refine (hpf.pairwise_iff fun {a b} h => ?_).1 h2.2.2
  cases hb : litEq b a with
  | false => rfl
  | true => rw [litEq_symm hb] at h; cases h

/-- **C123** Structure groups with their members in another order: a map can be created for one exactly if it can be for
the other, and the maps give the same answers. -/
theorem C123_group (E : Env) (h : Hdr) (base : Defn) (ident : String) (dflt : Option Defn) (ms ms' : List Defn)
    (hp : ms.Perm ms') :
    ((∃ m, createMap E (.group h base ident dflt ms) = .ok m) ↔
      ∃ m', createMap E (.group h base ident dflt ms') = .ok m') ∧
    ∀ m m', createMap E (.group h base ident dflt ms) = .ok m → createMap E (.group h base ident dflt ms') = .ok m' →
      ∀ bs off depth c c', c.Clean → c'.Clean →
        SameAnswer (mapStream E m bs off depth c) (mapStream E m' bs off depth c') := by
  have key : ∀ {ms ms' : List Defn}, ms.Perm ms' → (∃ m, createMap E (.group h base ident dflt ms) = .ok m) →
      ∃ m', createMap E (.group h base ident dflt ms') = .ok m' := by
    rintro ms ms' hp ⟨m, hm⟩
    simp only [createMap, createAs] at hm ⊢
    cases h1 : createOpt E dflt with
    | error x => rw [h1] at hm; cases hm
    | ok dm =>
      rw [h1] at hm
      simp only at hm ⊢
      cases h2 : createAs E base.name base.orderOrNative base with
      | error x => rw [h2] at hm; cases hm
      | ok bm =>
        rw [h2] at hm
        simp only at hm ⊢
        have hl : ms'.isEmpty = ms.isEmpty := by
          cases ms <;> cases ms' <;> first | rfl | exact nomatch hp.length_eq
        rw [hl]
        split at hm
        · cases hm
        · rename_i he
          rw [if_neg he]
          obtain ⟨⟨ks, maps⟩, hr⟩ := createGroup_perm E ident hp (by
            cases hc : createGroup E ident [] ms with
            | error x => rw [hc] at hm; cases hm
            | ok r => exact ⟨r, rfl⟩)
          rw [hr]
          exact ⟨_, rfl⟩
  exact ⟨⟨key hp, key hp.symm⟩, fun m m' hm hm' bs off depth c c' hc hc' =>
    C92_order E h h base ident dflt ms ms' m m' hm hm' (fun g => hp.mem_iff) bs off depth c c' hc hc'⟩

example : ∃ m m', createMap exEnv (exGroup (some exDef) [exOne, exTwo]) = .ok m ∧
    createMap exEnv (exGroup (some exDef) [exTwo, exOne]) = .ok m' ∧
    SameAnswer (mapStream exEnv m [3, 1, 2] 0 0 {}) (mapStream exEnv m' [3, 1, 2] 0 0 {}) :=
  ⟨_, _, rfl, rfl, (C123_group exEnv { name := "g" } exBase "kind" (some exDef) [exOne, exTwo] [exTwo, exOne] (.swap _ _ _)).2 _ _ rfl rfl
    [3, 1, 2] 0 0 {} {} rfl rfl⟩

end Dtf
