import Verif.Props.Shapes
import Verif.Props.ReaderErrors
import Verif.Props.FoldBack

namespace Dtf
open Spec

/-! ### C126: members of definition files are mapped with their own types -/

namespace Spec

/-- A document defines a data type called `s`. -/
def Entitled (d : Yaml) (s : String) : Prop :=
  ∃ es, d = .map es ∧ entry es "name" = .str s

/-- The list of members of a document has a member called `s` that has a type of its
own instead of referring to a data type. -/
def InPlace (d : Yaml) (s : String) : Prop :=
  ∃ es items es', d = .map es ∧ entry es "members" = .list items ∧ .map es' ∈ items ∧
    entry es' "type" ≠ .null ∧ entry es' "name" = .str s

/-- No member declared in place is called like a data type, and no name of either
starts with an underscore. -/
structure NamesApart (fs : List YamlFile) : Prop where
  apart : ∀ f ∈ fs, ∀ d ∈ f.docs, ∀ g ∈ fs, ∀ e ∈ g.docs, ∀ s, Entitled d s → ¬ InPlace e s
  types : ∀ f ∈ fs, ∀ d ∈ f.docs, ∀ s, Entitled d s → s.toList.head? ≠ some '_'
  members : ∀ f ∈ fs, ∀ d ∈ f.docs, ∀ s, InPlace d s → s.toList.head? ≠ some '_'

end Spec

theorem map_unique {α β : Type} {f : α → β} {l : List α} (h : (l.map f).Nodup) {a b : α} (ha : a ∈ l)
    (hb : b ∈ l) (hab : f a = f b) : a = b := by
  induction l with
  | nil => cases ha
  | cons c l ih =>
    rw [List.map_cons, List.nodup_cons] at h
    rcases List.mem_cons.mp ha with h1 | h1 <;> rcases List.mem_cons.mp hb with h2 | h2
    · rw [h1, h2]
    · rw [h1] at hab
      exact absurd (hab ▸ List.mem_map_of_mem h2) h.1
    · rw [h2] at hab
      exact absurd (hab ▸ List.mem_map_of_mem h1) h.1
    · exact ih h.2 h1 h2

theorem members_list {es es' : List (Key × Yaml)} {items : List Yaml}
    (hi : (entry es "members").iter = .ok items) (hm : .map es' ∈ items) :
    entry es "members" = .list items := by
  cases hy : entry es "members" <;> rw [hy] at hi <;> simp only [Yaml.iter, reduceCtorEq,
    Except.ok.injEq] at hi
  all_goals subst hi
  case list ys => rfl
  all_goals
    obtain ⟨_, _, h⟩ := List.mem_map.mp hm
    first
    | cases h
    | (rename_i p _; rcases p with ⟨_ | _, _⟩ <;> cases h)

/-- A definition that was read is not a wrapped member. -/
theorem readTyped_target {E : Env} {reg : Registry} {rm : Bool → Yaml → Except Err Defn}
    {t : TypeInd} {mem : Bool} {d : Yaml} {name : String} {x : Defn}
    (hr : readTyped E reg rm t mem d name = .ok x) : x.target = x := by
  have hmem : ∀ {c u}, readWithMembers (rm c) u d name = .ok x → x.target = x := by
    intro c u hr
    obtain ⟨es, h, h0, o, items, ds, rfl, hh, -, -, ht, hi, hm, -, rfl⟩ := readWithMembers_ok hr
    cases u <;> rfl
  cases t with
  | boolean =>
    simp only [readTyped, readBoolean, bind_ok, Except.ok.injEq] at hr
    obtain ⟨_, _, rfl⟩ := hr
    rfl
  | character =>
    simp only [readTyped, readCharacter, bind_ok, Except.ok.injEq] at hr
    obtain ⟨_, _, rfl⟩ := hr
    rfl
  | floatingPoint =>
    simp only [readTyped, readFloat, bind_ok, Except.ok.injEq] at hr
    obtain ⟨_, _, rfl⟩ := hr
    rfl
  | uuid =>
    simp only [readTyped, readUuid, bind_ok, Except.ok.injEq] at hr
    obtain ⟨_, _, rfl⟩ := hr
    rfl
  | integer =>
    simp only [readTyped] at hr
    obtain ⟨es, h, h0, o, s, u, un, -, -, -, -, -, -, rfl⟩ := readInteger_ok hr
    rfl
  | constant =>
    simp only [readTyped] at hr
    obtain ⟨-, es, h, -, -, -, rfl⟩ := readConstant_ok hr
    rfl
  | enumeration =>
    simp only [readTyped] at hr
    obtain ⟨-, es, h, items, cs, -, -, -, -, -, -, rfl⟩ := readEnumeration_ok hr
    rfl
  | format =>
    simp only [readTyped] at hr
    obtain ⟨-, es, h, items, l, o, -, -, -, -, -, rfl⟩ := readFormat_ok hr
    rfl
  | padding =>
    simp only [readTyped] at hr
    obtain ⟨-, es, h, a, -, -, -, -, rfl⟩ := readPadding_ok hr
    rfl
  | sequence =>
    simp only [readTyped, readSequence] at hr
    obtain ⟨es, h, i, e, -, rfl, -, hel⟩ := readElements_ok hr
    rfl
  | stream =>
    simp only [readTyped, readStream] at hr
    obtain ⟨es, h, i, e, -, rfl, -, hel⟩ := readElements_ok hr
    rfl
  | string =>
    simp only [readTyped] at hr
    obtain ⟨es, h, i, e, enc, -, rfl, -, -, -, hel⟩ := readString_ok hr
    rfl
  | «structure» =>
    simp only [readTyped, guard_ok] at hr
    exact hmem hr.2
  | union =>
    simp only [readTyped] at hr
    exact hmem hr
  | family =>
    simp only [readTyped] at hr
    obtain ⟨-, es, h, b, base, items, ds, -, -, -, -, hg, -, -, hnm, -, rfl⟩ := readFamily_ok hr
    rfl
  | group =>
    simp only [readTyped] at hr
    obtain ⟨-, es, h, h0, b, base, i, df, items, ds, -, -, -, -, -, hg, -, -, hdf, -, -, hnm,
      -, -, rfl⟩ := readGroup_ok hr
    rfl

/-- The type of a member is registered, or it was declared in place under the name
of the member. -/
theorem readMember_type {E : Env} {reg : Registry} {fuel : Nat} {c : Bool} {es : List (Key × Yaml)}
    {x : Defn} (hr : readMember E reg fuel c (.map es) = .ok x) :
    x.target ∈ reg.getDefinitions ∨
      (entry es "type" ≠ .null ∧ x.target.name = x.name ∧ (x.name = "" ∨ entry es "name" = .str x.name)) := by
  cases fuel with
  | zero => cases hr
  | succ fuel =>
    obtain ⟨es', he, hrd⟩ := readMember_ok hr
    cases he
    obtain ⟨nm, hnm, -, sv, cond, -, -, hx⟩ := hrd.name
    have hname : nm = "" ∨ entry es "name" = .str nm := by
      unfold memberName at hnm
      split at hnm
      · cases hnm; exact .inl rfl
      · rename_i s hs
        split at hnm
        · cases hnm
        · cases hnm; exact .inr hs
      · cases hnm
    rcases hx with ⟨ty, t, inner, hty, -, -, hin, rfl⟩ | ⟨dt, inner, h, -, -, hg, -, hn, rfl⟩
    · right
      have h1 := readTyped_name hin
      have h2 := readTyped_target hin
      refine ⟨by rw [hty]; simp, ?_⟩
      split
      · exact ⟨h1, hname⟩
      · rw [h2, h1]; exact ⟨rfl, hname⟩
    · exact .inl (getByName_mem hg)

/-- What is known of the registered definitions while files are read: their names
are those of documents, no two share one, and their structures have different types
only under different names. -/
structure OwnReg (E : Env) (T : String → Prop) (r : Registry) : Prop where
  good : r.Good E
  names : ∀ x ∈ r.getDefinitions, T x.name ∧ x.name ≠ ""
  types : ∀ x ∈ r.getDefinitions, x.Every TypesDistinct

theorem OwnReg.unique {E : Env} {T : String → Prop} {r : Registry} (h : OwnReg E T r) {x y : Defn}
    (hx : x ∈ r.getDefinitions) (hy : y ∈ r.getDefinitions) (hn : x.name = y.name) : x = y := by
  obtain ⟨p, hp, rfl⟩ := List.mem_map.mp hx
  obtain ⟨q, hq, rfl⟩ := List.mem_map.mp hy
  have hk : p.1 = q.1 := by rw [h.good.keys p hp, h.good.keys q hq, hn]
  exact congrArg (·.2) (map_unique h.good.nodup hp hq hk)

theorem readTyped_distinct {E : Env} {T : String → Prop} {reg : Registry} (hreg : OwnReg E T reg)
    (hT : ∀ s, T s → s.toList.head? ≠ some '_') {fuel : Nat}
    {t : TypeInd} {mem : Bool} {d : Yaml} {name : String} {x : Defn}
    (hd : mem = false → ∀ s, InPlace d s → ¬ T s ∧ s.toList.head? ≠ some '_')
    (hr : readTyped E reg (readMember E reg fuel) t mem d name = .ok x) : TypesDistinct x := by
  have hmem : ∀ {c u}, (u = false → mem = false) →
      readWithMembers (readMember E reg fuel c) u d name = .ok x → TypesDistinct x := by
    intro c u hu hr
    obtain ⟨es, h, h0, o, items, ds, rfl, hh, -, -, ht, hi, hm, hnd, rfl⟩ := readWithMembers_ok hr
    cases u with
    | true => trivial
    | false =>
      have hd := hd (hu rfl)
      have hkind : ∀ m ∈ ds, m.target ∈ reg.getDefinitions ∨ (m.target.name = m.name ∧
          (m.name = "" ∨ (¬ T m.name ∧ m.name.toList.head? ≠ some '_'))) := by
        intro m hm'
        obtain ⟨es', h1, h2, _⟩ := membersRead_mem hm m hm'
        rcases readMember_type h2 with h3 | ⟨h3, h4, h5⟩
        · exact .inl h3
        · exact .inr ⟨h4, h5.imp id fun h5 => hd _ ⟨es, items, es', rfl, members_list hi h1, h1, h3, h5⟩⟩
      refine ⟨fun a ha b hb hab => ?_, fun a ha => ?_⟩
      · rcases hkind a ha with h1 | ⟨h1, h2⟩ <;> rcases hkind b hb with h3 | ⟨h3, h4⟩
        · exact hreg.unique h1 h3 hab
        · exfalso
          have hn := hreg.names _ h1
          rw [hab, h3] at hn
          rcases h4 with h4 | h4
          · exact hn.2 h4
          · exact h4.1 hn.1
        · exfalso
          have hn := hreg.names _ h3
          rw [← hab, h1] at hn
          rcases h2 with h2 | h2
          · exact hn.2 h2
          · exact h2.1 hn.1
        · rw [h1, h3] at hab
          rw [map_unique hnd ha hb hab]
      · rcases hkind a ha with h1 | ⟨h1, h2⟩
        · exact hT _ (hreg.names _ h1).1
        · rw [h1]
          rcases h2 with h2 | h2
          · rw [h2]; simp
          · exact h2.2
  cases t with
  | boolean =>
    simp only [readTyped, readBoolean, bind_ok, Except.ok.injEq] at hr
    obtain ⟨_, _, rfl⟩ := hr
    trivial
  | character =>
    simp only [readTyped, readCharacter, bind_ok, Except.ok.injEq] at hr
    obtain ⟨_, _, rfl⟩ := hr
    trivial
  | floatingPoint =>
    simp only [readTyped, readFloat, bind_ok, Except.ok.injEq] at hr
    obtain ⟨_, _, rfl⟩ := hr
    trivial
  | uuid =>
    simp only [readTyped, readUuid, bind_ok, Except.ok.injEq] at hr
    obtain ⟨_, _, rfl⟩ := hr
    trivial
  | integer =>
    simp only [readTyped] at hr
    obtain ⟨es, h, h0, o, s, u, un, -, -, -, -, -, -, rfl⟩ := readInteger_ok hr
    trivial
  | constant =>
    simp only [readTyped] at hr
    obtain ⟨-, es, h, -, -, -, rfl⟩ := readConstant_ok hr
    trivial
  | enumeration =>
    simp only [readTyped] at hr
    obtain ⟨-, es, h, items, cs, -, -, -, -, -, -, rfl⟩ := readEnumeration_ok hr
    trivial
  | format =>
    simp only [readTyped] at hr
    obtain ⟨-, es, h, items, l, o, -, -, -, -, -, rfl⟩ := readFormat_ok hr
    trivial
  | padding =>
    simp only [readTyped] at hr
    obtain ⟨-, es, h, a, -, -, -, -, rfl⟩ := readPadding_ok hr
    trivial
  | sequence =>
    simp only [readTyped, readSequence] at hr
    obtain ⟨es, h, i, e, -, rfl, -, hel⟩ := readElements_ok hr
    trivial
  | stream =>
    simp only [readTyped, readStream] at hr
    obtain ⟨es, h, i, e, -, rfl, -, hel⟩ := readElements_ok hr
    trivial
  | string =>
    simp only [readTyped] at hr
    obtain ⟨es, h, i, e, enc, -, rfl, -, -, -, hel⟩ := readString_ok hr
    trivial
  | «structure» =>
    simp only [readTyped, guard_ok] at hr
    exact hmem (fun _ => by simpa using hr.1) hr.2
  | union =>
    simp only [readTyped] at hr
    exact hmem (by simp) hr
  | family =>
    simp only [readTyped] at hr
    obtain ⟨-, es, h, b, base, items, ds, -, -, -, -, hg, -, -, hnm, -, rfl⟩ := readFamily_ok hr
    trivial
  | group =>
    simp only [readTyped] at hr
    obtain ⟨-, es, h, h0, b, base, i, df, items, ds, -, -, -, -, -, hg, -, -, hdf, -, -, hnm,
      -, -, rfl⟩ := readGroup_ok hr
    trivial

theorem readMember_distinct {E : Env} {T : String → Prop} {reg : Registry} (hreg : OwnReg E T reg)
    (hT : ∀ s, T s → s.toList.head? ≠ some '_') (fuel : Nat) (c : Bool)
    (m : Yaml) (x : Defn) (hr : readMember E reg fuel c m = .ok x) : x.Every TypesDistinct := by
  have hget : ∀ n x, reg.getByName E n = some x → x.Every TypesDistinct :=
    fun n x h => hreg.types x (getByName_mem h)
  induction fuel generalizing c m x with
  | zero => cases hr
  | succ fuel ih =>
    obtain ⟨es, rfl, hrd⟩ := readMember_ok hr
    obtain ⟨nm, hnm, hun, sv, cond, hsv, hcond, hx⟩ := hrd.name
    rcases hx with ⟨ty, t, inner, hty, ht, hd, hin, rfl⟩ | ⟨dt, inner, h, hdt, hty, hg, hk, hn, rfl⟩
    · have hinner : inner.Every TypesDistinct := by
        refine readTyped_every hget ?_ hin (readTyped_distinct hreg hT (by simp) hin)
        intro c es1 es2 items x he hi hmi hrx
        exact ih c _ x hrx
      split
      · exact ⟨trivial, hinner⟩
      · exact hinner
    · exact ⟨trivial, hget _ _ hg⟩

theorem readDefinition_distinct {E : Env} {T : String → Prop} {reg : Registry} (hreg : OwnReg E T reg)
    (hT : ∀ s, T s → s.toList.head? ≠ some '_') {d : Yaml} {x : Defn}
    (hd : ∀ s, InPlace d s → ¬ T s ∧ s.toList.head? ≠ some '_') (he : ∀ s, Entitled d s → T s)
    (hr : readDefinition E reg d = .ok x) : x.Every TypesDistinct ∧ T x.name ∧ x.name ≠ "" := by
  obtain ⟨es, nm, ty, t, rfl, hn, hne, hty, ht, hr⟩ := readDefinition_ok hr
  refine ⟨readTyped_every (fun n x h => hreg.types x (getByName_mem h)) ?_ hr
    (readTyped_distinct hreg hT (fun _ => hd) hr), ?_⟩
  · intro c es1 es2 items x he hi hmi hrx
    exact readMember_distinct hreg hT _ c _ x hrx
  · rw [readTyped_name hr]
    exact ⟨he _ ⟨es, rfl, hn⟩, hne⟩

theorem loaded_own {E : Env} {T : String → Prop} (hT : ∀ s, T s → s.toList.head? ≠ some '_')
    {r r' : Registry} {ds : List Yaml} {xs : List Defn} (h : Loaded E r ds xs r')
    (hd : ∀ d ∈ ds, ∀ s, InPlace d s → ¬ T s ∧ s.toList.head? ≠ some '_')
    (he : ∀ d ∈ ds, ∀ s, Entitled d s → T s) (hr : OwnReg E T r) : OwnReg E T r' := by
  induction h with
  | nil r => exact hr
  | @cons r r1 r2 d x ds xs hrd hreg h ih =>
    apply ih (fun d h => hd d (List.mem_cons_of_mem _ h)) (fun d h => he d (List.mem_cons_of_mem _ h))
    obtain ⟨h1, h2, h3⟩ := readDefinition_distinct hr hT (hd _ List.mem_cons_self) (he _ List.mem_cons_self) hrd
    have hg : r1.Good E := by
      have := Registry.good_step hr.good (.register x)
      simp only [Registry.step, hreg] at this
      exact this
    rcases register_pair hreg with ⟨_, h⟩ | ⟨h, _⟩
    · refine ⟨hg, ?_, ?_⟩ <;>
      · rw [h]
        intro d hd
        rcases List.mem_append.mp hd with hd | hd
        · first | exact hr.names d hd | exact hr.types d hd
        · rw [List.mem_singleton] at hd
          subst hd
          first | exact ⟨h2, h3⟩ | exact h1
    · cases h

/-- **C126** If no member declared in place is called like a data type of the files,
and no name starts with an underscore, every structure that is registered or part of
a registered definition has members of different types only under different names of
types. -/
theorem C126_types (E : Env) (fs : List YamlFile) (hn : NamesApart fs) (d : Defn)
    (h : d ∈ (readFiles E fs).getDefinitions) : d.Every TypesDistinct := by
  let T : String → Prop := fun s => ∃ f ∈ fs, ∃ d ∈ f.docs, Entitled d s
  have hT : ∀ s, T s → s.toList.head? ≠ some '_' := by
    rintro s ⟨f, hf, d, hd, h⟩
    exact hn.types f hf d hd s h
  have : ∀ (gs : List YamlFile) (r : Registry), (∀ g ∈ gs, g ∈ fs) → OwnReg E T r →
      OwnReg E T (gs.foldl (fun r f => (readFileObject E r f).2) r) := by
    intro gs
    induction gs with
    | nil => exact fun _ _ h => h
    | cons f gs ih =>
      intro r hs hr
      apply ih _ fun g hg => hs g (List.mem_cons_of_mem _ hg)
      obtain ⟨k, xs, _, h1, _⟩ := C44_stops E r f
      have hf := hs f List.mem_cons_self
      refine loaded_own hT h1 ?_ ?_ hr
      · intro d hd s hi
        have hd := List.mem_of_mem_take hd
        refine ⟨?_, hn.members f hf d hd s hi⟩
        rintro ⟨g, hg, e, he, h⟩
        exact hn.apart g hg e he f hf d hd s h hi
      · intro d hd s hs
        exact ⟨f, hf, d, List.mem_of_mem_take hd, hs⟩
  exact (this fs {} (fun _ h => h) ⟨Registry.good_empty E, by simp [Registry.getDefinitions],
    by simp [Registry.getDefinitions]⟩).types d h

/-- **C126** The i-th data type map of a structure of such files is the map of the
type of its i-th member, in the byte order of the member. -/
theorem C126_maps (E : Env) (fs : List YamlFile) (hn : NamesApart fs) (h : Hdr) (ms : List Defn)
    (hd : .struct h ms ∈ (readFiles E fs).getDefinitions) (m : DMap) (hm : createMap E (.struct h ms) = .ok m) :
    ∃ hd bsz l io infos maps, m = .struct hd bsz l io infos maps ∧ maps.length = ms.length ∧
      ∀ (i : Nat) (d : Defn) (md : DMap), ms[i]? = some d → maps[i]? = some md →
        createAs E (effectiveName h.name h.order d) (effectiveOrder h.order d) d.target = .ok md :=
  C37_member_maps_partial E _ _ h ms (C126_types E fs hn _ hd).1 m hm

/-- **C126** Every value mapped with a data type of such files has the shape of the
data type. -/
theorem C126_shape (E : Env) (fs : List YamlFile) (hn : NamesApart fs) (n : String) (d : Defn)
    (hd : (readFiles E fs).getByName E n = some d) (m : DMap) (hm : createMap E d = .ok m) (bs : Bytes)
    (off depth : Nat) (c : Ctx) (hc : c.Clean) (v : Val) (hv : (mapStream E m bs off depth c).1 = .ok v) :
    Shaped d v :=
  C116_shape E d (C126_types E fs hn d (getByName_mem hd)) m hm bs off depth c hc v hv

/-- **C126** What is folded with a data type of such files is mapped to the value that was folded (C59). -/
theorem C126_back (E : Env) (fs : List YamlFile) (hn : NamesApart fs) (n : String) (d : Defn)
    (hd : (readFiles E fs).getByName E n = some d) (m : DMap) (hm : createMap E d = .ok m) (c : Ctx) (hc : c.Clean)
    (depth : Nat) (v : Val) (k : Nat) (pre post b : Bytes) (hv : Fits E m pre.length depth c.values v k) (ns : Namespace)
    (hf : fold E m v ns = .ok (.bytes b)) :
    b.length = k ∧ (mapStream E m (pre ++ b ++ post) pre.length depth c).1 = .ok v ∧
      (mapStream E m (pre ++ b ++ post) pre.length depth c).2.byteSize = some k :=
  C59_back E d (C126_types E fs hn d (getByName_mem hd)) m hm c hc depth v k pre post b hv ns hf

theorem entitled_doc {es : List (String × Yaml)} {s : String} (h : Entitled (doc es) s) :
    entry (es.map fun e => (.str e.1, e.2)) "name" = .str s := by
  obtain ⟨_, he, h⟩ := h
  cases he
  exact h

/-- The files of C41 meet the condition. -/
theorem exApart : NamesApart [{ docs := [docU8, docPoint] }] := by
  have hty : ∀ d ∈ [docU8, docPoint], ∀ s, Entitled d s → s = "u8" ∨ s = "point" := by
    intro d hd s h
    simp only [List.mem_cons, List.not_mem_nil, or_false] at hd
    rcases hd with rfl | rfl
    · have := entitled_doc h
      cases this
      exact .inl rfl
    · have := entitled_doc h
      cases this
      exact .inr rfl
  have hin : ∀ d ∈ [docU8, docPoint], ∀ s, InPlace d s → s = "data" := by
    rintro d hd s ⟨es, items, es', he, hm, hes, ht, hs⟩
    simp only [List.mem_cons, List.not_mem_nil, or_false] at hd
    rcases hd with rfl | rfl
    · cases he; cases hm
    · cases he; cases hm
      simp only [List.mem_cons, List.not_mem_nil, or_false, doc, Yaml.map.injEq] at hes
      rcases hes with rfl | rfl | rfl
      · exact absurd rfl ht
      · exact absurd rfl ht
      · cases hs; rfl
  refine ⟨?_, ?_, ?_⟩
  · intro f hf d hd g hg e he s h1 h2
    rw [List.mem_singleton] at hf hg
    subst hf hg
    have := hin e he s h2
    subst this
    rcases hty d hd _ h1 with h | h <;> simp at h
  · intro f hf d hd s h
    rw [List.mem_singleton] at hf
    subst hf
    rcases hty d hd s h with rfl | rfl <;> simp
  · intro f hf d hd s h
    rw [List.mem_singleton] at hf
    subst hf
    rw [hin d hd s h]; simp

example : exPoint.Every TypesDistinct ∧
    (readFiles exEnvR [{ docs := [docU8, docPoint] }]).getByName exEnvR "point" = some exPoint :=
  ⟨C126_types exEnvR _ exApart _ (List.mem_cons_of_mem _ List.mem_cons_self), rfl⟩

/-- `struct { u8 a; u8 u8[3]; }` with the stream declared in place under the name of
the data type, and `struct { u8 a; u8 b[3]; }`. -/
def docOwn (n : String) : Yaml := doc [("name", .str "pair"), ("type", .str "structure"),
  ("members", .list [
    doc [("name", .str "a"), ("data_type", .str "u8")],
    doc [("name", .str n), ("type", .str "stream"), ("element_data_type", .str "u8"),
      ("elements_data_size", .int 3)]])]

/-- **C126** The condition is needed: a structure whose second member is a stream of
three bytes declared in place under the name `u8` is read and its map is created, but
the map reads two integers from two of the four bytes. Under another name the member
is mapped as a stream. -/
theorem C126_needs :
    (∃ d m, (readFileObject exEnvR {} { docs := [docU8, docOwn "u8"] }).1 = .ok () ∧
      (readFiles exEnvR [{ docs := [docU8, docOwn "u8"] }]).getByName exEnvR "pair" = some d ∧
      d.byteSize = some 4 ∧ createMap exEnvR d = .ok m ∧
      (mapStream exEnvR m [1, 2, 3, 4] 0 0 {}).1 = .ok (.struct "pair" [("a", .int 1), ("u8", .int 2)])) ∧
    ∃ d m, (readFiles exEnvR [{ docs := [docU8, docOwn "b"] }]).getByName exEnvR "pair" = some d ∧
      d.byteSize = some 4 ∧ createMap exEnvR d = .ok m ∧
      (mapStream exEnvR m [1, 2, 3, 4] 0 0 {}).1 =
        .ok (.struct "pair" [("a", .int 1), ("b", .bytes [2, 3, 4])]) :=
  ⟨⟨_, _, rfl, rfl, rfl, rfl, rfl⟩, _, _, rfl, rfl, rfl, rfl⟩

end Dtf
