import Verif.Props.FoldParts

/-!
# Property C102: changing one member

Changing one member of an object changes the bytes of that member only.
-/

namespace Dtf
open Spec

namespace Spec

/-- Member `d` of the object `v` takes the bytes `p`: the ones its map folds its value to,
none if it is `None` or its type has no map. -/
def PartBytes (E : Env) (nm : String) (so : Order) (v : Val) (d : Defn) (p : Bytes) : Prop :=
  ((getAttr v d.name = .pyNone ∨ MapOf E nm so d .missing) ∧ p = []) ∨
    getAttr v d.name ≠ .pyNone ∧ ∃ m, MapOf E nm so d m ∧
      fold E m (getAttr v d.name) [(v.typeName, v)] = .ok (.bytes p)

/-- An expression that gives the size of the member `d` has the same value in both
objects. (This is so if the size of `d` is not given by an expression.) -/
def SameSize (E : Env) (v w : Val) (d : Defn) : Prop :=
  ∀ h info e, d.target = .seq h info e → info.kind ≠ .sequence →
    ∀ t, info.dataSizeExpr = some t ∨ info.numElementsExpr = some t →
      E.evalExpr t (withBuiltins [(w.typeName, w)]) = E.evalExpr t (withBuiltins [(v.typeName, v)])

end Spec

/-- Folding depends on the values of the context only through an expression for the size of a stream or string. -/
theorem fold_apart {E : Env} {nm : String} {so : Order} {t : Defn} {m : DMap} {ns ns' : Namespace}
    (hs : ∀ h info e, t = .seq h info e → info.kind ≠ .sequence →
      ∀ x, info.dataSizeExpr = some x ∨ info.numElementsExpr = some x →
        E.evalExpr x (withBuiltins ns) = E.evalExpr x (withBuiltins ns'))
    (hcr : createAs E nm so t = .ok m) (x : Val) : fold E m x ns = fold E m x ns' := by
  cases m with
  | seq h info ei bsz e =>
    have hd : ∃ h' e', t = .seq h' info e' := by
      clear hs
      cases t with
      | seq h' i' e' =>
        obtain ⟨_, _, _, _, _, heq, _⟩ := createAs_seq hcr
        cases heq
        exact ⟨h', e', rfl⟩
      | struct h' ms =>
        obtain ⟨_, _, _, _, _, _, _, heq, _⟩ := createAs_struct hcr
        cases heq
      | group h' b i dflt ms =>
        rw [createAs.eq_def] at hcr
        simp only at hcr
        repeat' split at hcr
        all_goals first | cases hcr | skip
      | _ =>
        rw [createAs.eq_def] at hcr
        simp only at hcr
        repeat' split at hcr
        all_goals first | cases hcr | skip
    obtain ⟨h', e', hd⟩ := hd
    rw [fold, fold]
    have hsz : info.kind ≠ .sequence → (calcDataSize E info ei { values := ns }).1 =
        (calcDataSize E info ei { values := ns' }).1 := by
      intro hk
      have hx := hs _ _ _ hd hk
      have he : ∀ k x, (∀ t, x = some t → E.evalExpr t (withBuiltins ns) = E.evalExpr t (withBuiltins ns')) →
          evalSize E k x ns = evalSize E k x ns' := by
        intro k x h
        cases x with
        | none => rfl
        | some t => simp only [evalSize, h t rfl]
      have e1 : evalDataSize E info ns = evalDataSize E info ns' := by
        simp only [evalDataSize, he _ _ fun t ht => hx t (.inl ht)]
      have e2 : evalNumElements E info ns = evalNumElements E info ns' := by
        simp only [evalNumElements, he _ _ fun t ht => hx t (.inr ht)]
      unfold calcDataSize
      simp only [e1, e2]
      generalize evalDataSize E info ns' = x
      generalize evalNumElements E info ns' = y
      cases x <;> cases y <;> cases ei.byteSize <;> simp [truthyInt] <;> split <;> first | rfl | (split <;> rfl)
    cases hk : info.kind with
    | sequence => rfl
    | stream =>
      simp only [streamFold]
      rw [hsz (by rw [hk]; simp)]
    | string enc =>
      simp only [stringFold, streamFold]
      rw [hsz (by rw [hk]; simp)]
  | struct h bsz l io infos maps => rw [fold, fold]
  | _ => simp only [fold]

theorem fold_alone {E : Env} {nm : String} {so : Order} {d : Defn} {m : DMap} {v w : Val}
    (hs : SameSize E v w d) (hm : MapOf E nm so d m) (x : Val) :
    fold E m x [(w.typeName, w)] = fold E m x [(v.typeName, v)] := by
  obtain ⟨n, o, -, hcr⟩ := hm
  exact fold_apart hs hcr x

theorem joined_cons {E : Env} {nm : String} {so : Order} {v : Val} {d : Defn} {ms : List Defn} {b : Bytes} :
    Joined E nm so v (d :: ms) b ↔
      ∃ p r, PartBytes E nm so v d p ∧ Joined E nm so v ms r ∧ b = p ++ r := by
  constructor
  · intro h
    cases h with
    | absent ha h => exact ⟨[], b, .inl ⟨.inl ha, rfl⟩, h, rfl⟩
    | unmapped hm h => exact ⟨[], b, .inl ⟨.inr hm, rfl⟩, h, rfl⟩
    | member ha hm hf h => exact ⟨_, _, .inr ⟨ha, _, hm, hf⟩, h, rfl⟩
  · rintro ⟨p, r, ⟨ha | ha, rfl⟩ | ⟨ha, m, hm, hf⟩, h, rfl⟩
    · exact .absent ha h
    · exact .unmapped ha h
    · exact .member ha hm hf h

theorem joined_append {E : Env} {nm : String} {so : Order} {v : Val} {ms ms' : List Defn} {b : Bytes} :
    Joined E nm so v (ms ++ ms') b ↔
      ∃ p r, Joined E nm so v ms p ∧ Joined E nm so v ms' r ∧ b = p ++ r := by
  induction ms generalizing b with
  | nil =>
    constructor
    · exact fun h => ⟨[], b, .nil, h, rfl⟩
    · rintro ⟨p, r, hp, hr, rfl⟩
      cases hp
      exact hr
  | cons d ms ih =>
    rw [List.cons_append, joined_cons]
    constructor
    · rintro ⟨p, r, hp, hr, rfl⟩
      obtain ⟨p', r', hp', hr', rfl⟩ := ih.mp hr
      exact ⟨p ++ p', r', joined_cons.mpr ⟨p, p', hp, hp', rfl⟩, hr', by simp⟩
    · rintro ⟨p, r, hp, hr, rfl⟩
      obtain ⟨p', q, hp', hq, rfl⟩ := joined_cons.mp hp
      exact ⟨p', q ++ r, hp', ih.mpr ⟨q, r, hq, hr, rfl⟩, by simp⟩

theorem partBytes_unique {E : Env} {nm : String} {so : Order} {v : Val} {d : Defn} {p q : Bytes}
    (hp : PartBytes E nm so v d p) (hq : PartBytes E nm so v d q) : p = q := by
  rcases hp with ⟨h, rfl⟩ | ⟨ha, m, hm, hf⟩ <;> rcases hq with ⟨h', rfl⟩ | ⟨ha', m', hm', hf'⟩
  · rfl
  · rcases h with h | h
    · exact absurd h ha'
    · cases mapOf_unique h hm'; simp [fold] at hf'
  · rcases h' with h | h
    · exact absurd h ha
    · cases mapOf_unique h hm; simp [fold] at hf
  · cases mapOf_unique hm hm'
    rw [hf] at hf'
    cases hf'
    rfl

theorem joined_unique {E : Env} {nm : String} {so : Order} {v : Val} {ms : List Defn} {p q : Bytes}
    (hp : Joined E nm so v ms p) (hq : Joined E nm so v ms q) : p = q := by
  induction ms generalizing p q with
  | nil => cases hp; cases hq; rfl
  | cons d ms ih =>
    obtain ⟨p1, p2, h1, h2, rfl⟩ := joined_cons.mp hp
    obtain ⟨q1, q2, h3, h4, rfl⟩ := joined_cons.mp hq
    rw [partBytes_unique h1 h3, ih h2 h4]

theorem joined_same {E : Env} {nm : String} {so : Order} {v w : Val} {ms : List Defn} {b : Bytes}
    (hs : ∀ d ∈ ms, SameSize E v w d) (ha : ∀ d ∈ ms, getAttr w d.name = getAttr v d.name)
    (h : Joined E nm so v ms b) : Joined E nm so w ms b := by
  induction h with
  | nil => exact .nil
  | absent h0 _ ih =>
    exact .absent (by rw [ha _ List.mem_cons_self]; exact h0)
      (ih (fun d hd => hs d (List.mem_cons_of_mem _ hd)) (fun d hd => ha d (List.mem_cons_of_mem _ hd)))
  | unmapped hm _ ih =>
    exact .unmapped hm
      (ih (fun d hd => hs d (List.mem_cons_of_mem _ hd)) (fun d hd => ha d (List.mem_cons_of_mem _ hd)))
  | member h0 hm hf _ ih =>
    refine .member (by rw [ha _ List.mem_cons_self]; exact h0) hm ?_
      (ih (fun d hd => hs d (List.mem_cons_of_mem _ hd)) (fun d hd => ha d (List.mem_cons_of_mem _ hd)))
    rw [ha _ List.mem_cons_self, ← hf]
    exact fold_alone (hs _ List.mem_cons_self) hm _

/-- **C102** Changing one member, members folded one by one: the bytes of an object are
those of the members before `d`, of `d` and of the members after it. Any other object `w`
with the same values and sizes of the other members folds to the same bytes before and after, with
those of its own `d` in between, and to nothing else. -/
theorem C102_members (E : Env) (nm : String) (o : Order) (h : Hdr) (before after : List Defn) (d : Defn)
    (hdt : DistinctTypes (before ++ d :: after))
    (hd : Hdr) (bsz : Option Int) (io : Bool) (infos : List MemInfo) (maps : List DMap)
    (hm : createAs E nm o (.struct h (before ++ d :: after)) = .ok (.struct hd bsz false io infos maps))
    (v : Val) (ns : Namespace) (b : Bytes)
    (hb : fold E (.struct hd bsz false io infos maps) v ns = .ok (.bytes b)) :
    ∃ pre p post, b = pre ++ (p ++ post) ∧ PartBytes E nm o v d p ∧
      ∀ w, (∀ y ∈ before ++ after, getAttr w y.name = getAttr v y.name ∧ SameSize E v w y) → ∀ ns' b',
        fold E (.struct hd bsz false io infos maps) w ns' = .ok (.bytes b') ↔
          ∃ q, PartBytes E nm o w d q ∧ b' = pre ++ (q ++ post) := by
  rw [C101_members E nm o h _ hdt hd bsz io infos maps hm, joined_append] at hb
  obtain ⟨pre, r, hpre, hr, rfl⟩ := hb
  obtain ⟨p, post, hp, hpost, rfl⟩ := joined_cons.mp hr
  refine ⟨pre, p, post, rfl, hp, ?_⟩
  intro w hw ns' b'
  have h1 := joined_same (fun y hy => (hw y (List.mem_append_left _ hy)).2)
    (fun y hy => (hw y (List.mem_append_left _ hy)).1) hpre
  have h2 := joined_same (fun y hy => (hw y (List.mem_append_right _ hy)).2)
    (fun y hy => (hw y (List.mem_append_right _ hy)).1) hpost
  rw [C101_members E nm o h _ hdt hd bsz io infos maps hm, joined_append]
  constructor
  · rintro ⟨pre', r, hpre', hr, rfl⟩
    obtain ⟨q, post', hq, hpost', rfl⟩ := joined_cons.mp hr
    rw [joined_unique hpre' h1, joined_unique hpost' h2]
    exact ⟨q, hq, rfl⟩
  · rintro ⟨q, hq, rfl⟩
    exact ⟨pre, q ++ post, h1, joined_cons.mpr ⟨q, post, hq, h2, rfl⟩, rfl⟩

/-- **C102** Changing one member, members packed in one go: the same for numbers, when no
member of the other object is `None`. -/
theorem C102_packed (E : Env) (nm : String) (o : Order) (h : Hdr) (before after : List Defn) (d : Defn)
    (hdt : DistinctTypes (before ++ d :: after)) (hag : OrdersAgree E o (before ++ d :: after))
    (hnum : ∀ y ∈ before ++ d :: after, NumberDefn y.target)
    (hd : Hdr) (bsz : Option Int) (io : Bool) (infos : List MemInfo) (maps : List DMap)
    (hm : createAs E nm o (.struct h (before ++ d :: after)) = .ok (.struct hd bsz true io infos maps))
    (v : Val) (ns : Namespace) (b : Bytes)
    (hb : fold E (.struct hd bsz true io infos maps) v ns = .ok (.bytes b)) :
    ∃ pre p post, b = pre ++ (p ++ post) ∧ PartBytes E nm o v d p ∧
      ∀ w, (∀ y ∈ before ++ after, getAttr w y.name = getAttr v y.name) → ∀ ns' b',
        fold E (.struct hd bsz true io infos maps) w ns' = .ok (.bytes b') ↔
          getAttr w d.name ≠ .pyNone ∧ ∃ q, PartBytes E nm o w d q ∧ b' = pre ++ (q ++ post) := by
  have hs : ∀ w, ∀ y ∈ before ++ d :: after, SameSize E v w y := by
    intro w y hy h info e he
    obtain ⟨_, _, _, _, he', _⟩ := hnum y hy
    rw [he'] at he
    cases he
  have hs : ∀ w, ∀ y ∈ before ++ after, SameSize E v w y := fun w y hy => hs w y (by
    simp only [List.mem_append, List.mem_cons] at hy ⊢; rcases hy with hy | hy <;> simp [hy])
  rw [C101_packed_partial E nm o h _ hdt hag hnum hd bsz io infos maps hm, joined_append] at hb
  obtain ⟨hpres, pre, r, hpre, hr, rfl⟩ := hb
  obtain ⟨p, post, hp, hpost, rfl⟩ := joined_cons.mp hr
  refine ⟨pre, p, post, rfl, hp, ?_⟩
  intro w hw ns' b'
  have h1 := joined_same (fun y hy => hs w y (List.mem_append_left _ hy))
    (fun y hy => hw y (List.mem_append_left _ hy)) hpre
  have h2 := joined_same (fun y hy => hs w y (List.mem_append_right _ hy))
    (fun y hy => hw y (List.mem_append_right _ hy)) hpost
  rw [C101_packed_partial E nm o h _ hdt hag hnum hd bsz io infos maps hm, joined_append]
  constructor
  · rintro ⟨hpw, pre', r, hpre', hr, rfl⟩
    obtain ⟨q, post', hq, hpost', rfl⟩ := joined_cons.mp hr
    rw [joined_unique hpre' h1, joined_unique hpost' h2]
    exact ⟨hpw d (by simp), q, hq, rfl⟩
  · rintro ⟨hdw, q, hq, rfl⟩
    refine ⟨?_, pre, q ++ post, h1, joined_cons.mpr ⟨q, post, hq, h2, rfl⟩, rfl⟩
    intro y hy
    rw [List.mem_append, List.mem_cons] at hy
    rcases hy with hy | rfl | hy
    · rw [hw y (List.mem_append_left _ hy)]
      exact hpres y (List.mem_append_left _ hy)
    · exact hdw
    · rw [hw y (List.mem_append_right _ hy)]
      exact hpres y (List.mem_append_right _ (List.mem_cons_of_mem _ hy))

/-- **C102** Changing one member of a mapped object: where folding undoes mapping (C31), the
bytes it was mapped from are kept but for those of the member. -/
theorem C102_mapped (E : Env) (h : Hdr) (before after : List Defn) (d : Defn)
    (hdt : (Defn.struct h (before ++ d :: after)).Every TypesDistinct)
    (hd : Hdr) (bsz : Option Int) (io : Bool) (infos : List MemInfo) (maps : List DMap)
    (hm : createMap E (.struct h (before ++ d :: after)) = .ok (.struct hd bsz false io infos maps))
    (c : Ctx) (hc : c.Clean) (hf : Foldable E (c.values.map (·.1)) (.struct hd bsz false io infos maps))
    (bs : Bytes) (off depth : Nat) (v : Val)
    (hv : (mapStream E (.struct hd bsz false io infos maps) bs off depth c).1 = .ok v) (hk : Kept E v) :
    ∃ n pre p post, (mapStream E (.struct hd bsz false io infos maps) bs off depth c).2.byteSize = some n ∧
      window bs off n = pre ++ (p ++ post) ∧ PartBytes E h.name h.order v d p ∧
      ∀ w, (∀ y ∈ before ++ after, getAttr w y.name = getAttr v y.name ∧ SameSize E v w y) → ∀ ns b,
        fold E (.struct hd bsz false io infos maps) w ns = .ok (.bytes b) ↔
          ∃ q, PartBytes E h.name h.order w d q ∧ b = pre ++ (q ++ post) := by
  obtain ⟨n, hn, hb⟩ := C31_partial E _ hdt hd bsz false io infos maps hm c hc hf bs off depth v hv hk []
  obtain ⟨pre, p, post, h1, h2, h3⟩ :=
    C102_members E h.name h.order h before after d hdt.self hd bsz io infos maps hm v [] _ hb
  exact ⟨n, pre, p, post, hn, h1, h2, h3⟩

/-- **C102** A scalar takes the same number of bytes whatever its value, so that the bytes of
the other members also stay where they are. -/
theorem C102_place (E : Env) (nm : String) (o : Order) (d : Defn) (h : Hdr) (k : PrimKind) (s : Size)
    (u : String) (hd : d.target = .prim h k s u) (v w : Val) (p q : Bytes)
    (hv : getAttr v d.name ≠ .pyNone) (hw : getAttr w d.name ≠ .pyNone)
    (hp : PartBytes E nm o v d p) (hq : PartBytes E nm o w d q) : p.length = q.length := by
  have key : ∀ x ns b m, MapOf E nm o d m → fold E m x ns = .ok (.bytes b) →
      ∃ c, primCode k s = some c ∧ b.length = c.size := by
    intro x ns b m hm hf
    obtain ⟨n, o', -, hcr⟩ := hm
    rw [hd] at hcr
    simp only [createAs] at hcr
    split at hcr
    · cases hcr
    cases hcr
    simp only [fold, primFold] at hf
    split at hf
    · rename_i y c hy hc
      split at hf
      · rename_i b' hb
        cases hf
        exact ⟨c, hc, packOne_length _ _ _ _ _ hb⟩
      · cases hf
    · cases hf
  have hmiss : ¬ MapOf E nm o d .missing := by
    rintro ⟨n, o', -, hcr⟩
    rw [hd] at hcr
    simp only [createAs] at hcr
    split at hcr <;> cases hcr
  rcases hp with ⟨hp | hp, -⟩ | ⟨-, m, hm, hf⟩
  · exact absurd hp hv
  · exact absurd hp hmiss
  rcases hq with ⟨hq | hq, -⟩ | ⟨-, m', hm', hf'⟩
  · exact absurd hq hw
  · exact absurd hq hmiss
  obtain ⟨c, hc, h1⟩ := key _ _ _ _ hm hf
  obtain ⟨c', hc', h2⟩ := key _ _ _ _ hm' hf'
  rw [hc] at hc'
  cases hc'
  rw [h1, h2]

/-- The conditions are met by `exSized` and its member `w`: another number there changes two
bytes, the size of `s` is the same. -/
example : ∃ h before d after hd bsz io infos maps, exSized = .struct h (before ++ d :: after) ∧ d.name = "w" ∧
    createMap exEnvE exSized = .ok (.struct hd bsz false io infos maps) ∧
    (∀ y ∈ before ++ after, SameSize exEnvE
      (.struct "T" [("a", .int 1), ("s", .bytes [7]), ("w", .int 2), ("u", .struct "U" [("x", .int 3), ("y", .int 4)])])
      (.struct "T" [("a", .int 1), ("s", .bytes [7]), ("w", .int 5), ("u", .struct "U" [("x", .int 3), ("y", .int 4)])]) y) ∧
    fold exEnvE (.struct hd bsz false io infos maps)
      (.struct "T" [("a", .int 1), ("s", .bytes [7]), ("w", .int 2), ("u", .struct "U" [("x", .int 3), ("y", .int 4)])]) [] =
      .ok (.bytes [1, 7, 2, 0, 3, 0, 4, 0]) ∧
    fold exEnvE (.struct hd bsz false io infos maps)
      (.struct "T" [("a", .int 1), ("s", .bytes [7]), ("w", .int 5), ("u", .struct "U" [("x", .int 3), ("y", .int 4)])]) [] =
      .ok (.bytes [1, 7, 5, 0, 3, 0, 4, 0]) := by
  refine ⟨{ name := "T" }, [_, _], _, [_], _, _, _, _, _, rfl, rfl, rfl, ?_, rfl, rfl⟩
  intro y hy h info e he _ t ht
  simp only [List.cons_append, List.nil_append, List.mem_cons, List.not_mem_nil, or_false] at hy
  rcases hy with rfl | rfl | rfl
  · simp [Defn.target, exU8] at he
  · cases he
    simp at ht
    subst ht
    rfl
  · simp [Defn.target] at he

/-- Without `SameSize` it does not hold: another `a` alone makes `s` a stream of the wrong
size, and the object cannot be folded. -/
example : ∃ hd bsz io infos maps, createMap exEnvE exSized = .ok (.struct hd bsz false io infos maps) ∧
    fold exEnvE (.struct hd bsz false io infos maps)
      (.struct "T" [("a", .int 2), ("s", .bytes [7]), ("w", .int 2), ("u", .struct "U" [("x", .int 3), ("y", .int 4)])]) [] =
      .error .folding :=
  ⟨_, _, _, _, _, rfl, rfl⟩

/-- `exLin`, packed in one go. -/
example : ∃ h before d after hd b io infos maps, exLin = .struct h (before ++ d :: after) ∧ d.name = "e" ∧
    createMap exEnv exLin = .ok (.struct hd b true io infos maps) ∧
    fold exEnv (.struct hd b true io infos maps) (.struct "T" [("c", .int 5), ("e", .int 1)]) [] = .ok (.bytes [5, 1]) ∧
    fold exEnv (.struct hd b true io infos maps) (.struct "T" [("c", .int 5), ("e", .int 9)]) [] = .ok (.bytes [5, 9]) :=
  ⟨_, [_], _, [], _, _, _, _, _, rfl, rfl, rfl, rfl, rfl⟩

end Dtf
