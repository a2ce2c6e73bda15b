import Verif.Props.Growth
import Verif.Orders
import Verif.Depth
/-!
# Property C84: members can be moved into a structure of their own
-/
namespace Dtf

namespace Spec

/-- The expressions of a structure have the same values whether the members `ms`, between
`pre` and `post`, are members of the structure `cls` itself or of a structure `sub` that is
its member `g`: before them, since the names of the members still to be read differ; within
them, since their values are in another object; after them, for the same reason. -/
structure Unaware (E : Env) (cls : String) (outer : Namespace) (pre : List Defn) (g : Defn) (sub : String)
    (ms post : List Defn) : Prop where
  before : ∀ e ∈ namesUsedByAll pre, ∀ read : List Val,
    Indifferent E (scope cls ((pre ++ ms ++ post).map Defn.name) read outer)
      (scope cls ((pre ++ g :: post).map Defn.name) read outer) e
  within : ∀ e ∈ namesUsedByAll ms, ∀ a read : List Val, a.length = pre.length →
    Indifferent E (scope cls ((pre ++ ms ++ post).map Defn.name) (a ++ read) outer)
      (scope sub (ms.map Defn.name) read (scope cls ((pre ++ g :: post).map Defn.name) a outer)) e
  after : ∀ e ∈ namesUsedByAll post, ∀ a b read : List Val, a.length = pre.length → b.length = ms.length →
    Indifferent E (scope cls ((pre ++ ms ++ post).map Defn.name) (a ++ b ++ read) outer)
      (scope cls ((pre ++ g :: post).map Defn.name) (a ++ .struct sub (fill (ms.map Defn.name) b) :: read) outer) e

/-- The type of a member shows the name it is created under: a structure without byte order
in a structure with one. -/
def Renamed (so : Order) (d : Defn) : Prop := so ≠ .native ∧ ∃ h ms, d.target = .struct h ms ∧ h.order = .native

end Spec
open Spec

/-! ### Maps under another name -/

mutual
theorem SameMap.refl : ∀ m : DMap, SameMap m m
  | .missing => .missing
  | .prim _ _ _ _ => .prim rfl
  | .uuid _ _ _ => .uuid rfl
  | .padding _ _ => .padding
  | .seq h info ei b e => by
    by_cases hk : info.kind = .sequence
    · exact SameMap.sequence (t := info.elementDataType) hk (SameMap.refl e) fun _ => rfl
    · exact SameMap.stream (t := info.elementDataType) hk fun _ _ _ => rfl
  | .struct _ _ _ _ _ maps => .struct rfl rfl (SameMaps.refl maps)
  | .constant _ => .constant
  | .enumeration _ _ => .enumeration
  | .format _ _ => .format
  | .group _ _ base dflt _ maps => .group (SameMap.refl base) (SameOpt.refl dflt) (SameMaps.refl maps)
theorem SameMaps.refl : ∀ ms : List DMap, SameMaps ms ms
  | [] => .nil
  | m :: ms => .cons (SameMap.refl m) (SameMaps.refl ms)
theorem SameOpt.refl : ∀ m : Option DMap, SameOpt m m
  | none => .none
  | some m => .some (SameMap.refl m)
end

/-- The name under which the map of a type other than a structure is created does not
matter. -/
theorem createAs_renamed {E : Env} (d : Defn) (hd : ∀ h ms, d ≠ .struct h ms) {n n' : String} {o : Order} {m m' : DMap}
    (h : createAs E n o d = .ok m) (h' : createAs E n' o d = .ok m') : SameMap m m' := by
  have key : ∀ d : Defn, (∀ h ms, d ≠ .struct h ms) → (∀ h i e, d ≠ .seq h i e) →
      (∀ h b i x ms, d ≠ .group h b i x ms) → ∀ n n' o m m',
      createAs E n o d = .ok m → createAs E n' o d = .ok m' → SameMap m m' := by
    intro d h1 h2 h3 n n' o m m' h h'
    cases d with
    | prim hd k s u =>
      rw [createAs.eq_def] at h h'
      simp only at h h'
      split at h
      · cases h
      · cases h
        split at h'
        · cases h'
        · cases h'; exact .prim rfl
    | struct h0 ms => exact absurd rfl (h1 h0 ms)
    | seq h0 i e => exact absurd rfl (h2 h0 i e)
    | group h0 b i x ms => exact absurd rfl (h3 h0 b i x ms)
    | _ =>
      simp only [createAs, Except.ok.injEq] at h h'
      subst h h'
      first | exact .uuid rfl | exact .padding | exact .missing | exact .constant | exact .enumeration | exact .format
  cases d with
  | struct h0 ms => exact absurd rfl (hd h0 ms)
  | seq h0 info e =>
    rw [createAs] at h h'
    cases heo : e.order? with
    | none => rw [heo] at h; cases h
    | some eo =>
      rw [heo] at h h'
      simp only at h h'
      have hs : ∀ em em', createAs E (if (o ≠ .native && eo = .native && !e.isComposite : Bool) then "_" ++ n ++ "_" ++ e.name
            else e.name) (if (o ≠ .native && eo = .native && !e.isComposite : Bool) then o else eo) e = .ok em →
          createAs E (if (o ≠ .native && eo = .native && !e.isComposite : Bool) then "_" ++ n' ++ "_" ++ e.name
            else e.name) (if (o ≠ .native && eo = .native && !e.isComposite : Bool) then o else eo) e = .ok em' →
          SameMap em em' := by
        intro em em' h1 h2
        by_cases hc : (o ≠ .native && eo = .native && !e.isComposite : Bool) = true
        · rw [if_pos hc, if_pos hc] at h1 h2
          simp only [Bool.and_eq_true, Bool.not_eq_true'] at hc
          refine key e ?_ ?_ ?_ _ _ _ _ _ h1 h2 <;> intros <;> rintro rfl <;> simp [Defn.isComposite] at hc
        · rw [if_neg hc, if_neg hc] at h1 h2
          rw [h1] at h2
          cases h2
          exact SameMap.refl _
      generalize hr : createAs E (if (o ≠ .native && eo = .native && !e.isComposite : Bool) then "_" ++ n ++ "_" ++ e.name else e.name)
        (if (o ≠ .native && eo = .native && !e.isComposite : Bool) then o else eo) e = r at h hs
      generalize createAs E (if (o ≠ .native && eo = .native && !e.isComposite : Bool) then "_" ++ n' ++ "_" ++ e.name else e.name)
        (if (o ≠ .native && eo = .native && !e.isComposite : Bool) then o else eo) e = r' at h' hs
      cases r with
      | error x => cases h
      | ok em =>
        cases r' with
        | error x => cases h'
        | ok em' =>
          have hm := hs em em' rfl rfl
          simp only at h h'
          have hl : seqLinear info ⟨e.byteSize, e.isComposite, e.terminator?⟩ = true → e.isComposite = false := by
            intro hl
            cases hc : e.isComposite with
            | true => rw [hc] at hl; simp [seqLinear] at hl
            | false => rfl
          have hf : SameOutcome (.ok m) (.ok m') := by
            rw [← h, ← h']
            by_cases hk : info.kind = .sequence
            · exact finishSeq_same (.sequence (t := info.elementDataType) hk hm fun h => simple_orderStr (hl h) hr hm)
                fun _ h => seqOp_same (t := info.elementDataType) hm (simple_orderStr (hl h) hr hm) hk
            · exact finishSeq_same (.stream (t := info.elementDataType) hk fun E off ctx => sizeHint_same E hm off ctx)
                fun h => absurd h hk
          cases hf with | ok h => exact h
  | group hd base ident dflt ms =>
    obtain ⟨dm, bm, keys, maps, h1, h2, -, h3, rfl⟩ := createAs_group h
    obtain ⟨dm', bm', keys', maps', h1', h2', -, h3', rfl⟩ := createAs_group h'
    rw [h1] at h1'; cases h1'
    rw [h2] at h2'; cases h2'
    rw [h3] at h3'; cases h3'
    exact .group (SameMap.refl _) (SameOpt.refl _) (SameMaps.refl _)
  | _ => refine key _ hd ?_ ?_ n n' o m m' h h' <;> intros <;> simp

/-- The map of a member of structure `cls` and that of the same member of structure `cls'`. -/
theorem mapOf_renamed {E : Env} {cls cls' : String} {so : Order} {d : Defn} {m m' : DMap} (hr : ¬ Renamed so d)
    (h : MapOf E cls so d m) (h' : MapOf E cls' so d m') : SameMap m m' := by
  obtain ⟨n, o, h1, h2⟩ := h
  obtain ⟨n', o', h1', h2'⟩ := h'
  unfold memberNameOrder at h1 h1'
  by_cases hn : so = .native
  · rw [if_pos hn] at h1 h1'
    cases h1; cases h1'
    rw [h2] at h2'; cases h2'
    exact SameMap.refl _
  rw [if_neg hn] at h1 h1'
  cases ho : d.target.order? with
  | none => rw [ho] at h1; cases h1
  | some x =>
    rw [ho] at h1 h1'
    cases x with
    | native =>
      cases h1; cases h1'
      refine createAs_renamed _ ?_ h2 h2'
      intro h0 ms he
      refine hr ⟨hn, h0, ms, he, ?_⟩
      rw [he] at ho
      simpa [Defn.order?] using ho
    | _ =>
      cases h1; cases h1'
      rw [h2] at h2'; cases h2'
      exact SameMap.refl _

/-! ### Layouts -/

/-- The same members, laid out in another structure. -/
theorem layout_move {E : Env} {bs : Bytes} {depth depth' : Nat} {outer outer' : Namespace} {cls cls' : String}
    {so : Order} {names names' : List String} (A B : List Val) {ms : List Defn} {p e : Nat} {read vs : List Val}
    (hS : ∀ x ∈ namesUsedByAll ms, ∀ r, Indifferent E (scope cls names (A ++ r) outer) (scope cls' names' (B ++ r) outer') x)
    (hm : ∀ d ∈ ms, ∃ m, MapOf E cls' so d m) (hr : cls ≠ cls' → ∀ d ∈ ms, ¬ Renamed so d)
    (hd : ∀ d ∈ ms, depth + 1 + d.levels ≤ 11 ∧ depth' + 1 + d.levels ≤ 11)
    (h : Layout E bs depth outer cls so names (A ++ read) ms p vs e) :
    ∃ us, vs = A ++ us ∧ Layout E bs depth' outer' cls' so names' (B ++ read) ms p (B ++ us) e := by
  induction ms generalizing read p with
  | nil => cases h; exact ⟨read, rfl, .done _ _⟩
  | cons d ms ih =>
    have ih := fun r p => @ih p r (fun x hx => hS x (by simp only [namesUsedByAll, List.mem_append]; exact .inr hx))
      (fun d hd => hm d (List.mem_cons_of_mem _ hd)) (fun hc d hd => hr hc d (List.mem_cons_of_mem _ hd))
      (fun d h => hd d (List.mem_cons_of_mem _ h))
    have hcond : ∀ x ∈ d.memInfo.condition.toList, Indifferent E (scope cls names (A ++ read) outer)
        (scope cls' names' (B ++ read) outer') x :=
      fun x hx => hS x (namesUsedBy_mem List.mem_cons_self (namesUsedBy_condition hx)) read
    cases h with
    | absent hc h =>
      rw [List.append_assoc] at h
      obtain ⟨us, rfl, hl⟩ := ih _ _ h
      rw [← List.append_assoc] at hl
      exact ⟨us, rfl, .absent (present_indifferent hcond hc) hl⟩
    | @present _ _ _ _ _ _ k m v hc hmo hv hk hs h =>
      rw [List.append_assoc] at h
      obtain ⟨us, rfl, hl⟩ := ih _ _ h
      rw [← List.append_assoc] at hl
      refine ⟨us, rfl, ?_⟩
      obtain ⟨m', hmo'⟩ := hm d List.mem_cons_self
      have hsame : SameMap m m' := by
        by_cases hcc : cls = cls'
        · subst hcc
          obtain ⟨n, o, h1, h2⟩ := hmo
          obtain ⟨n', o', h1', h2'⟩ := hmo'
          rw [h1] at h1'; cases h1'
          rw [h2] at h2'; cases h2'
          exact SameMap.refl _
        · exact mapOf_renamed (hr hcc d List.mem_cons_self) hmo hmo'
      have hp : parse E m bs p (depth + 1) (scope cls names (A ++ read) outer) = .ok (v, k) := by
        obtain ⟨k', h1, h2⟩ := mapStream_ok (c := { values := scope cls names (A ++ read) outer }) rfl hv
        rw [hk] at h2
        cases h2
        exact h1
      obtain ⟨n, o, hno, hcr⟩ := hmo
      have hlv : m.levels ≤ d.levels := by
        have := levels_createAs _ _ _ _ hcr
        rwa [Defn.levels_target] at this
      obtain ⟨hd1, hd2⟩ := hd d List.mem_cons_self
      rw [parse_free E m bs (depth + 1) (by omega), ← parse_free E m bs (depth' + 1) (by omega),
        createAs_unmoved E d (namesUsedBy d) (fun _ h => h) n o m (.inr hcr) bs p (depth' + 1) _ _
        (fun x hx => hS x (namesUsedBy_mem List.mem_cons_self hx) read)] at hp
      obtain ⟨h1, h2⟩ := mapStream_of_parse (c := { values := scope cls' names' (B ++ read) outer' }) rfl hp
      rw [mapStream_sameMap E hsame] at h1 h2
      exact .present (present_indifferent hcond hc) hmo' h1 h2 hs hl

/-! ### C84 -/

/-- What is asked of the two structures: `flat` has the members `pre`, `ms` and `post`;
`nested` has `pre`, a member `g` whose type is a structure of the members `ms`, and `post`. -/
structure Spec.Extraction (E : Env) (h : Hdr) (pre : List Defn) (g : Defn) (hi : Hdr) (ms post : List Defn) : Prop where
  /-- The member is always present, has no supported values, and its type is a structure of
  the same byte order. -/
  type : g.target = .struct hi ms
  order : hi.order = h.order
  always : g.memInfo.condition = none ∨ g.memInfo.condition = some ""
  values : g.memInfo.values = none ∨ g.memInfo.values = some []
  /-- Names of types identify them, and no structure is read in one go against the byte
  order one of its members declares. -/
  flatTypes : DistinctTypes (pre ++ ms ++ post)
  nestedTypes : DistinctTypes (pre ++ g :: post)
  flatOrder : OneOrder E h.order (pre ++ ms ++ post)
  nestedOrder : OneOrder E h.order (pre ++ g :: post)
  innerOrder : OneOrder E h.order ms
  /-- No name of a member hides `super` or the name of a class. -/
  names : hi.name ≠ "super" ∧ g.name ≠ "super" ∧ g.name ≠ h.name ∧ ∀ d ∈ ms, d.name ≠ hi.name ∧ d.name ≠ h.name
  /-- Names of classes are those of the definitions. -/
  shown : ∀ d ∈ ms, ¬ Renamed h.order d
  /-- The limit of nesting is not reached. -/
  levels : (Defn.struct h (pre ++ g :: post)).levels ≤ 11

theorem all2_split {α β : Type} {R : α → β → Prop} {a b : List α} {l : List β} (h : All2 R (a ++ b) l) :
    ∃ x y, l = x ++ y ∧ All2 R a x ∧ All2 R b y := by
  induction a generalizing l with
  | nil => exact ⟨[], l, rfl, .nil, h⟩
  | cons d a ih =>
    cases h with
    | cons hd ht =>
      obtain ⟨x, y, rfl, hx, hy⟩ := ih ht
      exact ⟨_ :: x, y, rfl, .cons hd hx, hy⟩

theorem all2_mem {α β : Type} {R : α → β → Prop} {a : List α} {l : List β} (h : All2 R a l) {x : α} (hx : x ∈ a) :
    ∃ y, R x y := by
  induction h with
  | nil => cases hx
  | cons hd _ ih =>
    cases hx with
    | head => exact ⟨_, hd⟩
    | tail _ hx => exact ih hx

theorem distinctTypes_middle {a ms b : List Defn} (h : DistinctTypes (a ++ ms ++ b)) : DistinctTypes ms :=
  ⟨fun x hx y hy hn => h.1 x (by simp [hx]) y (by simp [hy]) hn, fun x hx => h.2 x (by simp [hx])⟩

/-- What follows from it for the maps: the map of the structure within, and the depths. -/
theorem extraction_maps {E : Env} {h : Hdr} {pre : List Defn} {g : Defn} {hi : Hdr} {ms post : List Defn}
    (hx : Extraction E h pre g hi ms post) {maps' : List DMap}
    (hmo' : All2 (MapOf E h.name h.order) (pre ++ g :: post) maps') :
    ∃ gm, MapOf E h.name h.order g gm ∧ createAs E hi.name h.order (.struct hi ms) = .ok gm := by
  obtain ⟨gm, n, o, h1, h2⟩ := all2_mem hmo' (x := g) (by simp)
  refine ⟨gm, ⟨n, o, h1, h2⟩, ?_⟩
  rw [hx.type] at h1 h2
  have : n = hi.name ∧ o = h.order := by
    rw [← hx.order]
    unfold memberNameOrder at h1
    by_cases hn : h.order = .native
    · rw [if_pos hn] at h1
      cases h1
      exact ⟨rfl, rfl⟩
    · rw [if_neg hn] at h1
      have ho : (Defn.struct hi ms).order? = some h.order := by simp [Defn.order?, hx.order]
      rw [ho] at h1
      generalize hq : h.order = q at h1 hn
      cases q with
      | native => exact absurd rfl hn
      | _ => cases h1; exact ⟨rfl, by rw [hx.order, hq]⟩
  rw [← this.1, ← this.2]
  exact h2

theorem extraction_levels {E : Env} {h : Hdr} {pre : List Defn} {g : Defn} {hi : Hdr} {ms post : List Defn}
    (hx : Extraction E h pre g hi ms post) :
    (∀ d ∈ pre, 0 + 1 + d.levels ≤ 11) ∧ (∀ d ∈ ms, 0 + 1 + 1 + d.levels ≤ 11) ∧ ∀ d ∈ post, 0 + 1 + d.levels ≤ 11 := by
  have hl := hx.levels
  simp only [Defn.levels] at hl
  have hm : ∀ d ∈ pre ++ g :: post, d.levels ≤ 10 := fun d hd => by have := levelsList_le hd; omega
  refine ⟨fun d hd => ?_, fun d hd => ?_, fun d hd => ?_⟩
  · have := hm d (by simp [hd]); omega
  · have h1 := hm g (by simp)
    rw [← Defn.levels_target, hx.type] at h1
    simp only [Defn.levels] at h1
    have := levelsList_le hd
    omega
  · have := hm d (by simp [hd]); omega

/-- **C84** Whenever the structure can be mapped whose members `pre`, `ms` and `post` are all
its own, so can the one in which the members `ms` are those of a structure of their own:
from the same number of bytes, with the same values, those of `ms` in an object of their own. -/
theorem C84_into {E : Env} {h : Hdr} {pre : List Defn} {g : Defn} {hi : Hdr} {ms post : List Defn}
    (hx : Extraction E h pre g hi ms post) {m m' : DMap}
    (hm : createMap E (.struct h (pre ++ ms ++ post)) = .ok m) (hm' : createMap E (.struct h (pre ++ g :: post)) = .ok m')
    (bs : Bytes) (off : Nat) (c : Ctx) (hc : c.Clean) (hu : Unaware E h.name c.values pre g hi.name ms post)
    (v : Val) (hv : (mapStream E m bs off 0 c).1 = .ok v) :
    ∃ a b z k, a.map (·.1) = pre.map Defn.name ∧ b.map (·.1) = ms.map Defn.name ∧ z.map (·.1) = post.map Defn.name ∧
      v = .struct h.name (a ++ b ++ z) ∧ (mapStream E m bs off 0 c).2.byteSize = some k ∧
      (mapStream E m' bs off 0 c).1 = .ok (.struct h.name (a ++ (g.name, .struct hi.name b) :: z)) ∧
      (mapStream E m' bs off 0 c).2.byteSize = some k := by
  have hm : createAs E h.name h.order (.struct h (pre ++ ms ++ post)) = .ok m := hm
  have hm' : createAs E h.name h.order (.struct h (pre ++ g :: post)) = .ok m' := hm'
  obtain ⟨maps, io, hmo, hcls, hiff⟩ := struct_parse_iff hx.flatTypes hx.flatOrder hm
  obtain ⟨maps', io', hmo', hcls', hiff'⟩ := struct_parse_iff hx.nestedTypes hx.nestedOrder hm'
  obtain ⟨gm, hgm, hgc⟩ := extraction_maps hx hmo'
  obtain ⟨mapsi, ioi, hmoi, hclsi, hiffi⟩ := struct_parse_iff (distinctTypes_middle hx.flatTypes) hx.innerOrder hgc
  obtain ⟨hl1, hl2, hl3⟩ := extraction_levels hx
  obtain ⟨k, hp, hb⟩ := mapStream_ok hc hv
  obtain ⟨hio, attrs, hpm, rfl⟩ := (hiff bs off 0 c.values _ k).1 hp
  have hfree := createClass_free (hio ▸ hcls)
  rw [← fill_nil] at hpm
  obtain ⟨vs, e, h1, h2, h3, h4⟩ := layout_of_members E h.name h.order bs 0 c.values _ (pre ++ ms ++ post) maps hmo [] rfl
    (createClass_nodup hcls).1 [] rfl off 0 k attrs hpm
  obtain ⟨ab, q2, h5, h6⟩ := layout_append.1 h1
  obtain ⟨a, q1, h7, h8⟩ := layout_append.1 h5
  obtain ⟨ha, -, -⟩ := layout_length h7
  simp only [List.length_nil, Nat.zero_add] at ha
  -- the members before
  obtain ⟨a', ha', h9⟩ := layout_move (cls' := h.name) (depth' := 0) (outer' := c.values)
    (names' := (pre ++ g :: post).map Defn.name) [] [] hu.before
    (fun d hd => all2_mem hmo' (by simp [hd])) (fun hn => absurd rfl hn) (fun d hd => ⟨hl1 d hd, hl1 d hd⟩) h7
  simp only [List.nil_append] at ha' h9
  subst ha'
  -- the members within
  rw [show a = a ++ [] by simp] at h8
  obtain ⟨b, hb', h10⟩ := layout_move (cls' := hi.name) (depth' := 1)
    (outer' := scope h.name ((pre ++ g :: post).map Defn.name) a c.values)
    (names' := ms.map Defn.name) a [] (fun x hx r => hu.within x hx a r ha)
    (fun d hd => all2_mem hmoi hd) (fun _ => hx.shown) (fun d hd => ⟨by have := hl2 d hd; omega, hl2 d hd⟩) h8
  subst hb'
  simp only [List.nil_append] at h10
  obtain ⟨hbl, -, -⟩ := layout_length h10
  simp only [List.length_nil, Nat.zero_add] at hbl
  -- the members after
  rw [show a ++ b = a ++ b ++ [] by simp] at h6
  obtain ⟨z, hz, h11⟩ := layout_move (cls' := h.name) (depth' := 0) (outer' := c.values)
    (names' := (pre ++ g :: post).map Defn.name) (a ++ b) (a ++ [.struct hi.name (fill (ms.map Defn.name) b)])
    (fun x hx r => by simpa using hu.after x hx a b r ha hbl)
    (fun d hd => all2_mem hmo' (by simp [hd])) (fun hn => absurd rfl hn) (fun d hd => ⟨hl3 d hd, hl3 d hd⟩) h6
  subst hz
  obtain ⟨hzl, -, -⟩ := layout_length h6
  have hzl : z.length = post.length := by simp only [List.length_append, List.length_nil] at hzl; omega
  -- the structure within
  have hfi := hx.names
  obtain ⟨h12, h13⟩ := members_of_layout E hi.name h.order bs 1 (scope h.name ((pre ++ g :: post).map Defn.name) a c.values)
    _ ms mapsi hmoi [] rfl (createClass_nodup hclsi).1 [] rfl q1 0 b q2 h10
  rw [fill_nil] at h13
  have hpi := (hiffi bs q1 1 (scope h.name ((pre ++ g :: post).map Defn.name) a c.values) _ _).2
    (createClass_inst hclsi ⟨hfi.1, fun d hd => ⟨(hfree.2 d (by simp [hd])).1, (hfi.2.2.2 d hd).1⟩⟩) (by omega) _ h13 rfl
  obtain ⟨h14, h15⟩ := mapStream_of_parse
    (c := { values := scope h.name ((pre ++ g :: post).map Defn.name) a c.values }) rfl hpi
  have h16 : Layout E bs 0 c.values h.name h.order ((pre ++ g :: post).map Defn.name) a (g :: post) q1
      (a ++ [.struct hi.name (fill (ms.map Defn.name) b)] ++ z) e := by
    refine .present (.always hx.always) hgm h14 h15 ?_ ?_
    · intro vs hvs hne
      rcases hx.values with hn | hn
      · rw [hn] at hvs; cases hvs
      · rw [hn] at hvs; cases hvs; exact absurd rfl hne
    · rw [show q1 + (0 + (q2 - q1)) = q2 by omega]
      simpa using h11
  obtain ⟨h17, h18⟩ := members_of_layout E h.name h.order bs 0 c.values _ (pre ++ g :: post) maps' hmo' [] rfl
    (createClass_nodup hcls').1 [] rfl off 0 _ e (layout_append.2 ⟨_, _, h9, h16⟩)
  rw [fill_nil] at h18
  have hp' := (hiff' bs off 0 c.values _ _).2 (createClass_inst hcls' ⟨hfree.1, fun d hd => by
    simp only [List.mem_append, List.mem_cons] at hd
    rcases hd with hd | rfl | hd
    · exact hfree.2 d (by simp [hd])
    · exact ⟨hfi.2.1, hfi.2.2.1⟩
    · exact hfree.2 d (by simp [hd])⟩) (by omega) _ h18 rfl
  obtain ⟨h19, h20⟩ := mapStream_of_parse hc hp'
  refine ⟨fill (pre.map Defn.name) a, fill (ms.map Defn.name) b, fill (post.map Defn.name) z, k, fill_keys _ _, fill_keys _ _,
    fill_keys _ _, ?_, hb, ?_, ?_⟩
  · rw [h2, List.nil_append, List.map_append, List.map_append, fill_append _ _ _ _ (by simp [ha, hbl]), fill_append _ _ _ _ (by simp [ha])]
  · rw [h19, List.nil_append, List.map_append, List.map_cons, List.append_assoc, fill_append _ _ _ _ (by simp [ha])]
    rfl
  · rw [h20]
    congr 1
    omega

/-- **C84** Conversely, whenever the structure with the structure within can be mapped, so can
the one whose members are all its own. -/
theorem C84_out {E : Env} {h : Hdr} {pre : List Defn} {g : Defn} {hi : Hdr} {ms post : List Defn}
    (hx : Extraction E h pre g hi ms post) {m m' : DMap}
    (hm : createMap E (.struct h (pre ++ ms ++ post)) = .ok m) (hm' : createMap E (.struct h (pre ++ g :: post)) = .ok m')
    (bs : Bytes) (off : Nat) (c : Ctx) (hc : c.Clean) (hu : Unaware E h.name c.values pre g hi.name ms post)
    (v : Val) (hv : (mapStream E m' bs off 0 c).1 = .ok v) :
    ∃ a b z k, a.map (·.1) = pre.map Defn.name ∧ b.map (·.1) = ms.map Defn.name ∧ z.map (·.1) = post.map Defn.name ∧
      v = .struct h.name (a ++ (g.name, .struct hi.name b) :: z) ∧ (mapStream E m' bs off 0 c).2.byteSize = some k ∧
      (mapStream E m bs off 0 c).1 = .ok (.struct h.name (a ++ b ++ z)) ∧
      (mapStream E m bs off 0 c).2.byteSize = some k := by
  have hm : createAs E h.name h.order (.struct h (pre ++ ms ++ post)) = .ok m := hm
  have hm' : createAs E h.name h.order (.struct h (pre ++ g :: post)) = .ok m' := hm'
  obtain ⟨maps, io, hmo, hcls, hiff⟩ := struct_parse_iff hx.flatTypes hx.flatOrder hm
  obtain ⟨maps', io', hmo', hcls', hiff'⟩ := struct_parse_iff hx.nestedTypes hx.nestedOrder hm'
  obtain ⟨gm, hgm, hgc⟩ := extraction_maps hx hmo'
  obtain ⟨mapsi, ioi, hmoi, hclsi, hiffi⟩ := struct_parse_iff (distinctTypes_middle hx.flatTypes) hx.innerOrder hgc
  obtain ⟨hl1, hl2, hl3⟩ := extraction_levels hx
  obtain ⟨k, hp, hb⟩ := mapStream_ok hc hv
  obtain ⟨hio', attrs, hpm, rfl⟩ := (hiff' bs off 0 c.values _ k).1 hp
  have hfree := createClass_free (hio' ▸ hcls')
  rw [← fill_nil] at hpm
  obtain ⟨vs, e, h1, h2, h3, h4⟩ := layout_of_members E h.name h.order bs 0 c.values _ (pre ++ g :: post) maps' hmo' [] rfl
    (createClass_nodup hcls').1 [] rfl off 0 k attrs hpm
  obtain ⟨a, q1, h7, h8⟩ := layout_append.1 h1
  obtain ⟨ha, -, -⟩ := layout_length h7
  simp only [List.length_nil, Nat.zero_add] at ha
  -- the members before
  obtain ⟨a', ha', h9⟩ := layout_move (cls' := h.name) (depth' := 0) (outer' := c.values)
    (names' := (pre ++ ms ++ post).map Defn.name) [] [] (fun x hx r fs => (hu.before x hx r fs).symm)
    (fun d hd => all2_mem hmo (by simp [hd])) (fun hn => absurd rfl hn) (fun d hd => ⟨hl1 d hd, hl1 d hd⟩) h7
  simp only [List.nil_append] at ha' h9
  subst ha'
  cases h8 with
  | absent hq _ =>
    rcases hx.always with hn | hn <;> cases hq with | cond hq hne => rw [hn] at hq; cases hq <;> exact absurd rfl hne
  | @present _ _ _ _ _ _ kg gm' vg _ hgm' hvg hkg _ h6 =>
  obtain rfl : gm' = gm := by
    obtain ⟨n, o, e1, e2⟩ := hgm
    obtain ⟨n', o', e1', e2'⟩ := hgm'
    rw [e1] at e1'; cases e1'
    rw [e2] at e2'; cases e2'
    rfl
  -- the structure within
  obtain ⟨kg', hpi, hkg'⟩ := mapStream_ok
    (c := { values := scope h.name ((pre ++ g :: post).map Defn.name) a c.values }) rfl hvg
  simp only [List.nil_append] at hkg
  rw [hkg] at hkg'
  cases hkg'
  obtain ⟨hioi, battrs, hpmi, rfl⟩ := (hiffi bs q1 1 (scope h.name ((pre ++ g :: post).map Defn.name) a c.values) _ kg).1 hpi
  have hfreei := createClass_free (hioi ▸ hclsi)
  rw [← fill_nil] at hpmi
  obtain ⟨b, q2, h10, h12, h13, h14⟩ := layout_of_members E hi.name h.order bs 1
    (scope h.name ((pre ++ g :: post).map Defn.name) a c.values) _ ms mapsi hmoi [] rfl
    (createClass_nodup hclsi).1 [] rfl q1 0 kg battrs hpmi
  simp only [List.nil_append] at h10 h12 h14
  obtain rfl : q2 = q1 + kg := by omega
  have hbl : b.length = ms.length := by simpa using h14
  subst h12
  -- the members within
  obtain ⟨b', hb', h15⟩ := layout_move (cls' := h.name) (depth' := 0) (outer' := c.values)
    (names' := (pre ++ ms ++ post).map Defn.name) (read := []) [] a (fun x hx r fs => (hu.within x hx a r ha fs).symm)
    (fun d hd => all2_mem hmo (by simp [hd])) (fun _ => hx.shown) (fun d hd => ⟨hl2 d hd, by have := hl2 d hd; omega⟩) h10
  simp only [List.nil_append, List.append_nil] at hb' h15
  subst hb'
  -- the members after
  rw [show a ++ [Val.struct hi.name (fill (ms.map Defn.name) b)] =
    a ++ [Val.struct hi.name (fill (ms.map Defn.name) b)] ++ [] by simp] at h6
  obtain ⟨z, hz, h11⟩ := layout_move (cls' := h.name) (depth' := 0) (outer' := c.values)
    (names' := (pre ++ ms ++ post).map Defn.name) (a ++ [.struct hi.name (fill (ms.map Defn.name) b)]) (a ++ b)
    (fun x hx r fs => by simpa using (hu.after x hx a b r ha hbl fs).symm)
    (fun d hd => all2_mem hmo (by simp [hd])) (fun hn => absurd rfl hn) (fun d hd => ⟨hl3 d hd, hl3 d hd⟩) h6
  subst hz
  rw [List.append_nil] at h11
  obtain ⟨h17, h18⟩ := members_of_layout E h.name h.order bs 0 c.values _ (pre ++ ms ++ post) maps hmo [] rfl
    (createClass_nodup hcls).1 [] rfl off 0 _ e (layout_append.2 ⟨_, _, layout_append.2 ⟨_, _, h9, h15⟩, h11⟩)
  rw [fill_nil] at h18
  have hp' := (hiff bs off 0 c.values _ _).2 (createClass_inst hcls ⟨hfree.1, fun d hd => by
    simp only [List.mem_append] at hd
    rcases hd with (hd | hd) | hd
    · exact hfree.2 d (by simp [hd])
    · exact ⟨(hfreei.2 d hd).1, (hx.names.2.2.2 d hd).2⟩
    · exact hfree.2 d (by simp [hd])⟩) (by omega) _ h18 rfl
  obtain ⟨h19, h20⟩ := mapStream_of_parse hc hp'
  refine ⟨fill (pre.map Defn.name) a, fill (ms.map Defn.name) b, fill (post.map Defn.name) z, k, fill_keys _ _, fill_keys _ _,
    fill_keys _ _, ?_, hb, ?_, ?_⟩
  · rw [h2, List.nil_append, List.map_append, List.map_cons, List.append_assoc, fill_append _ _ _ _ (by simp [ha])]
    rfl
  · rw [h19, List.nil_append, List.map_append, List.map_append, fill_append _ _ _ _ (by simp [ha, hbl]),
      fill_append _ _ _ _ (by simp [ha])]
  · rw [h20]
    congr 1
    omega

/-! ### Examples -/

theorem inside_append (fs gs : List (String × List (String × Val))) (ns : Namespace) :
    inside (fs ++ gs) ns = inside fs (inside gs ns) := by
  induction fs with
  | nil => rfl
  | cons f fs ih => obtain ⟨n, a⟩ := f; simp only [List.cons_append, inside, ih]

/-- The members of the example of C16: the last two are moved. -/
def exPre : List Defn := [.member { name := "a" } exU8 none (some "uint8") none]
def exMoved : List Defn :=
  [.member { name := "b" } exU16 (some "T.a == 1") (some "uint16") none,
    .member { name := "c" } exU8 none (some "uint8") (some [.int 5, .int 7])]
def exPost : List Defn := [.member { name := "d" } exU16 (some "T.a == 1") (some "uint16") none]
def exInner : Hdr := { name := "S", order := .little }
def exG : Defn := .member { name := "g" } (.struct exInner exMoved) none (some "S") none

theorem exExtraction : Extraction exEnvE { name := "T", order := .little } exPre exG exInner exMoved exPost where
  type := rfl
  order := rfl
  always := .inl rfl
  values := .inl rfl
  flatTypes := by simp [DistinctTypes, exPre, exMoved, exPost, exU8, exU16, Defn.target, Defn.name, Defn.hdr]
  nestedTypes := by simp [DistinctTypes, exPre, exG, exInner, exPost, exU8, exU16, Defn.target, Defn.name, Defn.hdr]
  flatOrder := by
    intro hh
    have := hh (.member { name := "b" } exU16 (some "T.a == 1") (some "uint16") none) (by simp [exMoved])
    simp [Defn.isComposite, truthyStr] at this
  nestedOrder := by
    intro hh
    have := hh (.member { name := "d" } exU16 (some "T.a == 1") (some "uint16") none) (by simp [exPost])
    simp [Defn.isComposite, truthyStr] at this
  innerOrder := by
    intro hh
    have := hh (.member { name := "b" } exU16 (some "T.a == 1") (some "uint16") none) (by simp [exMoved])
    simp [Defn.isComposite, truthyStr] at this
  names := by simp [exInner, exG, exMoved, Defn.name, Defn.hdr]
  shown := by simp [Renamed, exMoved, exU8, exU16, Defn.target]
  levels := by decide

/-- Conditions on the first member notice nothing. -/
theorem exUnaware : Unaware exEnvE "T" [] exPre exG "S" exMoved exPost where
  before := by
    intro e he
    simp [namesUsedByAll, namesUsedBy, exPre, exU8] at he
  within := by
    intro e he a read ha fs
    have he : e = "T.a == 1" := by
      simp [namesUsedByAll, namesUsedBy, exMoved, exU8, exU16] at he
      exact he
    subst he
    have := inside_own (cls := "T") (names := (exPre ++ exG :: exPost).map Defn.name) (read := a) (by decide)
      (fs ++ [("S", fill (exMoved.map Defn.name) read)])
    rw [inside_append] at this
    simp only [exEnvE, if_pos]
    rw [inside_own (by decide), show scope "S" (exMoved.map Defn.name) read
        (scope "T" ((exPre ++ exG :: exPost).map Defn.name) a []) =
      inside [("S", fill (exMoved.map Defn.name) read)] (scope "T" ((exPre ++ exG :: exPost).map Defn.name) a []) from rfl, this]
    cases a with
    | nil => cases ha
    | cons v a => rfl
  after := by
    intro e he a b read ha hb fs
    have he : e = "T.a == 1" := by
      simp [namesUsedByAll, namesUsedBy, exPost, exU16] at he
      exact he
    subst he
    simp only [exEnvE, if_pos]
    rw [inside_own (by decide), inside_own (by decide)]
    cases a with
    | nil => cases ha
    | cons v a => rfl

example : ∃ m m', createMap exEnvE (.struct { name := "T", order := .little } (exPre ++ exMoved ++ exPost)) = .ok m ∧
    createMap exEnvE (.struct { name := "T", order := .little } (exPre ++ exG :: exPost)) = .ok m' ∧
    (mapStream exEnvE m [1, 2, 0, 5, 6, 0] 0 0 {}).1 =
      .ok (.struct "T" [("a", .int 1), ("b", .int 2), ("c", .int 5), ("d", .int 6)]) ∧
    (mapStream exEnvE m' [1, 2, 0, 5, 6, 0] 0 0 {}).1 =
      .ok (.struct "T" [("a", .int 1), ("g", .struct "S" [("b", .int 2), ("c", .int 5)]), ("d", .int 6)]) ∧
    (mapStream exEnvE m' [1, 2, 0, 5, 6, 0] 0 0 {}).2.byteSize = some 6 := by
  exact ⟨_, _, rfl, rfl, rfl, rfl, rfl⟩

/-- Expressions as in `exEnvE`; an attribute that does not exist is an error. -/
def exEnvA : Env :=
  { exEnv with
    evalExpr := fun s ns =>
      if s = "T.a == 1" then
        match nsGet ns "T" with
        | some (.struct _ attrs) => (nsGet attrs "a").map fun v => .bool (pyEq v (.int 1))
        | _ => none
      else none }

/-- An expression that uses a moved member under its old name notices: the structure with
the structure within can not be mapped. -/
theorem C84_noticed : ∃ m m',
    createMap exEnvA (.struct { name := "T", order := .little } (exPre ++ exPost)) = .ok m ∧
    createMap exEnvA (.struct { name := "T", order := .little }
      (.member { name := "g" } (.struct exInner exPre) none (some "S") none :: exPost)) = .ok m' ∧
    (mapStream exEnvA m [1, 6, 0] 0 0 {}).1 = .ok (.struct "T" [("a", .int 1), ("d", .int 6)]) ∧
    (mapStream exEnvA m' [1, 6, 0] 0 0 {}).1 = .error .mapping := by
  exact ⟨_, _, rfl, rfl, rfl, rfl⟩

/-- A structure without byte order shows the name of the structure it is a member of. -/
theorem C84_shown : ∃ d m m',
    createMap exEnv (.struct { name := "T", order := .little } [d]) = .ok m ∧
    createMap exEnv (.struct { name := "T", order := .little }
      [.member { name := "g" } (.struct exInner [d]) none (some "S") none]) = .ok m' ∧
    (mapStream exEnv m [7] 0 0 {}).1 = .ok (.struct "T" [("p", .struct "_T_P" [("a", .int 7)])]) ∧
    (mapStream exEnv m' [7] 0 0 {}).1 =
      .ok (.struct "T" [("g", .struct "S" [("p", .struct "_S_P" [("a", .int 7)])])]) := by
  exact ⟨.member { name := "p" } (.struct { name := "P" } exPre) none (some "P") none, _, _, rfl, rfl, rfl, rfl⟩

end Dtf
