import Verif.Layout
import Verif.Equality
import Verif.Props.Mapping
/-!
# Properties C16, C18, C19, C24, C25 (structures) and C37: structures

`createAs E nm o d` is the map of the definition `d` under the name `nm` and with
the byte order `o`: `createMap E d` is the case of its own name and byte order,
the other cases are the copies made for structure members.
-/
namespace Dtf

namespace Spec

/-- In the list of the byte order of the structure and those of its members no two
neighbours declare different byte orders. -/
def Smooth (so : Order) (ms : List Defn) : Prop :=
  ∀ pre a b post, so :: ms.map (fun d => d.target.order?.getD .native) = pre ++ a :: b :: post →
    a = .native ∨ b = .native ∨ a = b

/-- If all members are fixed-size primitives and no two neighbours declare different
byte orders (the structures the code reads in one go), no member declares another
byte order than the structure, and no member has padding as its named type
(definition files can not name padding). -/
def OneOrder (E : Env) (so : Order) (ms : List Defn) : Prop :=
  (∀ d ∈ ms, d.isComposite = false ∧ ∀ h a, d ≠ .padding h a) → Smooth so ms →
    OrdersAgree E so ms ∧ ∀ d ∈ ms, ∀ h a, d.target ≠ .padding h a

/-- The byte order a member is to be read in: its own if it declares one, else that
of the structure. -/
def effectiveOrder (so : Order) (d : Defn) : Order :=
  match d.target.order? with
  | some .little => .little
  | some .big => .big
  | _ => so

/-- The name under which the map of a member is created: that of its type, which for a type
without byte order in a structure `nm` with one is that of a copy. -/
def effectiveName (nm : String) (so : Order) (d : Defn) : String :=
  if so ≠ .native ∧ d.target.order? = some .native then "_" ++ nm ++ "_" ++ d.target.name else d.target.name

end Spec
open Spec

theorem mapStream_of_parse {E : Env} {m : DMap} {bs : Bytes} {off depth : Nat} {c : Ctx}
    (hc : c.Clean) {v : Val} {n : Nat} (h : parse E m bs off depth c.values = .ok (v, n)) :
    (mapStream E m bs off depth c).1 = .ok v ∧ (mapStream E m bs off depth c).2.byteSize = some n := by
  have hr := refines E m bs off depth c hc
  rw [h] at hr
  exact ⟨hr.1, hr.2.1⟩

theorem noncomposite_of_linear {o : Order} {ms : List Defn} (h : checkLinear o ms = .ok true) :
    ∀ d ∈ ms, d.isComposite = false ∧ ∀ h a, d ≠ .padding h a :=
  fun d hd => ⟨(checkLinear_true h d hd).1, (checkLinear_true h d hd).2.2.2⟩

theorem smooth_of_linear {o : Order} {ms : List Defn} (h : checkLinear o ms = .ok true) : Smooth o ms := by
  induction ms generalizing o with
  | nil =>
    intro pre a b post he
    have := congrArg List.length he
    simp at this
    omega
  | cons d ds ih =>
    rw [checkLinear.eq_def] at h
    simp only at h
    split at h
    · simp at h
    split at h
    · cases h
    split at h
    · cases h
    rename_i o' ho'
    split at h
    · cases h
    rename_i hcl
    have hod : d.target.order?.getD .native = o' := by
      cases d <;> simp_all [Defn.order?, Defn.target]
    intro pre a b post he
    rw [List.map_cons, hod] at he
    cases pre with
    | nil =>
      simp only [List.nil_append, List.cons.injEq] at he
      obtain ⟨rfl, rfl, -⟩ := he
      by_cases h1 : o = .native
      · exact .inl h1
      by_cases h2 : o' = .native
      · exact .inr (.inl h2)
      by_cases h3 : o = o'
      · exact .inr (.inr h3)
      exact absurd ⟨h1, h2, h3⟩ hcl
    | cons x pre =>
      simp only [List.cons_append, List.cons.injEq] at he
      exact ih h pre a b post he.2

/-- Instances can be created unless a member hides `super` or the class name. -/
theorem createClass_inst {E : Env} {nm : String} {ds : Option String} {ms : List Defn} {io : Bool}
    (hcls : createClass E nm ds ms = .ok io)
    (hs : nm ≠ "super" ∧ ∀ d ∈ ms, d.name ≠ "super" ∧ d.name ≠ nm) : io = true := by
  unfold createClass at hcls
  simp only at hcls
  split at hcls
  · cases hcls
  split at hcls
  · cases hcls
  split at hcls
  · cases hcls
  split at hcls
  · cases hcls
  cases hcls
  simp only [Bool.not_eq_true', Bool.or_eq_false_iff, List.contains_eq_mem, decide_eq_false_iff_not,
    List.mem_map, beq_eq_false_iff_ne]
  refine ⟨⟨?_, ?_⟩, hs.1⟩
  · rintro ⟨d, hd, he⟩; exact (hs.2 d hd).1 he
  · rintro ⟨d, hd, he⟩; exact (hs.2 d hd).2 he

/-! ### C16 -/

/-- A structure map succeeds exactly if its members can be read one by one. -/
theorem struct_parse_iff {E : Env} {nm : String} {o : Order} {h : Hdr} {ms : List Defn} {m : DMap}
    (hdt : DistinctTypes ms) (ho : OneOrder E o ms)
    (hm : createAs E nm o (.struct h ms) = .ok m) :
    ∃ maps io, All2 (MapOf E nm o) ms maps ∧ createClass E nm h.description ms = .ok io ∧
      ∀ bs off depth outer v n,
        (parse E m bs off depth outer = .ok (v, n) → io = true ∧
          ∃ attrs, parseMembers E nm bs depth outer (ms.map Defn.memInfo) maps off 0
            (newInstance (ms.map Defn.name)) = .ok (attrs, n) ∧ v = .struct nm attrs) ∧
        (io = true → depth ≤ 10 →
          ∀ attrs, parseMembers E nm bs depth outer (ms.map Defn.memInfo) maps off 0
            (newInstance (ms.map Defn.name)) = .ok (attrs, n) → v = .struct nm attrs →
            parse E m bs off depth outer = .ok (v, n)) := by
  obtain ⟨io, infos, maps, l, hcls, hmem, hlin, heq, -⟩ := createAs_struct hm
  have hmo := createMembers_mapOf E nm o ms hdt ms (fun d hd => hd) [] (by simp) _ _ hmem
  have hinf := (createMembers_all E nm o (fun _ => True) ms
    (fun _ _ _ _ _ _ => trivial) [] (by simp) _ _ hmem).1
  subst hinf
  have hnames : (ms.map Defn.memInfo).map (·.name) = ms.map Defn.name := by
    simp [memInfo_name]
  refine ⟨maps, io, hmo, hcls, ?_⟩
  intro bs off depth outer v n
  cases l with
  | true =>
    obtain ⟨ho1, ho2⟩ := ho (noncomposite_of_linear hlin) (smooth_of_linear hlin)
    subst heq
    have := linear_iff hdt ho1 ho2 hm bs off depth outer v n
    rw [hnames] at this
    simp only [parse, if_true]
    refine ⟨this.mp, fun hio hd attrs hp hv => ?_⟩
    exact this.mpr ⟨hio, attrs, hp, hv⟩
  | false =>
    subst heq
    simp only [parse, Bool.false_eq_true, if_false, hnames]
    constructor
    · intro hp
      split at hp
      · cases hp
      split at hp
      · cases hp
      rename_i hio
      split at hp
      · cases hp
      split at hp
      · cases hp
      rename_i attrs k hpm
      cases hp
      exact ⟨by simpa using hio, attrs, hpm, rfl⟩
    · intro hio hd attrs hp hv
      rw [if_neg (by omega), if_neg (by simp [hio]), if_neg, hp, hv]
      simpa using (createClass_nodup hcls).2

/-- **C16** When a structure map succeeds, its present members were mapped in
declaration order, each starting where the previous present member ended, and
each attribute holds the value its member type maps to at that position; all
bytes counted by `context.byte_size` are those of members. -/
theorem C16_layout (E : Env) (nm : String) (o : Order) (h : Hdr) (ms : List Defn)
    (hdt : DistinctTypes ms) (ho : OneOrder E o ms) (m : DMap)
    (hm : createAs E nm o (.struct h ms) = .ok m)
    (bs : Bytes) (off depth : Nat) (c : Ctx) (hc : c.Clean) (v : Val)
    (hv : (mapStream E m bs off depth c).1 = .ok v) :
    ∃ vs n, Layout E bs depth c.values nm o (ms.map Defn.name) [] ms off vs (off + n) ∧
      vs.length = ms.length ∧ v = .struct nm (fill (ms.map Defn.name) vs) ∧
      (mapStream E m bs off depth c).2.byteSize = some n := by
  obtain ⟨n, hp, hb⟩ := mapStream_ok hc hv
  obtain ⟨maps, io, hmo, hcls, hiff⟩ := struct_parse_iff hdt ho hm
  obtain ⟨-, attrs, hpm, rfl⟩ := (hiff bs off depth c.values v n).1 hp
  rw [← fill_nil] at hpm
  obtain ⟨vs, e, h1, rfl, h3, h4⟩ := layout_of_members E nm o bs depth c.values _ ms maps hmo [] rfl
    (createClass_nodup hcls).1 [] rfl off 0 n attrs hpm
  have : e = off + n := by omega
  subst this
  exact ⟨vs, n, h1, by simpa using h4, rfl, hb⟩

/-- **C16** Conversely, when the members can be laid out one after the other from
the offset on, the structure map succeeds with the values of the layout, unless a
member hides a name needed to create the object (`super` or the class name) or the
recursion limit is exceeded. -/
theorem C16_complete (E : Env) (nm : String) (o : Order) (h : Hdr) (ms : List Defn)
    (hdt : DistinctTypes ms) (ho : OneOrder E o ms) (m : DMap)
    (hm : createAs E nm o (.struct h ms) = .ok m)
    (hs : nm ≠ "super" ∧ ∀ d ∈ ms, d.name ≠ "super" ∧ d.name ≠ nm)
    (bs : Bytes) (off depth : Nat) (hd : depth ≤ 10) (c : Ctx) (hc : c.Clean)
    (vs : List Val) (e : Nat)
    (hl : Layout E bs depth c.values nm o (ms.map Defn.name) [] ms off vs e) :
    (mapStream E m bs off depth c).1 = .ok (.struct nm (fill (ms.map Defn.name) vs)) ∧
      ∃ n, (mapStream E m bs off depth c).2.byteSize = some n ∧ e = off + n := by
  obtain ⟨maps, io, hmo, hcls, hiff⟩ := struct_parse_iff hdt ho hm
  have hio : io = true := createClass_inst hcls hs
  obtain ⟨h1, h2⟩ := members_of_layout E nm o bs depth c.values _ ms maps hmo [] rfl
    (createClass_nodup hcls).1 [] rfl off 0 vs e hl
  rw [fill_nil] at h2
  have hp := (hiff bs off depth c.values _ _).2 hio hd _ h2 rfl
  have := mapStream_of_parse hc hp
  exact ⟨this.1, _, this.2, by omega⟩

/-- A platform for the examples with three expressions. -/
def exEnvE : Env :=
  { exEnv with
    evalExpr := fun s ns =>
      if s = "T.a == 1" then
        (nsGet ns "T").map fun t => .bool (pyEq (getAttr t "a") (.int 1))
      else if s = "T.a" then (nsGet ns "T").map fun t => getAttr t "a"
      else none }

/-- `struct { uint8 a; uint16 b if T.a == 1; uint8 c in (5, 7); }`. -/
def exCond : Defn :=
  .struct { name := "T", order := .little }
    [.member { name := "a" } exU8 none (some "uint8") none,
      .member { name := "b" } exU16 (some "T.a == 1") (some "uint16") none,
      .member { name := "c" } exU8 none (some "uint8") (some [.int 5, .int 7])]

/-- The conditions of the theorem are met by the example, which maps to different
layouts depending on the first byte. -/
example : ∃ h ms m, exCond = .struct h ms ∧ DistinctTypes ms ∧ OneOrder exEnvE h.order ms ∧
    createMap exEnvE exCond = .ok m ∧
    (mapStream exEnvE m [9, 1, 2, 0, 5] 1 0 {}).1 =
      .ok (.struct "T" [("a", .int 1), ("b", .int 2), ("c", .int 5)]) ∧
    (mapStream exEnvE m [9, 1, 2, 0, 5] 1 0 {}).2.byteSize = some 4 ∧
    (mapStream exEnvE m [9, 0, 7, 0, 5] 1 0 {}).1 =
      .ok (.struct "T" [("a", .int 0), ("b", .pyNone), ("c", .int 7)]) ∧
    (mapStream exEnvE m [9, 0, 7, 0, 5] 1 0 {}).2.byteSize = some 2 := by
  refine ⟨_, _, _, rfl, ?_, ?_, rfl, rfl, rfl, rfl, rfl⟩
  · simp [DistinctTypes, exU8, exU16, Defn.target, Defn.name, Defn.hdr]
  · intro hh
    have := hh (.member { name := "b" } exU16 (some "T.a == 1") (some "uint16") none) (by simp)
    simp [Defn.isComposite, truthyStr] at this

/-! ### C18: conditions gate members -/

theorem Layout.append {E : Env} {bs : Bytes} {depth : Nat} {outer : Namespace} {cls : String} {so : Order}
    {names : List String} {pre post : List Defn} {read vs : List Val} {p e : Nat}
    (h : Layout E bs depth outer cls so names read (pre ++ post) p vs e) :
    ∃ mid q, Layout E bs depth outer cls so names read pre p mid q ∧
      Layout E bs depth outer cls so names mid post q vs e := by
  induction pre generalizing read p with
  | nil => exact ⟨read, p, .done _ _, h⟩
  | cons d pre ih =>
    cases h with
    | absent hc h =>
      obtain ⟨mid, q, h1, h2⟩ := ih h
      exact ⟨mid, q, .absent hc h1, h2⟩
    | present hc hm hv hk hs h =>
      obtain ⟨mid, q, h1, h2⟩ := ih h
      exact ⟨mid, q, .present hc hm hv hk hs h1, h2⟩

theorem Layout.prefix {E : Env} {bs : Bytes} {depth : Nat} {outer : Namespace} {cls : String} {so : Order}
    {names : List String} {ms : List Defn} {read vs : List Val} {p e : Nat}
    (h : Layout E bs depth outer cls so names read ms p vs e) :
    ∃ rest, vs = read ++ rest ∧ rest.length = ms.length := by
  induction h with
  | done => exact ⟨[], by simp⟩
  | absent _ _ ih => obtain ⟨r, rfl, hl⟩ := ih; exact ⟨.pyNone :: r, by simp [hl]⟩
  | @present _ _ _ _ _ _ _ _ v _ _ _ _ _ _ ih => obtain ⟨r, rfl, hl⟩ := ih; exact ⟨v :: r, by simp [hl]⟩

theorem Layout.mono {E : Env} {bs : Bytes} {depth : Nat} {outer : Namespace} {cls : String} {so : Order}
    {names : List String} {ms : List Defn} {read vs : List Val} {p e : Nat}
    (h : Layout E bs depth outer cls so names read ms p vs e) : p ≤ e := by
  induction h with
  | done => exact Nat.le_refl _
  | absent _ _ ih => exact ih
  | present _ _ _ _ _ _ ih => omega

theorem fill_get (pre : List String) (n : String) (post : List String) (vpre : List Val) (x : Val)
    (rest : List Val) (hl : vpre.length = pre.length) (hn : (pre ++ n :: post).Nodup) :
    nsGet (fill (pre ++ n :: post) (vpre ++ x :: rest)) n = some x := by
  induction pre generalizing vpre with
  | nil =>
    cases vpre with
    | cons => simp at hl
    | nil => simp [fill, nsGet]
  | cons a pre ih =>
    cases vpre with
    | nil => simp at hl
    | cons v vpre =>
      simp only [List.cons_append, List.nodup_cons, List.length_cons, Nat.add_right_cancel_iff] at *
      have : a ≠ n := by rintro rfl; exact hn.1 (by simp)
      have := ih vpre hl hn.2
      simp only [fill, nsGet] at this ⊢
      rw [List.find?_cons_of_neg (by simpa)]
      exact this

/-- **C18** In a successful mapping, a member with a condition has been mapped if
its condition evaluates to True over the members read so far, and is None and has
consumed no bytes if the condition evaluates to False; no other outcome of the
condition is possible. -/
theorem C18_gate (E : Env) (nm : String) (o : Order) (h : Hdr) (pre post : List Defn) (d : Defn)
    (hdt : DistinctTypes (pre ++ d :: post)) (cond : String) (hcd : d.memInfo.condition = some cond)
    (hne : cond ≠ "") (m : DMap) (hm : createAs E nm o (.struct h (pre ++ d :: post)) = .ok m)
    (bs : Bytes) (off depth : Nat) (c : Ctx) (hc : c.Clean) (v : Val)
    (hv : (mapStream E m bs off depth c).1 = .ok v) (names : List String)
    (hnames : names = (pre ++ d :: post).map Defn.name) :
    ∃ n vs vpre p, (mapStream E m bs off depth c).2.byteSize = some n ∧
      v = .struct nm (fill names vs) ∧
      Layout E bs depth c.values nm o names [] pre off vpre p ∧
      ((E.evalExpr cond (withBuiltins (scope nm names vpre c.values)) = some (.bool true) ∧
        ∃ md x k, MapOf E nm o d md ∧
          (mapStream E md bs p (depth + 1) { values := scope nm names vpre c.values }).1 = .ok x ∧
          (mapStream E md bs p (depth + 1) { values := scope nm names vpre c.values }).2.byteSize = some k ∧
          getAttr v d.name = x ∧
          Layout E bs depth c.values nm o names (vpre ++ [x]) post (p + k) vs (off + n)) ∨
      (E.evalExpr cond (withBuiltins (scope nm names vpre c.values)) = some (.bool false) ∧
        getAttr v d.name = .pyNone ∧
        Layout E bs depth c.values nm o names (vpre ++ [.pyNone]) post p vs (off + n))) := by
  have ho : OneOrder E o (pre ++ d :: post) := by
    intro hh
    have := (hh d (by simp)).1
    cases d <;> simp [Defn.memInfo] at hcd
    subst hcd
    simp [Defn.isComposite, truthyStr, hne] at this
  obtain ⟨vs, n, hl, hlen, hv', hb⟩ := C16_layout E nm o h _ hdt ho m hm bs off depth c hc v hv
  have hnd : names.Nodup := by
    obtain ⟨io, infos, maps, l, hcls, -⟩ := createAs_struct hm
    rw [hnames]; exact (createClass_nodup hcls).1
  rw [← hnames] at hl hv'
  obtain ⟨vpre, p, h1, h2⟩ := Layout.append hl
  obtain ⟨r1, hr1, hrl⟩ := Layout.prefix h1
  have hvl : vpre.length = (pre.map Defn.name).length := by rw [hr1]; simp [hrl]
  refine ⟨n, vs, vpre, p, hb, hv', h1, ?_⟩
  have hget : ∀ x rest, vs = vpre ++ x :: rest → getAttr v d.name = x := by
    rintro x rest rfl
    rw [hv', getAttr, hnames, List.map_append, List.map_cons,
      fill_get _ _ _ _ _ _ hvl (by rw [hnames, List.map_append, List.map_cons] at hnd; exact hnd)]
    rfl
  cases h2 with
  | absent hp h2 =>
    right
    obtain ⟨rest, hr, -⟩ := Layout.prefix h2
    cases hp with
    | cond hc' _ he =>
      rw [hcd] at hc'; cases hc'
      exact ⟨he, hget _ rest (by simp [hr]), h2⟩
  | @present _ _ _ _ _ _ k md x hp hmd hx hk hs h2 =>
    left
    obtain ⟨rest, hr, -⟩ := Layout.prefix h2
    cases hp with
    | always hh => rw [hcd] at hh; simp [hne] at hh
    | cond hc' _ he =>
      rw [hcd] at hc'; cases hc'
      exact ⟨he, md, x, k, hmd, hx, hk, hget _ rest (by simp [hr]), h2⟩

/-- **C18** When the members before have been read and the condition of a member
fails to evaluate or gives no boolean, the result is a MappingError. -/
theorem C18_error (E : Env) (nm : String) (o : Order) (h : Hdr) (pre post : List Defn) (d : Defn)
    (hdt : DistinctTypes (pre ++ d :: post)) (cond : String) (hcd : d.memInfo.condition = some cond)
    (hne : cond ≠ "") (m : DMap) (hm : createAs E nm o (.struct h (pre ++ d :: post)) = .ok m)
    (hs : nm ≠ "super" ∧ ∀ d' ∈ pre ++ d :: post, d'.name ≠ "super" ∧ d'.name ≠ nm)
    (bs : Bytes) (off depth : Nat) (c : Ctx) (hc : c.Clean) (names : List String)
    (hnames : names = (pre ++ d :: post).map Defn.name) (vpre : List Val) (p : Nat)
    (hl : Layout E bs depth c.values nm o names [] pre off vpre p)
    (he : ∀ b, E.evalExpr cond (withBuiltins (scope nm names vpre c.values)) ≠ some (.bool b)) :
    (mapStream E m bs off depth c).1 = .error .mapping := by
  rw [mapStream_error hc]
  obtain ⟨io, infos, maps, l, hcls, hmem, hlin, rfl, -⟩ := createAs_struct hm
  have hmo := createMembers_mapOf E nm o _ hdt _ (fun d hd => hd) [] (by simp) _ _ hmem
  have hinf := (createMembers_all E nm o (fun _ => True) _
    (fun _ _ _ _ _ _ => trivial) [] (by simp) _ _ hmem).1
  subst hinf
  have hlf : l = false := by
    cases l with
    | false => rfl
    | true =>
      have := (checkLinear_true hlin d (by simp)).1
      cases d <;> simp [Defn.memInfo] at hcd
      subst hcd
      simp [Defn.isComposite, truthyStr, hne] at this
  subst hlf
  have hio : io = true := createClass_inst hcls hs
  simp only [parse, Bool.false_eq_true, if_false]
  split
  · rfl
  rw [if_neg (by simp [hio]), if_neg (by simp)]
  have hn2 : ((pre ++ d :: post).map Defn.memInfo).map (·.name) = names := by
    rw [hnames, List.map_map]
    exact List.map_congr_left fun d _ => memInfo_name d
  have hnd : names.Nodup := by rw [hnames]; exact (createClass_nodup hcls).1
  obtain ⟨h1, h2, maps', h3, h4⟩ := parseMembers_prefix E nm o bs depth c.values names pre (d :: post) maps
    hmo [] hnames hnd [] rfl off 0 vpre p hl
  rw [hn2, ← fill_nil, h4]
  cases h3 with
  | cons hmd h3 =>
    rw [List.map_cons, parseMembers]
    have : evalCondition E d.memInfo (structNs nm (fill names vpre) c.values) = .error .mapping := by
      unfold evalCondition
      rw [hcd]
      have ht : truthyStr (some cond) = true := by simpa [truthyStr] using hne
      simp only [ht, if_true, Option.bind_some]
      have he' : ∀ b, E.evalExpr cond (withBuiltins (structNs nm (fill names vpre) c.values)) ≠
        some (.bool b) := he
      split
      · rename_i b hb; exact absurd hb (he' b)
      · rfl
    simp [this]

/-- The example of C16 has a member with a condition; with other expressions it
fails with a MappingError after reading the first member. -/
example : ∃ m, createMap exEnv exCond = .ok m ∧
    (mapStream exEnv m [1, 2, 0, 5] 0 0 {}).1 = .error .mapping := ⟨_, rfl, rfl⟩

/-! ### C19: supported values are enforced -/

/-- A value of a member is supported, or the member has a condition and is absent. -/
def MemberOk (i : MemInfo) (v : Val) : Prop :=
  valueOk i v = true ∨ (v = .pyNone ∧ truthyStr i.condition = true)

theorem parseMembers_ok (E : Env) (cls : String) (bs : Bytes) (depth : Nat) (outer : Namespace)
    (names : List String) (infos : List MemInfo) (maps : List DMap) (hl : infos.length = maps.length)
    (pre : List String) (hn : names = pre ++ infos.map (·.name)) (hnd : names.Nodup) (read : List Val)
    (hr : read.length = pre.length) (off used : Nat) (attrs : List (String × Val)) (k : Nat)
    (h : parseMembers E cls bs depth outer infos maps off used (fill names read) = .ok (attrs, k)) :
    ∃ ws, attrs = fill names (read ++ ws) ∧ All2 MemberOk infos ws := by
  induction infos generalizing maps pre read off used with
  | nil =>
    cases maps with
    | cons => simp at hl
    | nil =>
      simp only [parseMembers, Except.ok.injEq, Prod.mk.injEq] at h
      exact ⟨[], by rw [List.append_nil, h.1], .nil⟩
  | cons i infos ih =>
    cases maps with
    | nil => simp at hl
    | cons m maps =>
    have hn' : names = (pre ++ [i.name]) ++ infos.map (·.name) := by simp [hn]
    rw [parseMembers] at h
    split at h
    · cases h
    · rename_i hc
      rw [← fill_none names read (by rw [hn]; simp [hr])] at h
      obtain ⟨ws, h1, h2⟩ := ih maps (by simpa using hl) (pre ++ [i.name]) hn' (read ++ [.pyNone])
        (by simp [hr]) _ _ h
      refine ⟨.pyNone :: ws, by simp [h1], .cons (.inr ⟨rfl, ?_⟩) h2⟩
      unfold evalCondition at hc
      split at hc
      · assumption
      · cases hc
    · split at h
      · cases h
      · rename_i v n hv
        split at h
        · cases h
        · rename_i hvo
          rw [hn, List.map_cons, fill_set pre i.name _ read hr
            (by rw [hn, List.map_cons] at hnd; exact hnd) v, ← List.map_cons, ← hn] at h
          obtain ⟨ws, h1, h2⟩ := ih maps (by simpa using hl) (pre ++ [i.name]) hn' (read ++ [v])
            (by simp [hr]) _ _ h
          exact ⟨v :: ws, by simp [h1], .cons (.inl (by simpa using hvo)) h2⟩

theorem linearValues_ok {infos : List MemInfo} {maps : List DMap} {vs xs : List Val}
    (hl : vs.length = infos.length)
    (h : linearValues infos maps vs = some xs) : All2 MemberOk infos xs := by
  induction vs generalizing infos maps xs with
  | nil =>
    cases infos with
    | nil => simp [linearValues] at h; subst h; exact .nil
    | cons => simp at hl
  | cons v vs ih =>
    cases infos with
    | nil => simp at hl
    | cons i infos =>
    cases maps <;> simp only [linearValues] at h <;> try cases h
    split at h <;> try cases h
    split at h <;> try cases h
    split at h <;> try cases h
    rename_i hvo
    rw [Option.map_eq_some_iff] at h
    obtain ⟨ys, h1, rfl⟩ := h
    exact .cons (.inl hvo) (ih (by simpa using hl) h1)

theorem unpackAll_length (E : Env) (o : Order) (cs : List Code) (b : Bytes) :
    (unpackAll E o cs b).length = cs.length := by
  induction cs generalizing b with
  | nil => simp [unpackAll]
  | cons c cs ih => simp [unpackAll, ih]

theorem All2.mem_fill {infos : List MemInfo} {ws : List Val} (h : All2 MemberOk infos ws)
    (hnd : (infos.map (·.name)).Nodup) {i : MemInfo} (hi : i ∈ infos) :
    ∃ v, nsGet (fill (infos.map (·.name)) ws) i.name = some v ∧ MemberOk i v := by
  induction h with
  | nil => simp at hi
  | @cons j w infos ws hj h ih =>
    simp only [List.map_cons, List.nodup_cons] at hnd
    rw [List.mem_cons] at hi
    rcases hi with rfl | hi
    · exact ⟨w, by simp [fill, nsGet], hj⟩
    · obtain ⟨v, h1, h2⟩ := ih hnd.2 hi
      refine ⟨v, ?_, h2⟩
      have : j.name ≠ i.name := by
        intro he
        exact hnd.1 (by rw [he]; exact List.mem_map.mpr ⟨i, hi, rfl⟩)
      simp only [List.map_cons, fill, nsGet] at h1 ⊢
      rw [List.find?_cons_of_neg (by simpa)]
      exact h1

/-- **C19** When a structure maps successfully, every member that declares
supported values has one of them, unless it has a condition and is absent. -/
theorem C19_supported (E : Env) (nm : String) (o : Order) (h : Hdr) (ms : List Defn) (m : DMap)
    (hm : createAs E nm o (.struct h ms) = .ok m)
    (bs : Bytes) (off depth : Nat) (c : Ctx) (hc : c.Clean) (v : Val)
    (hv : (mapStream E m bs off depth c).1 = .ok v) (d : Defn) (hd : d ∈ ms) (vals : List Lit)
    (hvals : d.memInfo.values = some vals) (hne : vals ≠ []) :
    (∃ x ∈ vals, Equals (getAttr v d.name) x) ∨
      (getAttr v d.name = .pyNone ∧ ∃ cond, d.memInfo.condition = some cond ∧ cond ≠ "") := by
  simp only [← pyEq_iff]
  have hm0 := hm
  obtain ⟨n, hp, -⟩ := mapStream_ok hc hv
  obtain ⟨io, infos, maps, l, hcls, hmem, hlin, rfl, -⟩ := createAs_struct hm
  have hall := (createMembers_all E nm o (fun _ => True) ms
    (fun _ _ _ _ _ _ => trivial) [] (by simp) _ _ hmem)
  have hinf := hall.1
  subst hinf
  have hnames : (ms.map Defn.memInfo).map (·.name) = ms.map Defn.name := by simp [memInfo_name]
  have hnd : ((ms.map Defn.memInfo).map (·.name)).Nodup := by
    rw [hnames]; exact (createClass_nodup hcls).1
  have hlen : (ms.map Defn.memInfo).length = maps.length := by simpa using hall.2.1.symm
  have key : ∃ ws, v = .struct nm (fill ((ms.map Defn.memInfo).map (·.name)) ws) ∧
      All2 MemberOk (ms.map Defn.memInfo) ws := by
    simp only [parse] at hp
    split at hp
    · rename_i hl
      subst hl
      unfold linearStructParse at hp
      split at hp
      · cases hp
      split at hp
      · cases hp
      cases hop : (DMap.struct { h with name := nm, order := o } (Defn.struct h ms).byteSize true io
        (ms.map Defn.memInfo) maps).op with
      | none => simp only [hop] at hp; simp at hp
      | some op =>
        have hpr := (struct_op hm0 op hop).2
        simp only [hop, Option.bind_some] at hp
        split at hp
        · cases hp
        rename_i vs hvs
        unfold Op.readFrom at hvs
        split at hvs
        · cases hvs
        cases hvs
        split at hp
        · cases hp
        rename_i xs hxs
        have hul := unpackAll_length E op.order op.codes (bs.drop off)
        have hxl := linearValues_length hxs
        rw [newInstanceArgs_fill _ _ (by rw [hxl, hul, ← hpr.length_eq, ← hlen]; simp)] at hp
        simp only at hp
        split at hp
        · cases hp
          exact ⟨xs, rfl, linearValues_ok (by rw [hul, ← hpr.length_eq, hlen]) hxs⟩
        · cases hp
    · split at hp
      · cases hp
      split at hp
      · cases hp
      split at hp
      · cases hp
      split at hp
      · cases hp
      rename_i attrs k hpm
      cases hp
      rw [← fill_nil] at hpm
      obtain ⟨ws, h1, h2⟩ := parseMembers_ok E nm bs depth c.values _ _ maps hlen [] rfl hnd [] rfl
        off 0 attrs n hpm
      exact ⟨ws, by simp [h1], h2⟩
  obtain ⟨ws, rfl, hok⟩ := key
  obtain ⟨x, h1, h2⟩ := hok.mem_fill hnd (i := d.memInfo) (List.mem_map.mpr ⟨d, hd, rfl⟩)
  rw [memInfo_name] at h1
  have hx : getAttr (.struct nm (fill ((ms.map Defn.memInfo).map (·.name)) ws)) d.name = x := by
    simp only [getAttr, h1, Option.getD_some]
  rw [hx]
  rcases h2 with h2 | ⟨h2, h3⟩
  · exact .inl (valueOk_iff.mp h2 vals hvals hne)
  · right
    refine ⟨h2, ?_⟩
    cases hcd : d.memInfo.condition with
    | none => rw [hcd] at h3; simp [truthyStr] at h3
    | some cond => rw [hcd] at h3; exact ⟨cond, rfl, by simpa [truthyStr] using h3⟩

/-- `struct { uint8 c in (5, 7); uint8 e; }` is read in one go. -/
def exLin : Defn :=
  .struct { name := "T", order := .little }
    [.member { name := "c" } exU8 none (some "uint8") (some [.int 5, .int 7]),
      .member { name := "e" } exU8 none (some "uint8") none]

/-- Both paths: an unsupported value is refused, a supported one is accepted. -/
example : ∃ m m', createMap exEnvE exCond = .ok m ∧ createMap exEnvE exLin = .ok m' ∧
    (mapStream exEnvE m [0, 5] 0 0 {}).1 =
      .ok (.struct "T" [("a", .int 0), ("b", .pyNone), ("c", .int 5)]) ∧
    (mapStream exEnvE m [0, 6] 0 0 {}).1 = .error .mapping ∧
    (mapStream exEnvE m' [7, 6] 0 0 {}).1 = .ok (.struct "T" [("c", .int 7), ("e", .int 6)]) ∧
    (mapStream exEnvE m' [6, 7] 0 0 {}).1 = .error .mapping :=
  ⟨_, _, rfl, rfl, rfl, rfl, rfl, rfl⟩

/-! ### C37: each member is mapped with its own type -/

theorem effectiveName_of_mapOf {nm n : String} {so o : Order} {d : Defn}
    (h : memberNameOrder nm so d.target = .ok (n, o)) : n = effectiveName nm so d := by
  unfold memberNameOrder at h
  unfold effectiveName
  split at h
  · rename_i hso
    cases h
    simp [hso]
  · rename_i hso
    split at h
    · cases h
    · rename_i hx
      cases h
      simp [hso, hx]
    · rename_i x hne hx
      cases h
      rw [if_neg (fun hh => hne (by rw [hx] at hh; exact Option.some.inj hh.2))]

theorem effective_of_mapOf {nm n : String} {so o : Order} {d : Defn}
    (h : memberNameOrder nm so d.target = .ok (n, o)) : o = effectiveOrder so d := by
  unfold memberNameOrder at h
  unfold effectiveOrder
  split at h
  · rename_i hso
    cases h
    subst hso
    unfold Defn.orderOrNative
    cases hx : d.target.order? with
    | none => rfl
    | some x => cases x <;> rfl
  · split at h
    · cases h
    · rename_i hx; cases h; rw [hx]
    · rename_i x hne hx
      cases h
      rw [hx]
      cases o with
      | native => exact absurd rfl hne
      | little => rfl
      | big => rfl

theorem All2.get {α β : Type} {R : α → β → Prop} {as : List α} {bs : List β} (h : All2 R as bs)
    {i : Nat} {a : α} {b : β} (ha : as[i]? = some a) (hb : bs[i]? = some b) : R a b := by
  induction h generalizing i with
  | nil => simp at ha
  | cons h t ih =>
    cases i with
    | zero => simp at ha hb; subst ha hb; exact h
    | succ i => exact ih (by simpa using ha) (by simpa using hb)

/-- **C37** When members with the same type name have the same type, the i-th data
type map of a structure map is the map of the type of the i-th member, in the byte
order of the member. (Without this condition the claim is false, see
`C37_refuted`.) -/
theorem C37_member_maps_partial (E : Env) (nm : String) (o : Order) (h : Hdr) (ms : List Defn)
    (hdt : DistinctTypes ms) (m : DMap) (hm : createAs E nm o (.struct h ms) = .ok m) :
    ∃ hd bsz l io infos maps, m = .struct hd bsz l io infos maps ∧ maps.length = ms.length ∧
      ∀ (i : Nat) (d : Defn) (md : DMap), ms[i]? = some d → maps[i]? = some md →
        createAs E (effectiveName nm o d) (effectiveOrder o d) d.target = .ok md := by
  obtain ⟨io, infos, maps, l, hcls, hmem, hlin, rfl, -⟩ := createAs_struct hm
  have hmo := createMembers_mapOf E nm o ms hdt ms (fun d hd => hd) [] (by simp) _ _ hmem
  refine ⟨_, _, _, _, _, _, rfl, hmo.length_eq.symm, ?_⟩
  intro i d md hi hmi
  obtain ⟨n, o', hno, hcr⟩ := hmo.get hi hmi
  rw [effective_of_mapOf hno, effectiveName_of_mapOf hno] at hcr
  exact hcr

/-- `struct { uint8 a; stream uint8 of 3 bytes; }`: the second member is called
like the type of the first. -/
def exClash : Defn :=
  .struct { name := "T" }
    [.member { name := "a" } exU8 none (some "uint8") none,
      .seq { name := "uint8" } { kind := .stream, elementDataType := some "uint8", dataSize := some 3 } exU8]

/-- **C37** is false: a member defined in place is mapped with the type of another
member whose type has its name. The structure maps two bytes to two integers,
instead of four bytes to an integer and three bytes. -/
theorem C37_refuted : ∃ m, createMap exEnv exClash = .ok m ∧ exClash.byteSize = some 4 ∧
    (mapStream exEnv m [1, 2, 3, 4] 0 0 {}).1 = .ok (.struct "T" [("a", .int 1), ("uint8", .int 2)]) ∧
    (mapStream exEnv m [1, 2, 3, 4] 0 0 {}).2.byteSize = some 2 :=
  ⟨_, rfl, rfl, rfl, rfl⟩

/-- The condition is met by the structure of C16. -/
example : ∃ h ms m, exCond = .struct h ms ∧ DistinctTypes ms ∧ createMap exEnvE exCond = .ok m := by
  refine ⟨_, _, _, rfl, ?_, rfl⟩
  simp [DistinctTypes, exU8, exU16, Defn.target, Defn.name, Defn.hdr]

/-! ### C24: declared byte order is honoured -/

/-- **C24** When members with the same type name have the same type, and a
structure of fixed-size primitives no two neighbours of which declare different byte
orders has no member that declares another byte order than the structure, every present member has the value read from its position by
the map of its type in its own byte order if it declares one, else in the byte
order of the structure. (Without the second condition the claim is false, see
`C24_refuted`.) -/
theorem C24_member_order_partial (E : Env) (nm : String) (o : Order) (h : Hdr) (ms : List Defn)
    (hdt : DistinctTypes ms) (ho : OneOrder E o ms) (m : DMap)
    (hm : createAs E nm o (.struct h ms) = .ok m)
    (bs : Bytes) (off depth : Nat) (c : Ctx) (hc : c.Clean) (v : Val)
    (hv : (mapStream E m bs off depth c).1 = .ok v) (d : Defn) (hd : d ∈ ms) :
    (getAttr v d.name = .pyNone ∧ ∃ cond, d.memInfo.condition = some cond ∧ cond ≠ "") ∨
    ∃ md p ns, createAs E (effectiveName nm o d) (effectiveOrder o d) d.target = .ok md ∧ off ≤ p ∧
      (mapStream E md bs p (depth + 1) { values := ns }).1 = .ok (getAttr v d.name) := by
  obtain ⟨vs, n, hl, hlen, rfl, hb⟩ := C16_layout E nm o h _ hdt ho m hm bs off depth c hc v hv
  obtain ⟨pre, post, rfl⟩ := List.append_of_mem hd
  have hnd : ((pre ++ d :: post).map Defn.name).Nodup := by
    obtain ⟨io, infos, maps, l, hcls, -⟩ := createAs_struct hm
    exact (createClass_nodup hcls).1
  generalize hnames : (pre ++ d :: post).map Defn.name = names at *
  obtain ⟨vpre, p, h1, h2⟩ := Layout.append hl
  obtain ⟨r1, hr1, hrl⟩ := Layout.prefix h1
  have hvl : vpre.length = (pre.map Defn.name).length := by rw [hr1]; simp [hrl]
  have hget : ∀ x rest, vs = vpre ++ x :: rest → getAttr (.struct nm (fill names vs)) d.name = x := by
    rintro x rest rfl
    rw [getAttr, ← hnames, List.map_append, List.map_cons,
      fill_get _ _ _ _ _ _ hvl (by rw [← hnames, List.map_append, List.map_cons] at hnd; exact hnd)]
    rfl
  have hpos : off ≤ p := Layout.mono h1
  cases h2 with
  | absent hp h2 =>
    left
    obtain ⟨rest, hr, -⟩ := Layout.prefix h2
    cases hp with
    | cond hc' hne _ => exact ⟨hget _ rest (by simp [hr]), _, hc', hne⟩
  | @present _ _ _ _ _ _ k md x hp hmd hx hk hs h2 =>
    right
    obtain ⟨rest, hr, -⟩ := Layout.prefix h2
    rw [hget x rest (by simp [hr])]
    obtain ⟨n', o', hno, hcr⟩ := hmd
    rw [effective_of_mapOf hno, effectiveName_of_mapOf hno] at hcr
    exact ⟨md, p, _, hcr, hpos, hx⟩

/-- **C24** for integers: under the same conditions an integer member that is not
conditional is the number stored at its position in its byte order. -/
theorem C24_integer_partial (E : Env) (nm : String) (o : Order) (h : Hdr) (ms : List Defn)
    (hdt : DistinctTypes ms) (ho : OneOrder E o ms) (m : DMap)
    (hm : createAs E nm o (.struct h ms) = .ok m)
    (bs : Bytes) (off depth : Nat) (c : Ctx) (hc : c.Clean) (v : Val)
    (hv : (mapStream E m bs off depth c).1 = .ok v) (d : Defn) (hd : d ∈ ms)
    (hcd : d.memInfo.condition = none) (hh : Hdr) (u : Bool) (n : Nat)
    (hn : n = 1 ∨ n = 2 ∨ n = 4 ∨ n = 8) (ht : d.target = .prim hh (.integer u) (.bytes n) "bytes") :
    ∃ (p : Nat) (i : Int), off ≤ p ∧ p + n ≤ bs.length ∧ getAttr v d.name = .int i ∧
      i % 256 ^ n = stored E (effectiveOrder o d) (window bs p n) := by
  rcases C24_member_order_partial E nm o h ms hdt ho m hm bs off depth c hc v hv d hd with
    ⟨-, cond, hcd', -⟩ | ⟨md, p, ns, hcr, hp, hx⟩
  · rw [hcd] at hcd'; cases hcd'
  · rw [ht] at hcr
    have hcr' : createMap E (.prim { hh with name := effectiveName nm o d, order := effectiveOrder o d } (.integer u)
        (.bytes n) "bytes") = .ok md := by
      rw [← hcr]
      simp [createMap, createAs, Defn.orderOrNative, Defn.order?, Defn.name, Defn.hdr]
    have hle : p + n ≤ bs.length := by
      obtain ⟨k, hk, -⟩ := mapStream_ok (Ctx.clean_fresh ns) hx
      obtain rfl := createMap_prim _ _ _ _ _ _ hcr'
      simp only [parse, primParse, fixedByteSize, beq_self_eq_true, if_true] at hk
      split at hk
      · cases hk
      · rename_i hts; simp [tooSmall] at hts; omega
    obtain ⟨i, h1, -, h3, -⟩ := C01_integer_map E _ u n hn md hcr' bs p (depth + 1) { values := ns } hle
    rw [hx] at h1
    exact ⟨p, i, hp, hle, by simpa using h1, h3⟩

/-- A big-endian 16-bit integer. -/
def exBE : Defn := .prim { name := "be16", order := .big } (.integer true) (.bytes 2) "bytes"
/-- A 16-bit integer that declares no byte order. -/
def exN16 : Defn := .prim { name := "n16" } (.integer true) (.bytes 2) "bytes"

/-- **C24** is false: a structure that declares no byte order, all of whose members
are fixed-size primitives, is read in the byte order of the platform as a whole
(the big-endian 1 is read as 256), and so is one whose members declare no byte
order up to one that declares another than the structure. -/
theorem C24_refuted :
    (∃ m, createMap exEnv (.struct { name := "T" }
        [.member { name := "a" } exBE none (some "be16") none]) = .ok m ∧
      (mapStream exEnv m [0, 1] 0 0 {}).1 = .ok (.struct "T" [("a", .int 256)])) ∧
    (∃ m, createMap exEnv (.struct { name := "T", order := .little }
        [.member { name := "a" } exN16 none (some "n16") none,
          .member { name := "b" } exBE none (some "be16") none]) = .ok m ∧
      (mapStream exEnv m [0, 1, 0, 1] 0 0 {}).1 =
        .ok (.struct "T" [("a", .int 256), ("b", .int 256)])) ∧
    (∃ m, createMap exEnv exBE = .ok m ∧ (mapStream exEnv m [0, 1] 0 0 {}).1 = .ok (.int 1)) :=
  ⟨⟨_, rfl, rfl⟩, ⟨_, rfl, rfl⟩, ⟨_, rfl, rfl⟩⟩

/-- A structure with members of both byte orders that is read correctly: the
conditions hold because the second member makes it composite. -/
def exMixed : Defn :=
  .struct { name := "T", order := .little }
    [.member { name := "a" } exBE none (some "be16") none,
      .member { name := "b" } exU16 (some "T.a == 1") (some "uint16") none,
      .member { name := "c" } exN16 none (some "n16") none]

example : ∃ h ms m, exMixed = .struct h ms ∧ DistinctTypes ms ∧ OneOrder exEnvE h.order ms ∧
    createMap exEnvE exMixed = .ok m ∧
    (mapStream exEnvE m [0, 1, 1, 0, 1, 0] 0 0 {}).1 =
      .ok (.struct "T" [("a", .int 1), ("b", .int 1), ("c", .int 1)]) := by
  refine ⟨_, _, _, rfl, ?_, ?_, rfl, rfl⟩
  · simp [DistinctTypes, exBE, exU16, exN16, Defn.target, Defn.name, Defn.hdr]
  · intro hh
    have := hh (.member { name := "b" } exU16 (some "T.a == 1") (some "uint16") none) (by simp)
    simp [Defn.isComposite, truthyStr] at this

/-- Two neighbours of different byte orders: each is read in its own. -/
def exTwoOrders : Defn :=
  .struct { name := "T", order := .little }
    [.member { name := "a" } exU16 none (some "uint16") none, .member { name := "b" } exBE none (some "be16") none]

example : ∃ h ms m, exTwoOrders = .struct h ms ∧ DistinctTypes ms ∧ OneOrder exEnv h.order ms ∧
    createMap exEnv exTwoOrders = .ok m ∧
    (mapStream exEnv m [0, 1, 0, 1] 0 0 {}).1 = .ok (.struct "T" [("a", .int 256), ("b", .int 1)]) := by
  refine ⟨_, _, _, rfl, ?_, ?_, rfl, rfl⟩
  · simp [DistinctTypes, exBE, exU16, Defn.target, Defn.name, Defn.hdr]
  · intro _ hs
    have := hs [.little] .little .big [] rfl
    simp at this

/-! ### C25: the linear fast path is unobservable -/

/-- **C25** for structures: a structure map that reads all members in one go
succeeds exactly if reading the members one by one does, with the same value and
size, when the byte orders of the members agree with the structure. -/
theorem C25_structure (E : Env) (nm : String) (o : Order) (h : Hdr) (ms : List Defn)
    (hdt : DistinctTypes ms) (hag : OrdersAgree E o ms)
    (hpad : ∀ d ∈ ms, ∀ h a, d.target ≠ .padding h a)
    (hd : Hdr) (bsz : Option Int) (io : Bool) (infos : List MemInfo) (maps : List DMap)
    (hm : createAs E nm o (.struct h ms) = .ok (.struct hd bsz true io infos maps))
    (bs : Bytes) (off depth : Nat) (hdepth : depth ≤ 10) (c : Ctx) (hc : c.Clean) (v : Val) (n : Nat) :
    ((mapStream E (.struct hd bsz true io infos maps) bs off depth c).1 = .ok v ∧
      (mapStream E (.struct hd bsz true io infos maps) bs off depth c).2.byteSize = some n) ↔
    ((mapStream E (.struct hd bsz false io infos maps) bs off depth c).1 = .ok v ∧
      (mapStream E (.struct hd bsz false io infos maps) bs off depth c).2.byteSize = some n) := by
  have hiff : ∀ (m : DMap), ((mapStream E m bs off depth c).1 = .ok v ∧
      (mapStream E m bs off depth c).2.byteSize = some n) ↔
      parse E m bs off depth c.values = .ok (v, n) := by
    intro m
    constructor
    · rintro ⟨h1, h2⟩
      obtain ⟨k, hk, hb⟩ := mapStream_ok hc h1
      rw [h2] at hb; cases hb; exact hk
    · exact mapStream_of_parse hc
  rw [hiff, hiff]
  have hne : infos.length ≠ 0 := by
    obtain ⟨io', infos', maps', l, hcls, hmem, -, heq, -⟩ := createAs_struct hm
    have hinf := (createMembers_all E nm o (fun _ => True) ms
      (fun _ _ _ _ _ _ => trivial) [] (by simp) _ _ hmem).1
    cases heq
    rw [hinf]
    simpa using (createClass_nodup hcls).2
  have := linear_iff hdt hag hpad hm bs off depth c.values v n
  simp only [parse, if_true, Bool.false_eq_true, if_false, if_neg hne]
  rw [this, if_neg (by omega)]
  cases io with
  | false => simp
  | true =>
    simp only [true_and, Bool.not_true, Bool.false_eq_true, if_false]
    constructor
    · rintro ⟨attrs, h1, rfl⟩; rw [h1]
    · intro hp
      split at hp
      · cases hp
      · rename_i attrs k h1; cases hp; exact ⟨attrs, h1, rfl⟩

/-- The conditions are met by a structure of two integers, which is linear. -/
example : ∃ h ms hd b io infos maps, exLin = .struct h ms ∧ DistinctTypes ms ∧
    OrdersAgree exEnv h.order ms ∧ (∀ d ∈ ms, ∀ h a, d.target ≠ .padding h a) ∧
    createMap exEnv exLin = .ok (.struct hd b true io infos maps) ∧
    (mapStream exEnv (.struct hd b true io infos maps) [5, 1] 0 0 {}).1 =
      .ok (.struct "T" [("c", .int 5), ("e", .int 1)]) := by
  refine ⟨_, _, _, _, _, _, _, rfl, ?_, ?_, ?_, rfl, rfl⟩
  · simp [DistinctTypes, exU8, Defn.target, Defn.name, Defn.hdr]
  · simp [OrdersAgree, exU8, Defn.target, Defn.order?]
  · simp [exU8, Defn.target]

end Dtf
