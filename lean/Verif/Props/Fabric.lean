import Verif.SchemaFold
import Verif.Fabric
import Verif.Props.Library
import Verif.Props.Mapping
/-!
C65: a definition file from end to end. The declarations of a file have a meaning of
their own, `Spec.Ty.read`, which knows of no definition, registry or map. A fabric
made from the file reads exactly that.
-/
namespace Dtf
namespace Spec

/-- What a definition file declares under a name; other types are named. Scalars, UUIDs
and records have a byte order. -/
inductive Body
  | scalar (big : Bool) (kind : Atom) (size : Nat)
  | uuid (big : Bool)
  | stream (element : String) (size : Nat)
  | sequence (element : String) (count : Nat)
  | record (big : Bool) (fields : List (String × String))

structure Decl where
  name : String
  body : Body

/-- A mapping of a document. -/
def mapping (es : List (String × Yaml)) : Yaml := .map (es.map fun e => (.str e.1, e.2))

/-- The value of `byte_order`. -/
def orderWord (big : Bool) : Yaml := .str (if big then "big-endian" else "little-endian")

/-- The document of a scalar. -/
def scalarDoc (big : Bool) (name : String) (size : Nat) : Atom → Yaml
  | .integer signed => mapping [("name", .str name), ("type", .str "integer"),
      ("attributes", mapping [("byte_order", orderWord big),
        ("format", .str (if signed then "signed" else "unsigned")), ("size", .int size), ("units", .str "bytes")])]
  | .boolean => mapping [("name", .str name), ("type", .str "boolean"),
      ("attributes", mapping [("byte_order", orderWord big), ("size", .int size), ("units", .str "bytes")])]
  | .double => mapping [("name", .str name), ("type", .str "floating-point"),
      ("attributes", mapping [("byte_order", orderWord big), ("size", .int size), ("units", .str "bytes")])]

/-- The document of a field. -/
def fieldDoc (f : String × String) : Yaml := mapping [("name", .str f.1), ("data_type", .str f.2)]

/-- The document of a declaration. -/
def Decl.doc (d : Decl) : Yaml :=
  match d.body with
  | .scalar big k s => scalarDoc big d.name s k
  | .uuid big => mapping [("name", .str d.name), ("type", .str "uuid"),
      ("attributes", mapping [("byte_order", orderWord big)])]
  | .stream e s => mapping [("name", .str d.name), ("type", .str "stream"), ("element_data_type", .str e),
      ("elements_data_size", .int s)]
  | .sequence e k => mapping [("name", .str d.name), ("type", .str "sequence"), ("element_data_type", .str e),
      ("number_of_elements", .int k)]
  | .record big fs => mapping [("name", .str d.name), ("type", .str "structure"),
      ("attributes", mapping [("byte_order", orderWord big)]), ("members", .list (fs.map fieldDoc))]

/-- The type declared under a name. -/
def typeNamed (ts : List Ty) (n : String) : Option Ty := ts.find? (·.name == n)

/-- The fields of a record, with the types declared before. -/
def fieldsOf (ts : List Ty) : List (String × String) → Option Fields
  | [] => some .nil
  | (n, t) :: fs =>
    match typeNamed ts t, fieldsOf ts fs with
    | some t, some fs => some (.cons n t fs)
    | _, _ => none

/-- The type of a declaration, with the types declared before. A block of bytes has
scalar elements. -/
def Decl.type (ts : List Ty) (d : Decl) : Option Ty :=
  match d.body with
  | .scalar big k s => some (.scalar d.name big k s)
  | .uuid big => some (.uuid d.name big)
  | .stream e s =>
    match typeNamed ts e with
    | some (.scalar n big k size) => some (.stream d.name (.scalar n big k size) s)
    | _ => none
  | .sequence e k =>
    match typeNamed ts e with
    | some e => some (.sequence d.name e k)
    | none => none
  | .record big fs =>
    match fieldsOf ts fs with
    | some fs => some (.record d.name big fs)
    | none => none

/-- The types of a file, after the types declared before. -/
def typesOf (ts : List Ty) : List Decl → Option (List Ty)
  | [] => some []
  | d :: ds =>
    match d.type ts with
    | none => none
    | some t =>
      match typesOf (ts ++ [t]) ds with
      | none => none
      | some us => some (t :: us)

/-- The declaration is usable: supported sizes, and names Python accepts where a
record becomes a class; no names with quotes. -/
def Decl.Usable (E : Env) (d : Decl) : Prop :=
  d.name ≠ "" ∧ Nameable d.name ∧
  match d.body with
  | .scalar _ k s => k.Size s
  | .uuid _ => True
  | .stream _ s => 0 < s
  | .sequence _ k => 0 < k
  | .record _ fs => ValidNames E d.name (fs.map (·.1)) ∧
    (∀ x ∈ d.name :: fs.map (·.1), x ≠ "super" ∧ E.pyIdent x = true ∧ Unquoted x) ∧
    ∀ x ∈ fs.map (·.1), x ≠ d.name ∧ x ≠ "self"

end Spec
open Spec

/-! ### The types of a file -/

theorem typeNamed_some {ts : List Ty} {n : String} {t : Ty} (h : typeNamed ts n = some t) : t ∈ ts ∧ t.name = n :=
  ⟨List.mem_of_find?_eq_some h, by simpa using List.find?_some h⟩

theorem declType_name {ts : List Ty} {d : Decl} {t : Ty} (h : d.type ts = some t) : t.name = d.name := by
  unfold Decl.type at h
  split at h
  · cases h; rfl
  · cases h; rfl
  · split at h
    · cases h; rfl
    · cases h
  · split at h
    · cases h; rfl
    · cases h
  · split at h
    · cases h; rfl
    · cases h

theorem typesOf_names {ts us : List Ty} {ds : List Decl} (h : typesOf ts ds = some us) :
    us.map Ty.name = ds.map Decl.name := by
  induction ds generalizing ts us with
  | nil => cases h; rfl
  | cons d ds ih =>
    unfold typesOf at h
    split at h
    · cases h
    rename_i t ht
    split at h
    · cases h
    rename_i vs hv
    cases h
    rw [List.map_cons, List.map_cons, ih hv, declType_name ht]

theorem fieldsOf_some {ts : List Ty} {l : List (String × String)} {fs : Fields} (h : fieldsOf ts l = some fs) :
    fs.names = l.map (·.1) ∧ ∀ t ∈ fs.types, t ∈ ts := by
  induction l generalizing fs with
  | nil =>
    cases h
    exact ⟨rfl, by intro t ht; rw [Fields.types] at ht; cases ht⟩
  | cons p l ih =>
    obtain ⟨n, tn⟩ := p
    unfold fieldsOf at h
    split at h
    · rename_i t fs' ht hf
      cases h
      obtain ⟨h1, h2⟩ := ih hf
      refine ⟨by rw [Fields.names, h1]; rfl, ?_⟩
      intro u hu
      rw [Fields.types, List.mem_cons] at hu
      rcases hu with rfl | hu
      · exact (typeNamed_some ht).1
      · exact h2 u hu
    · cases h

theorem fieldsOk_all {E : Env} {ts : List Ty} (h : ∀ t ∈ ts, TyOk E t) : ∀ {fs : Fields},
    (∀ t ∈ fs.types, t ∈ ts) → FieldsOk E fs
  | .nil, _ => by rw [FieldsOk]; trivial
  | .cons n t fs, hs => by
    rw [Fields.types] at hs
    rw [FieldsOk]
    exact ⟨h t (hs t (List.mem_cons_self ..)), fieldsOk_all h fun u hu => hs u (List.mem_cons_of_mem _ hu)⟩

theorem names_unique {E : Env} {ts : List Ty} (hn : (ts.map (E.lower ·.name)).Nodup) {t u : Ty} (ht : t ∈ ts)
    (hu : u ∈ ts) (he : t.name = u.name) : t = u := by
  induction ts with
  | nil => cases ht
  | cons x ts ih =>
    rw [List.map_cons, List.nodup_cons] at hn
    rcases List.mem_cons.mp ht with h1 | h1 <;> rcases List.mem_cons.mp hu with h2 | h2
    · rw [h1, h2]
    · exact absurd (List.mem_map.mpr ⟨u, h2, by rw [← he, h1]⟩) hn.1
    · exact absurd (List.mem_map.mpr ⟨t, h1, by rw [he, h2]⟩) hn.1
    · exact ih hn.2 h1 h2

theorem declType_ok {E : Env} {ts : List Ty} {d : Decl} {t : Ty} (h : d.type ts = some t) (hu : d.Usable E)
    (hok : ∀ t ∈ ts, TyOk E t) (hn : (ts.map (E.lower ·.name)).Nodup) : TyOk E t := by
  obtain ⟨-, h_, hb⟩ := hu
  unfold Decl.type at h
  split at h
  · rename_i big k s heq
    rw [heq] at hb
    cases h
    rw [TyOk]
    exact ⟨h_, hb⟩
  · cases h
    rw [TyOk]
    exact h_
  · rename_i e s heq
    rw [heq] at hb
    split at h
    · rename_i n k size ht
      cases h
      rw [TyOk]
      exact ⟨h_, hb, ⟨_, _, _, _, rfl⟩, hok _ (typeNamed_some ht).1⟩
    · cases h
  · rename_i e k heq
    rw [heq] at hb
    split at h
    · rename_i e' ht
      cases h
      rw [TyOk]
      exact ⟨h_, hb, hok _ (typeNamed_some ht).1⟩
    · cases h
  · rename_i big l heq
    rw [heq] at hb
    split at h
    · rename_i fs hf
      cases h
      obtain ⟨hnames, hts⟩ := fieldsOf_some hf
      rw [TyOk, hnames]
      exact ⟨h_, hb.1, hb.2.1, hb.2.2, fun t ht u hu he => names_unique hn (hts t ht) (hts u hu) he,
        fieldsOk_all hok hts⟩
    · cases h

/-! ### The documents describe the definitions -/

theorem find_type {E : Env} {ts : List Ty} (hn : (ts.map (E.lower ·.name)).Nodup) {n : String} {t : Ty}
    (h : typeNamed ts n = some t) : findName E (ts.map tyDefn) n = some (tyDefn t) := by
  obtain ⟨hm, rfl⟩ := typeNamed_some h
  unfold findName
  have := find_unique (E := E) (prev := ts.map (tyDefn)) (by
    rw [List.map_map]
    simpa only [Function.comp_def, tyDefn_name] using hn) (List.mem_map.mpr ⟨t, hm, rfl⟩)
  rw [tyDefn_name] at this
  rw [this]

theorem orderText_of (big : Bool) : orderText (orderOf big) = if big then "big-endian" else "little-endian" := by
  cases big <;> rfl

theorem tyDefn_orderOrNative (t : Ty) : (tyDefn t).orderOrNative = orderOf t.big := by
  rw [Defn.orderOrNative, tyDefn_order]
  rfl

theorem knownKeys_mapping {sup : List String} {es : List (String × Yaml)}
    (h : (es.map (·.1)).all (fun k => sup.contains k) = true) :
    KnownKeys sup (es.map fun e => (.str e.1, e.2)) := by
  intro e he
  obtain ⟨x, hx, rfl⟩ := List.mem_map.mp he
  rw [List.all_eq_true] at h
  exact ⟨x.1, by simpa using h x.1 (List.mem_map.mpr ⟨x, hx, rfl⟩), rfl⟩

theorem fields_members {E : Env} {ts : List Ty} (hn : (ts.map (E.lower ·.name)).Nodup)
    {l : List (String × String)} {fs : Fields} (h : fieldsOf ts l = some fs) (hne : ∀ x ∈ l.map (·.1), x ≠ "") :
    MemberList (Member E (findName E (ts.map tyDefn)) true) (l.map fieldDoc) (fieldDefns fs) := by
  induction l generalizing fs with
  | nil => cases h; rw [fieldDefns]; exact .nil
  | cons p l ih =>
    obtain ⟨n, tn⟩ := p
    unfold fieldsOf at h
    split at h
    · rename_i t fs' ht hf
      cases h
      rw [fieldDefns]
      refine .member .null ?_ (ih hf fun x hx => hne x (List.mem_cons_of_mem _ hx))
      rw [(typeNamed_some ht).2]
      refine .reference ⟨rfl, hne n (List.mem_cons_self ..)⟩ rfl rfl (.absent .null (by rintro s hs; cases hs)) (fun _ => .null)
        (.absent .null) ?_ (find_type hn ht) ⟨rfl, (tyDefn_orderOrNative t).symm, .inl ⟨.null, rfl⟩, .inl ⟨rfl, rfl⟩⟩
      exact knownKeys_mapping (es := [("name", .str n), ("data_type", .str tn)]) rfl
    · cases h

theorem scalar_describes {E : Env} {big : Bool} {look : String → Option Defn} {n : String} {k : Atom} {s : Nat}
    (hne : n ≠ "") (hb : k.Size s) : Describes E look (scalarDoc big n s k) (tyDefn (.scalar n big k s)) := by
  rw [tyDefn]
  cases k with
  | integer signed =>
    refine ⟨_, n, "integer", rfl, rfl, hne, rfl, knownKeys_mapping rfl, ?_⟩
    refine .primitive (o := orderOf big) (.inr ⟨_, rfl, knownKeys_mapping rfl⟩) ?_
      ⟨rfl, rfl, .inl ⟨.null, rfl⟩, .inl ⟨rfl, rfl⟩⟩ (.integer ?_) (.inr ⟨s, ?_, rfl, rfl⟩) rfl
    · cases big <;> rfl
    · cases signed <;> rfl
    · simpa [Atom.Size] using hb
  | boolean =>
    refine ⟨_, n, "boolean", rfl, rfl, hne, rfl, knownKeys_mapping rfl, ?_⟩
    refine .primitive (o := orderOf big) (.inr ⟨_, rfl, knownKeys_mapping rfl⟩) ?_
      ⟨rfl, rfl, .inl ⟨.null, rfl⟩, .inl ⟨rfl, rfl⟩⟩ .boolean (.inr ⟨s, ?_, rfl, rfl⟩) rfl
    · cases big <;> rfl
    · simpa [Atom.Size] using hb
  | double =>
    refine ⟨_, n, "floating-point", rfl, rfl, hne, rfl, knownKeys_mapping rfl, ?_⟩
    refine .primitive (o := orderOf big) (.inr ⟨_, rfl, knownKeys_mapping rfl⟩) ?_
      ⟨rfl, rfl, .inl ⟨.null, rfl⟩, .inl ⟨rfl, rfl⟩⟩ .floatingPoint (.inr ⟨s, ?_, rfl, rfl⟩) rfl
    · cases big <;> rfl
    · simp [show s = 8 from hb]

theorem decl_describes {E : Env} {ts : List Ty} (hn : (ts.map (E.lower ·.name)).Nodup)
    (hnames : ∀ t ∈ ts, t.name ≠ "") {d : Decl} {t : Ty} (h : d.type ts = some t) (hu : d.Usable E) :
    Describes E (findName E (ts.map tyDefn)) d.doc (tyDefn t) := by
  obtain ⟨hne, -, hb⟩ := hu
  unfold Decl.type at h
  unfold Decl.doc
  generalize d.body = b at h hb
  cases b with
  | scalar big k s =>
    cases h
    exact scalar_describes hne hb
  | uuid big =>
    cases h
    rw [tyDefn]
    refine ⟨_, d.name, "uuid", rfl, rfl, hne, rfl, knownKeys_mapping rfl, ?_⟩
    refine .uuid (o := orderOf big) (.inr ⟨_, rfl, knownKeys_mapping rfl⟩) ?_
      ⟨rfl, rfl, .inl ⟨.null, rfl⟩, .inl ⟨rfl, rfl⟩⟩ (.inr ⟨16, by simp, rfl, rfl⟩) rfl
    cases big <;> rfl
  | stream e s =>
    simp only at h hb ⊢
    split at h
    · rename_i n big k size ht
      cases h
      rw [tyDefn]
      refine ⟨_, d.name, "stream", rfl, rfl, hne, rfl, knownKeys_mapping rfl, ?_⟩
      obtain ⟨hm, he⟩ := typeNamed_some ht
      rw [he]
      refine .stream rfl ⟨⟨e, rfl, he ▸ hnames _ hm, rfl, find_type hn ht⟩, .inl (fun h => nomatch h), .inr rfl,
        .number .int, .absent, .absent⟩ ⟨rfl, (tyDefn_orderOrNative ..).symm, .inl ⟨.null, rfl⟩, .inl ⟨rfl, rfl⟩⟩
    · cases h
  | sequence e k =>
    simp only at h hb ⊢
    split at h
    · rename_i e' ht
      cases h
      rw [tyDefn]
      refine ⟨_, d.name, "sequence", rfl, rfl, hne, rfl, knownKeys_mapping rfl, ?_⟩
      obtain ⟨hm, he⟩ := typeNamed_some ht
      rw [he]
      refine .sequence rfl ⟨⟨e, rfl, he ▸ hnames _ hm, rfl, find_type hn ht⟩, .inr (.inr (fun h => nomatch h)), .inl rfl,
        .absent, .number .int, .absent⟩ ⟨rfl, (tyDefn_orderOrNative ..).symm, .inl ⟨.null, rfl⟩, .inl ⟨rfl, rfl⟩⟩
    · cases h
  | record big l =>
    simp only at h hb ⊢
    split at h
    · rename_i fs hf
      cases h
      rw [tyDefn]
      obtain ⟨hnm, -⟩ := fieldsOf_some hf
      have hnz : ∀ x ∈ l.map (·.1), x ≠ "" := by
        intro x hx he
        subst he
        have := (hb.1.memberNames _ hx).1
        simp [Identifier] at this
      refine ⟨_, d.name, "structure", rfl, rfl, hne, rfl, knownKeys_mapping rfl, ?_⟩
      refine .structure (o := orderOf big) rfl (.inr ⟨_, rfl, knownKeys_mapping rfl⟩) ?_
        ⟨rfl, rfl, .inl ⟨.null, rfl⟩, .inl ⟨rfl, rfl⟩⟩ ?_ .list (fields_members hn hf hnz) ?_
      · cases big <;> rfl
      · have h0 := hb.1.nonempty
        cases l with
        | nil => exact absurd rfl h0
        | cons _ _ => exact value_iff.mpr rfl
      · rw [fieldDefns_names, hnm]
        exact hb.1.distinct
    · cases h

theorem file_library {E : Env} (ds : List Decl) {ts us : List Ty} (h : typesOf ts ds = some us)
    (hn : ((ts ++ us).map (E.lower ·.name)).Nodup) (hu : ∀ d ∈ ds, d.Usable E) (hnames : ∀ t ∈ ts, t.name ≠ "")
    (hok : ∀ t ∈ ts, TyOk E t) :
    Library E (ts.map tyDefn) (ds.map Decl.doc) (us.map tyDefn) ∧ ∀ t ∈ us, TyOk E t := by
  induction ds generalizing ts us with
  | nil => cases h; exact ⟨.nil, by simp⟩
  | cons d ds ih =>
    unfold typesOf at h
    split at h
    · cases h
    rename_i t ht
    split at h
    · cases h
    rename_i vs hv
    cases h
    have hd := hu d (List.mem_cons_self ..)
    have hnt : (ts.map (E.lower ·.name)).Nodup := by
      rw [List.map_append] at hn
      exact (List.nodup_append.mp hn).1
    have hto := declType_ok ht hd hok hnt
    have hname := declType_name ht
    obtain ⟨hlib, hall⟩ := ih (ts := ts ++ [t]) hv (by simpa using hn) (fun x hx => hu x (List.mem_cons_of_mem _ hx))
      (by
        intro x hx
        rcases List.mem_append.mp hx with hx | hx
        · exact hnames x hx
        · rw [List.mem_singleton.mp hx, hname]
          exact hd.1)
      (by
        intro x hx
        rcases List.mem_append.mp hx with hx | hx
        · exact hok x hx
        · rw [List.mem_singleton.mp hx]
          exact hto)
    refine ⟨.cons (decl_describes hnt hnames ht hd) ?_ ?_, ?_⟩
    · intro y hy
      obtain ⟨u, hu', rfl⟩ := List.mem_map.mp hy
      rw [tyDefn_name, tyDefn_name, show (tyDefn u).hdr.aliases = [] by cases u <;> rw [tyDefn] <;> rfl]
      refine ⟨?_, by simp, by simp⟩
      rw [List.map_append] at hn
      exact (List.nodup_append.mp hn).2.2 _ (List.mem_map.mpr ⟨u, hu', rfl⟩) _
        (List.mem_map.mpr ⟨t, List.mem_cons_self .., rfl⟩)
    · simpa using hlib
    · intro x hx
      rcases List.mem_cons.mp hx with rfl | hx
      · exact hto
      · exact hall x hx

theorem types_nodup {E : Env} {ds : List Decl} {ts : List Ty} (h : typesOf [] ds = some ts)
    (hn : (ds.map (E.lower ·.name)).Nodup) : (ts.map (E.lower ·.name)).Nodup := by
  have := typesOf_names h
  rw [show ts.map (E.lower ·.name) = (ts.map Ty.name).map E.lower by rw [List.map_map]; rfl, this, List.map_map]
  exact hn

theorem file_read {E : Env} {ds : List Decl} {ts : List Ty} (h : typesOf [] ds = some ts)
    (hn : (ds.map (E.lower ·.name)).Nodup) (hu : ∀ d ∈ ds, d.Usable E) :
    (readFileObject E {} { docs := ds.map Decl.doc }).1 = .ok () ∧
      ∀ t ∈ ts, (readFileObject E {} { docs := ds.map Decl.doc }).2.getByName E t.name =
        some (tyDefn t) := by
  have hnm := types_nodup h hn
  obtain ⟨hlib, -⟩ := file_library ds h (by simpa using hnm) hu (by simp) (by simp)
  obtain ⟨hread, hdefs⟩ := (C55_file E [] { docs := ds.map Decl.doc } (ts.map tyDefn)).mpr ⟨rfl, hlib⟩
  refine ⟨hread, ?_⟩
  intro t ht
  have h1 := C55_lookup E [{ docs := ds.map Decl.doc }] t.name
  have h2 : readFiles E [{ docs := ds.map Decl.doc }] =
    (readFileObject E {} { docs := ds.map Decl.doc }).2 := rfl
  have h3 : ([] : List YamlFile) ++ [{ docs := ds.map Decl.doc }] = [{ docs := ds.map Decl.doc }] := rfl
  have h4 : (readFiles E []).getDefinitions = [] := rfl
  rw [h3, h4, List.nil_append] at hdefs
  rw [hdefs, h2] at h1
  rw [h1]
  unfold findName
  have := find_unique (E := E) (prev := ts.map (tyDefn)) (by
    rw [List.map_map]
    simpa only [Function.comp_def, tyDefn_name] using hnm) (List.mem_map.mpr ⟨t, ht, rfl⟩)
  rw [tyDefn_name] at this
  rw [this]

theorem fabric_some {E : Env} {f : YamlFile} (h : (readFileObject E {} f).1 = .ok ()) :
    fabric E (some f) = .ok (readFileObject E {} f).2 := by
  unfold fabric
  simp only
  generalize readFileObject E {} f = p at h ⊢
  rcases p with ⟨e | u, reg⟩
  · cases h
  · rfl

theorem fieldsOf_apart {ts : List Ty} (hts : ∀ t ∈ ts, t.Apart ∧ ∀ x ∈ t.parts, x ∈ ts.map Ty.name) :
    ∀ {fs : Fields}, (∀ t ∈ fs.types, t ∈ ts) → fs.Apart ∧ ∀ x ∈ fs.parts, x ∈ ts.map Ty.name
  | .nil, _ => by
    rw [Fields.Apart, Fields.parts]
    exact ⟨trivial, by simp⟩
  | .cons n t fs, h => by
    rw [Fields.types] at h
    rw [Fields.Apart, Fields.parts]
    obtain ⟨h1, h2⟩ := hts t (h t (List.mem_cons_self ..))
    obtain ⟨h3, h4⟩ := fieldsOf_apart hts fun u hu => h u (List.mem_cons_of_mem _ hu)
    refine ⟨⟨h1, h3⟩, ?_⟩
    intro x hx
    rcases List.mem_append.mp hx with hx | hx
    · exact h2 x hx
    · exact h4 x hx

theorem declType_apart {ts : List Ty} (hts : ∀ t ∈ ts, t.Apart ∧ ∀ x ∈ t.parts, x ∈ ts.map Ty.name) {d : Decl} {t : Ty}
    (h : d.type ts = some t) (hd : d.name ∉ ts.map Ty.name) :
    t.Apart ∧ ∀ x ∈ t.parts, x ∈ d.name :: ts.map Ty.name := by
  unfold Decl.type at h
  split at h
  · cases h
    rw [Ty.Apart, Ty.parts]
    exact ⟨trivial, by simp⟩
  · cases h
    rw [Ty.Apart, Ty.parts]
    exact ⟨trivial, by simp⟩
  · split at h
    · rename_i ht
      cases h
      obtain ⟨h1, h2⟩ := hts _ (typeNamed_some ht).1
      rw [Ty.Apart, Ty.parts]
      refine ⟨h1, fun x hx => ?_⟩
      rcases List.mem_cons.mp hx with rfl | hx
      · exact List.mem_cons_self ..
      · exact List.mem_cons_of_mem _ (h2 x hx)
    · cases h
  · split at h
    · rename_i ht
      cases h
      obtain ⟨h1, h2⟩ := hts _ (typeNamed_some ht).1
      rw [Ty.Apart, Ty.parts]
      refine ⟨h1, fun x hx => ?_⟩
      rcases List.mem_cons.mp hx with rfl | hx
      · exact List.mem_cons_self ..
      · exact List.mem_cons_of_mem _ (h2 x hx)
    · cases h
  · split at h
    · rename_i hf
      cases h
      obtain ⟨h1, h2⟩ := fieldsOf_apart hts (fieldsOf_some hf).2
      rw [Ty.Apart, Ty.parts]
      refine ⟨⟨fun hx => hd (h2 _ hx), h1⟩, fun x hx => ?_⟩
      rcases List.mem_cons.mp hx with rfl | hx
      · exact List.mem_cons_self ..
      · exact List.mem_cons_of_mem _ (h2 x hx)
    · cases h

theorem file_apart {E : Env} (ds : List Decl) {ts us : List Ty} (h : typesOf ts ds = some us)
    (hn : ((ts ++ us).map (E.lower ·.name)).Nodup)
    (hts : ∀ t ∈ ts, t.Apart ∧ ∀ x ∈ t.parts, x ∈ ts.map Ty.name) : ∀ t ∈ us, t.Apart := by
  induction ds generalizing ts us with
  | nil => cases h; simp
  | cons d ds ih =>
    unfold typesOf at h
    split at h
    · cases h
    rename_i t ht
    split at h
    · cases h
    rename_i vs hv
    cases h
    have hname := declType_name ht
    have hd : d.name ∉ ts.map Ty.name := by
      intro hm
      obtain ⟨u, hu, he⟩ := List.mem_map.mp hm
      rw [List.map_append] at hn
      exact (List.nodup_append.mp hn).2.2 _ (List.mem_map.mpr ⟨u, hu, rfl⟩) _
        (List.mem_map.mpr ⟨t, List.mem_cons_self .., rfl⟩) (by rw [he, hname])
    obtain ⟨h1, h2⟩ := declType_apart hts ht hd
    have hall := ih (ts := ts ++ [t]) hv (by simpa using hn) (by
      intro x hx
      rw [List.map_append]
      rcases List.mem_append.mp hx with hx | hx
      · exact ⟨(hts x hx).1, fun y hy => List.mem_append_left _ ((hts x hx).2 y hy)⟩
      · rw [List.mem_singleton.mp hx]
        refine ⟨h1, fun y hy => ?_⟩
        rcases List.mem_cons.mp (h2 y hy) with rfl | hy
        · exact List.mem_append_right _ (by simp [hname])
        · exact List.mem_append_left _ hy)
    intro x hx
    rcases List.mem_cons.mp hx with rfl | hx
    · exact h1
    · exact hall x hx

theorem ty_sizeAgree {E : Env} {t : Ty} {m : DMap}
    (hm : createAs E t.name (orderOf t.big) (tyDefn t) = .ok m) (ns ns' : Namespace) : SizeAgree E m ns ns' := by
  cases m with
  | seq h info ei bsz e =>
    obtain ⟨h1, h2⟩ := ty_seq hm
    simp only [SizeAgree, streamSize, evalDataSize, evalNumElements, h1, h2, evalSize]
  | _ => trivial

/-! ### The theorem -/

/-- A fabric made from a file of declarations knows the types it declares: every
type has a map that reads exactly what the type means, and tells how many bytes it
took; where the bytes do not suffice, it raises ByteStreamTooSmallError. -/
theorem C65_fabric (E : Env) (ds : List Decl) (ts : List Ty) (h : typesOf [] ds = some ts)
    (hn : (ds.map (E.lower ·.name)).Nodup) (hu : ∀ d ∈ ds, d.Usable E) :
    ∃ reg, fabric E (some { docs := ds.map Decl.doc }) = .ok reg ∧
      ∀ t ∈ ts, t.height ≤ 11 → ∃ m, reg.createDataTypeMap E t.name = .ok m ∧
        ∀ bs off (c : Ctx), c.Clean →
          match t.read (bs.drop off) with
          | some (v, rest) => (mapStream E m bs off 0 c).1 = .ok v ∧
            ∃ n : Nat, (mapStream E m bs off 0 c).2.byteSize = some n ∧ rest = bs.drop (off + n)
          | none => (mapStream E m bs off 0 c).1 = .error .tooSmall := by
  have hnm := types_nodup h hn
  obtain ⟨-, hok⟩ := file_library ds h (by simpa using hnm) hu (by simp) (by simp)
  obtain ⟨hread, hlook⟩ := file_read h hn hu
  refine ⟨_, fabric_some hread, ?_⟩
  · intro t ht hh
    have hlook := hlook t ht
    obtain ⟨m, hm, hr⟩ := ty_map t (hok t ht)
    refine ⟨m, ?_, ?_⟩
    · unfold Registry.createDataTypeMap
      rw [hlook]
      simp only [createMap, tyDefn_name, tyDefn_orderOrNative]
      exact hm
    · intro bs off c hc
      have hp := hr bs off 0 c.values (by omega)
      have htk := ty_takes t (bs.drop off)
      by_cases hl : t.size ≤ (bs.drop off).length
      · rw [if_pos hl] at htk
        obtain ⟨v, hv⟩ := htk
        rw [hv] at hp ⊢
        obtain ⟨h1, h2⟩ := mapStream_of_parse hc hp
        exact ⟨h1, t.size, h2, by rw [List.drop_drop]⟩
      · rw [if_neg hl] at htk
        rw [htk] at hp ⊢
        exact (mapStream_error hc).mpr hp

/-- The byte size of a declared type is the number of bytes it takes; a fabric
without definitions has no types. -/
theorem C65_size (E : Env) (ds : List Decl) (ts : List Ty) (h : typesOf [] ds = some ts)
    (hn : (ds.map (E.lower ·.name)).Nodup) (hu : ∀ d ∈ ds, d.Usable E) {reg : Registry}
    (hf : fabric E (some { docs := ds.map Decl.doc }) = .ok reg) :
    ∀ t ∈ ts, ∃ d, fabricDefinition E reg t.name = some d ∧ d.name = t.name ∧
      ∃ n : Nat, d.byteSize = some (n : Int) ∧
        ∀ bs, match t.read bs with
          | some (_, rest) => n ≤ bs.length ∧ rest = bs.drop n
          | none => bs.length < n := by
  intro t ht
  have hnm := types_nodup h hn
  obtain ⟨-, hok⟩ := file_library ds h (by simpa using hnm) hu (by simp) (by simp)
  refine ⟨tyDefn t, ?_, tyDefn_name t, t.size, ty_byteSize t (hok t ht), ?_⟩
  · rw [fabric_some (file_read h hn hu).1] at hf
    cases hf
    exact (file_read h hn hu).2 t ht
  · intro bs
    have := ty_takes t bs
    by_cases hl : t.size ≤ bs.length
    · rw [if_pos hl] at this
      obtain ⟨v, hv⟩ := this
      rw [hv]
      exact ⟨hl, rfl⟩
    · rw [if_neg hl] at this
      rw [this]
      simp only
      omega

/-- Folding the value gives back the bytes it was read from, whatever values the call
is given: for types without booleans and without sequences of anything but numbers.
`Kept` is as in C31 and holds of every value without floating-point numbers. -/
theorem C65_fold (E : Env) (ds : List Decl) (ts : List Ty) (h : typesOf [] ds = some ts)
    (hn : (ds.map (E.lower ·.name)).Nodup) (hu : ∀ d ∈ ds, d.Usable E) {reg : Registry}
    (hf : fabric E (some { docs := ds.map Decl.doc }) = .ok reg) :
    ∀ t ∈ ts, t.height ≤ 11 → t.Writable → ∃ m, reg.createDataTypeMap E t.name = .ok m ∧
      ∀ bs v rest, t.read bs = some (v, rest) → Kept E v → ∀ ns,
        ∃ b, fold E m v ns = .ok (.bytes b) ∧ bs = b ++ rest := by
  intro t ht hh hw
  have hnm := types_nodup h hn
  obtain ⟨-, hok⟩ := file_library ds h (by simpa using hnm) hu (by simp) (by simp)
  have hap := file_apart ds h (by simpa using hnm) (by simp) t ht
  obtain ⟨hread, hlook⟩ := file_read h hn hu
  rw [fabric_some hread] at hf
  cases hf
  obtain ⟨m, hm, hr⟩ := ty_map t (hok t ht)
  have hcr : createMap E (tyDefn t) = .ok m := by
    simp only [createMap, tyDefn_name, tyDefn_orderOrNative]
    exact hm
  refine ⟨m, ?_, ?_⟩
  · unfold Registry.createDataTypeMap
    rw [hlook t ht]
    exact hcr
  · intro bs v rest hv hk ns
    have hp := hr bs 0 0 [] (by omega)
    rw [List.drop_zero, hv] at hp
    have hev := createAs_every (Q := NodeOk) (fun d nm o m => nodeOk_of_create d nm o m) _ _ _ _ hcr
      (ty_every t (hok t ht))
    have hfold := ty_foldable t (hok t ht) hw hap [] (by simp) m hm
    obtain ⟨-, hb⟩ := fold_back hfold hev bs 0 0 [] ns v t.size (by intro k hk; exact absurd rfl hk)
      (ty_sizeAgree hm [] ns) hp hk
    refine ⟨_, hb, ?_⟩
    have htk := ty_takes t bs
    by_cases hl : t.size ≤ bs.length
    · rw [if_pos hl, hv] at htk
      obtain ⟨w, hw⟩ := htk
      simp only [Option.some.injEq, Prod.mk.injEq] at hw
      rw [hw.2, window, List.drop_zero, List.take_append_drop]
    · rw [if_neg hl, hv] at htk
      cases htk

theorem C65_empty (E : Env) (name : String) : ∃ reg, fabric E none = .ok reg ∧
    fabricDefinition E reg name = none ∧ reg.createDataTypeMap E name = .ok .missing := by
  exact ⟨{}, rfl, rfl, rfl⟩

/-! ### A file -/

def exDecls : List Decl :=
  [⟨"u16", .scalar true (.integer false) 2⟩, ⟨"le16", .scalar false (.integer false) 2⟩,
    ⟨"i8", .scalar true (.integer true) 1⟩, ⟨"pair", .record false [("a", "u16"), ("b", "i8")]⟩,
    ⟨"pairs", .sequence "pair" 2⟩, ⟨"blob", .stream "i8" 3⟩,
    ⟨"msg", .record true [("kind", "u16"), ("count", "le16"), ("items", "pairs"), ("tail", "blob")]⟩]

def exMsg : Ty :=
  .record "msg" true (.cons "kind" (.scalar "u16" true (.integer false) 2)
    (.cons "count" (.scalar "le16" false (.integer false) 2)
    (.cons "items" (.sequence "pairs" (.record "pair" false (.cons "a" (.scalar "u16" true (.integer false) 2)
      (.cons "b" (.scalar "i8" true (.integer true) 1) .nil))) 2)
    (.cons "tail" (.stream "blob" (.scalar "i8" true (.integer true) 1) 3) .nil))))

example : (typesOf [] exDecls).bind (·[6]?) = some exMsg := rfl

example : exMsg.read [1, 2, 2, 0, 0, 1, 255, 0, 2, 7, 9, 8, 7, 6] = some (.struct "msg"
    [("kind", .int 258), ("count", .int 2), ("items", .tuple [.struct "pair" [("a", .int 1), ("b", .int (-1))],
      .struct "pair" [("a", .int 2), ("b", .int 7)]]), ("tail", .bytes [9, 8, 7])], [6]) := rfl

example : exMsg.read [1, 2, 2, 0, 0, 1, 255, 0, 2, 7, 9, 8] = none := rfl

theorem exDecls_usable : ∀ d ∈ exDecls, d.Usable exEnvR := by
  intro d hd
  simp only [exDecls, List.mem_cons, List.not_mem_nil, or_false] at hd
  rcases hd with rfl | rfl | rfl | rfl | rfl | rfl | rfl
  · exact ⟨by decide, by decide, .inr (.inl rfl)⟩
  · exact ⟨by decide, by decide, .inr (.inl rfl)⟩
  · exact ⟨by decide, by decide, .inl rfl⟩
  · exact ⟨by decide, by decide, validateClass_iff.mp rfl, by decide, by decide⟩
  · exact ⟨by decide, by decide, by decide⟩
  · exact ⟨by decide, by decide, by decide⟩
  · exact ⟨by decide, by decide, validateClass_iff.mp rfl, by decide, by decide⟩

example : ∃ reg m, fabric exEnvR (some { docs := exDecls.map Decl.doc }) = .ok reg ∧
    reg.createDataTypeMap exEnvR "msg" = .ok m ∧ ∀ c : Ctx, c.Clean →
      (mapStream exEnvR m [1, 2, 2, 0, 0, 1, 255, 0, 2, 7, 9, 8, 7, 6] 0 0 c).1 = .ok (.struct "msg"
        [("kind", .int 258), ("count", .int 2), ("items", .tuple [.struct "pair" [("a", .int 1), ("b", .int (-1))],
          .struct "pair" [("a", .int 2), ("b", .int 7)]]), ("tail", .bytes [9, 8, 7])]) := by
  obtain ⟨reg, hf, h⟩ := C65_fabric exEnvR exDecls _ rfl (by decide) exDecls_usable
  obtain ⟨m, hm, hr⟩ := h exMsg (by simp [exMsg]) (by decide)
  exact ⟨reg, m, hf, hm, fun c hc => (hr [1, 2, 2, 0, 0, 1, 255, 0, 2, 7, 9, 8, 7, 6] 0 c hc).1⟩

def exPackDecls : List Decl :=
  [⟨"u16", .scalar false (.integer false) 2⟩, ⟨"kinds", .sequence "u16" 2⟩, ⟨"blob", .stream "u16" 4⟩,
    ⟨"pack", .record false [("kinds", "kinds"), ("tail", "blob")]⟩]

def exPack : Ty :=
  .record "pack" false (.cons "kinds" (.sequence "kinds" (.scalar "u16" false (.integer false) 2) 2)
    (.cons "tail" (.stream "blob" (.scalar "u16" false (.integer false) 2) 4) .nil))

theorem exPackDecls_usable : ∀ d ∈ exPackDecls, d.Usable exEnvR := by
  intro d hd
  simp only [exPackDecls, List.mem_cons, List.not_mem_nil, or_false] at hd
  rcases hd with rfl | rfl | rfl | rfl
  · exact ⟨by decide, by decide, .inr (.inl rfl)⟩
  · exact ⟨by decide, by decide, by decide⟩
  · exact ⟨by decide, by decide, by decide⟩
  · exact ⟨by decide, by decide, validateClass_iff.mp rfl, by decide, by decide⟩

example : ∃ reg m, fabric exEnvR (some { docs := exPackDecls.map Decl.doc }) = .ok reg ∧
    reg.createDataTypeMap exEnvR "pack" = .ok m ∧ ∀ ns, ∃ b, fold exEnvR m (.struct "pack"
      [("kinds", .tuple [.int 1, .int 515]), ("tail", .bytes [9, 8, 7, 6])]) ns = .ok (.bytes b) ∧
      [1, 0, 3, 2, 9, 8, 7, 6, 5] = b ++ [5] := by
  obtain ⟨reg, hf, -⟩ := C65_fabric exEnvR exPackDecls _ rfl (by decide) exPackDecls_usable
  obtain ⟨m, hm, hr⟩ := C65_fold exEnvR exPackDecls _ rfl (by decide) exPackDecls_usable hf exPack (by simp [exPack])
    (by decide) (by simp [exPack, Ty.Writable, Fields.Writable, Ty.IsNumber])
  refine ⟨reg, m, hf, hm, hr [1, 0, 3, 2, 9, 8, 7, 6, 5] _ [5] rfl ?_⟩
  intro f hfl
  cases hfl with
  | struct hx hfl =>
    simp only [List.mem_cons, List.not_mem_nil, or_false, Prod.mk.injEq] at hx
    rcases hx with ⟨-, rfl⟩ | ⟨-, rfl⟩
    · cases hfl with
      | tuple hx hfl =>
        simp only [List.mem_cons, List.not_mem_nil, or_false] at hx
        rcases hx with rfl | rfl <;> cases hfl
    · cases hfl

end Dtf
