import Verif.VariableOpen
import Verif.Arithmetic
import Verif.VariableFold
/-!
C71: definition files of types whose size depends on the data, from end to end. The
declarations have a meaning of their own, `Spec.VTy.read`, which knows of no
definition, registry, map, context or namespace. A fabric made from the file reads
exactly that.
C72: folding a value gives the bytes that mean it.
-/
namespace Dtf
namespace Spec

/-- A field of a record with its condition and the numbers it may hold, or padding. -/
inductive VField
  | field (name : String) (condition : Option Test) (values : List Int) (type : String)
  | padding (name : String) (alignment : Nat)

def VField.name : VField → String
  | .field n _ _ _ | .padding n _ => n

/-- What a definition file declares under a name; other types are named. Scalars and
UUIDs may leave out the byte order. -/
inductive VBody
  | scalar (order : Option Bool) (kind : Atom) (size : Nat)
  | uuid (order : Option Bool)
  | block (element : String) (len : Len)
  | text (encoding element : String) (len : Len)
  | array (element : String) (count : Expr)
  | list (element : String) (size : Expr)
  | record (big : Bool) (fields : List VField)
  | group (base identifier : String) (default : Option String) (members : List String)

structure VDecl where
  name : String
  body : VBody

/-- A number is written as such, another expression as text. -/
def Expr.doc : Expr → Yaml
  | .number n => .int n
  | e => .str e.text

/-- The ASCII text of bytes. -/
def asciiText (t : Bytes) : String := String.ofList (t.map fun b => Char.ofNat b.toNat)

/-- The entries for a length. -/
def Len.entries : Len → List (String × Yaml)
  | .bytes e => [("elements_data_size", e.doc)]
  | .count e => [("number_of_elements", e.doc)]
  | .bytesTo e t => [("elements_data_size", e.doc), ("elements_terminator", .str (asciiText t))]
  | .countTo e t => [("number_of_elements", e.doc), ("elements_terminator", .str (asciiText t))]
  | .upto t => [("elements_terminator", .str (asciiText t))]

/-- The entry for a condition. -/
def conditionEntry : Option Test → List (String × Yaml)
  | none => []
  | some t => [("condition", .str t.text)]

/-- The entry for the numbers a field may hold. -/
def valuesEntry : List Int → List (String × Yaml)
  | [] => []
  | values => [("values", .list (values.map .int))]

/-- The document of a field. -/
def vfieldDoc : VField → Yaml
  | .field n c values t =>
    mapping ([("name", .str n), ("data_type", .str t)] ++ conditionEntry c ++ valuesEntry values)
  | .padding n a => mapping [("name", .str n), ("type", .str "padding"), ("alignment_size", .int a)]

/-- The entry for the record of a group for all other cases. -/
def defaultEntry : Option String → List (String × Yaml)
  | none => []
  | some n => [("default", .str n)]

/-- The document of a scalar without a byte order. -/
def openScalarDoc (name : String) (size : Nat) : Atom → Yaml
  | .integer signed => mapping [("name", .str name), ("type", .str "integer"),
      ("attributes", mapping [("format", .str (if signed then "signed" else "unsigned")), ("size", .int size),
        ("units", .str "bytes")])]
  | .boolean => mapping [("name", .str name), ("type", .str "boolean"),
      ("attributes", mapping [("size", .int size), ("units", .str "bytes")])]
  | .double => mapping [("name", .str name), ("type", .str "floating-point"),
      ("attributes", mapping [("size", .int size), ("units", .str "bytes")])]

/-- The document of a declaration. -/
def VDecl.doc (d : VDecl) : Yaml :=
  match d.body with
  | .scalar none k s => openScalarDoc d.name s k
  | .scalar (some big) k s => scalarDoc big d.name s k
  | .uuid none => mapping [("name", .str d.name), ("type", .str "uuid")]
  | .uuid (some big) =>
      mapping [("name", .str d.name), ("type", .str "uuid"), ("attributes", mapping [("byte_order", orderWord big)])]
  | .block e len =>
      mapping ([("name", .str d.name), ("type", .str "stream"), ("element_data_type", .str e)] ++ len.entries)
  | .text enc e len => mapping ([("name", .str d.name), ("type", .str "string"), ("encoding", .str enc),
      ("element_data_type", .str e)] ++ len.entries)
  | .array e x => mapping [("name", .str d.name), ("type", .str "sequence"), ("element_data_type", .str e),
      ("number_of_elements", x.doc)]
  | .list e x => mapping [("name", .str d.name), ("type", .str "sequence"), ("element_data_type", .str e),
      ("elements_data_size", x.doc)]
  | .record big fs => mapping [("name", .str d.name), ("type", .str "structure"),
      ("attributes", mapping [("byte_order", orderWord big)]), ("members", .list (fs.map vfieldDoc))]
  | .group b i df ms => mapping ([("name", .str d.name), ("type", .str "structure-group"), ("base", .str b),
      ("identifier", .str i), ("members", .list (ms.map .str))] ++ defaultEntry df)

/-- The declaration leaves out the byte order. -/
def VDecl.isBare (d : VDecl) : Bool :=
  match d.body with
  | .scalar none _ _ | .uuid none => true
  | _ => false

/-- The names of the scalars and UUIDs that leave out the byte order. -/
def bareOf (ds : List VDecl) : List String := (ds.filter VDecl.isBare).map VDecl.name

/-- The type declared under a name. -/
def vtypeNamed (ts : List VTy) (n : String) : Option VTy := ts.find? (·.name == n)

/-- The fields of a record, with the types declared before; they take the byte order of
the record where they leave it out. Only numbers are restricted to some values. -/
def vfieldsOf (bare : List String) (big : Bool) (ts : List VTy) : List VField → Option VFields
  | [] => some .nil
  | .field n c vs t :: fs =>
    match vtypeNamed ts t, vfieldsOf bare big ts fs with
    | some t, some fs => if vs.isEmpty || t.IsNumber then some (.cons n c vs (t.within bare big) fs) else none
    | _, _ => none
  | .padding n a :: fs =>
    match vfieldsOf bare big ts fs with
    | some fs => some (.padding n a fs)
    | none => none

/-- The fields if all have a fixed size. -/
def VFields.fixed : VFields → Option Fields
  | .nil => some .nil
  | .cons n none [] (.fixed t) fs =>
    match fs.fixed with
    | some gs => some (.cons n t gs)
    | none => none
  | .cons _ _ _ _ _ | .padding _ _ _ => none

/-- A record of fields of fixed size has a fixed size. -/
def recordOf (name : String) (big : Bool) (fs : VFields) : VTy :=
  match fs.fixed with
  | some gs => .fixed (.record name big gs)
  | none => .record name big fs

/-- A given number of elements of fixed size has a fixed size. -/
def arrayOf (name : String) : VTy → Expr → VTy
  | .fixed t, .number n => .fixed (.sequence name t n)
  | e, x => .array name e x

/-- The elements of a list: blocks and texts that end at a terminator; elements of fixed
size if the number of bytes is no plain number. -/
def VTy.listable : VTy → Expr → Bool
  | .fixed _, .number _ => false
  | .fixed _, _ | .block _ _ (.upto _), _ | .text _ _ _ (.upto _), _ => true
  | _, _ => false

/-- A terminator of a block or text without a number has the size of an element. -/
def Len.fits (size : Nat) : Len → Bool
  | .upto t => t.length = size
  | _ => true

/-- The record of a group for all other cases, if there is one. -/
def vdefaultOf (ts : List VTy) : Option String → Option VMembers
  | none => some .nil
  | some n =>
    match vtypeNamed ts n with
    | some t => some (.default t)
    | none => none

/-- The records of a group, with the types declared before. -/
def vmembersOf (ts : List VTy) (df : Option String) : List String → Option VMembers
  | [] => vdefaultOf ts df
  | n :: ns =>
    match vtypeNamed ts n, vmembersOf ts df ns with
    | some t, some ms => some (.cons t ms)
    | _, _ => none

/-- The number in the field of the base tells the records of a group: each has numbers
for the field, all different. -/
def VMembers.told (base : VTy) (identifier : String) (ms : VMembers) : Bool :=
  decide (identifier ∈ base.numbers) && !ms.records.isEmpty && ms.records.all (fun t => !(t.keys identifier).isEmpty) &&
    decide (ms.keys identifier).Nodup

/-- The type of a declaration, with the types declared before. Blocks and texts have
scalar elements. A scalar or UUID without a byte order stands here for any: nothing is said
of it but in records. -/
def VDecl.type (bare : List String) (ts : List VTy) (d : VDecl) : Option VTy :=
  match d.body with
  | .scalar order k s => some (.fixed (.scalar d.name (order.getD false) k s))
  | .uuid order => some (.fixed (.uuid d.name (order.getD false)))
  | .block e len =>
    match vtypeNamed ts e with
    | some (.fixed (.scalar n b k size)) => if len.fits size then some (.block d.name (.scalar n b k size) len) else none
    | _ => none
  | .text enc e len =>
    match vtypeNamed ts e with
    | some (.fixed (.scalar n b k size)) => if len.fits size then some (.text d.name enc (.scalar n b k size) len) else none
    | _ => none
  | .array e x =>
    match vtypeNamed ts e with
    | some e => some (arrayOf d.name e x)
    | none => none
  | .list e x =>
    match vtypeNamed ts e with
    | some e => if e.listable x then some (.list d.name e x) else none
    | none => none
  | .record big fs =>
    match vfieldsOf bare big ts fs with
    | some fs => some (recordOf d.name big fs)
    | none => none
  | .group b i df ms =>
    match vtypeNamed ts b, vmembersOf ts df ms with
    | some b, some ms => if ms.told b i then some (.group d.name b i ms) else none
    | _, _ => none

/-- The types of a file, after the types declared before. -/
def vtypesOf (bare : List String) (ts : List VTy) : List VDecl → Option (List VTy)
  | [] => some []
  | d :: ds =>
    match d.type bare ts with
    | none => none
    | some t =>
      match vtypesOf bare (ts ++ [t]) ds with
      | none => none
      | some us => some (t :: us)

/-- The types of a file. -/
def fileTypes (ds : List VDecl) : Option (List VTy) := vtypesOf (bareOf ds) [] ds

/-- A plain number is not zero. -/
def Expr.Positive (x : Expr) : Prop := ∀ n, x = .number n → 0 < n

/-- The length is usable: names Python accepts, no number zero, no empty terminator
or one that is not ASCII. -/
def Len.Usable (E : Env) : Len → Prop
  | .bytes x | .count x => x.Accepted E ∧ x.Positive
  | .bytesTo x t | .countTo x t => x.Accepted E ∧ x.Positive ∧ t ≠ [] ∧ ∀ b ∈ t, b.toNat < 128
  | .upto t => t ≠ [] ∧ ∀ b ∈ t, b.toNat < 128

/-- The declaration is usable: supported sizes, and names Python accepts where a
record becomes a class or an expression names a field; no names with quotes. A padding
does not have the name of the type of a field. -/
def VDecl.Usable (E : Env) (d : VDecl) : Prop :=
  d.name ≠ "" ∧ Nameable d.name ∧
  match d.body with
  | .scalar _ k s => k.Size s
  | .uuid _ => True
  | .block _ len => len.Usable E
  | .text enc _ len => enc ≠ "" ∧ len.Usable E
  | .array _ x | .list _ x => x.Accepted E ∧ x.Positive
  | .record _ fs => ValidNames E d.name (fs.map VField.name) ∧
    (∀ x ∈ d.name :: fs.map VField.name, x ≠ "super" ∧ E.pyIdent x = true ∧ Unquoted x) ∧
    (∀ x ∈ fs.map VField.name, x ≠ d.name ∧ x ≠ "self") ∧
    (∀ f ∈ fs, ∀ n c vs t, f = .field n (some c) vs t → c.Accepted E) ∧
    ∀ f ∈ fs, ∀ n a, f = .padding n a → a ∈ [2, 4, 8, 16] ∧ n.toList.head? ≠ some '_' ∧
      ∀ g ∈ fs, ∀ m c vs t, g = .field m c vs t → n ≠ t
  | .group _ i _ _ => i ≠ ""

end Spec
open Spec

/-! ### The types of a file -/

theorem vtypeNamed_some {ts : List VTy} {n : String} {t : VTy} (h : vtypeNamed ts n = some t) : t ∈ ts ∧ t.name = n :=
  ⟨List.mem_of_find?_eq_some h, by simpa using List.find?_some h⟩

theorem recordOf_name (n : String) (big : Bool) (fs : VFields) : (recordOf n big fs).name = n := by
  unfold recordOf
  split <;> rfl

theorem arrayOf_name (n : String) (e : VTy) (x : Expr) : (arrayOf n e x).name = n := by
  unfold arrayOf
  split <;> rfl

theorem vdeclType_name {bare : List String} {ts : List VTy} {d : VDecl} {t : VTy} (h : d.type bare ts = some t) : t.name = d.name := by
  unfold VDecl.type at h
  split at h
  · cases h; rfl
  · cases h; rfl
  · split at h
    · split at h
      · cases h; rfl
      · cases h
    · cases h
  · split at h
    · split at h
      · cases h; rfl
      · cases h
    · cases h
  · split at h
    · cases h; exact arrayOf_name ..
    · cases h
  · split at h
    · split at h
      · cases h; rfl
      · cases h
    · cases h
  · split at h
    · cases h; exact recordOf_name ..
    · cases h
  · split at h
    · split at h
      · cases h; rfl
      · cases h
    · cases h

theorem vtypesOf_names {bare : List String} {ts us : List VTy} {ds : List VDecl} (h : vtypesOf bare ts ds = some us) :
    us.map VTy.name = ds.map VDecl.name := by
  induction ds generalizing ts us with
  | nil => cases h; rfl
  | cons d ds ih =>
    unfold vtypesOf at h
    split at h
    · cases h
    rename_i t ht
    split at h
    · cases h
    rename_i vs hv
    cases h
    rw [List.map_cons, List.map_cons, ih hv, vdeclType_name ht]

theorem vfieldsOf_some {bare : List String} {big : Bool} {ts : List VTy} {l : List VField} {fs : VFields} (h : vfieldsOf bare big ts l = some fs) :
    fs.names = l.map VField.name ∧
      (∀ t ∈ fs.types, (∃ u ∈ ts, t = u.within bare big) ∧ ∃ n c vs, VField.field n c vs t.name ∈ l) ∧
      ∀ x ∈ fs.pads, ∃ a, VField.padding x a ∈ l := by
  induction l generalizing fs with
  | nil =>
    cases h
    refine ⟨rfl, ?_, ?_⟩
    · intro t ht
      rw [VFields.types] at ht
      cases ht
    · intro t ht
      rw [VFields.pads] at ht
      cases ht
  | cons p l ih =>
    unfold vfieldsOf at h
    cases p with
    | field n c vs tn =>
      simp only at h
      split at h
      · rename_i t fs' ht hf
        split at h
        · cases h
          obtain ⟨h1, h2, h3⟩ := ih hf
          refine ⟨by rw [VFields.names, h1]; rfl, ?_, ?_⟩
          · intro u hu
            rw [VFields.types, List.mem_cons] at hu
            rcases hu with rfl | hu
            · obtain ⟨h4, h5⟩ := vtypeNamed_some ht
              exact ⟨⟨_, h4, rfl⟩, n, c, vs, by rw [within_name, h5]; exact List.mem_cons_self ..⟩
            · obtain ⟨h4, n', c', vs', h5⟩ := h2 u hu
              exact ⟨h4, n', c', vs', List.mem_cons_of_mem _ h5⟩
          · intro x hx
            rw [VFields.pads] at hx
            obtain ⟨a, ha⟩ := h3 x hx
            exact ⟨a, List.mem_cons_of_mem _ ha⟩
        · cases h
      · cases h
    | padding n a =>
      simp only at h
      split at h
      · rename_i fs' hf
        cases h
        obtain ⟨h1, h2, h3⟩ := ih hf
        refine ⟨by rw [VFields.names, h1]; rfl, ?_, ?_⟩
        · intro u hu
          rw [VFields.types] at hu
          obtain ⟨h4, n', c', vs', h5⟩ := h2 u hu
          exact ⟨h4, n', c', vs', List.mem_cons_of_mem _ h5⟩
        · intro x hx
          rw [VFields.pads, List.mem_cons] at hx
          rcases hx with rfl | hx
          · exact ⟨a, List.mem_cons_self ..⟩
          · obtain ⟨a, ha⟩ := h3 x hx
            exact ⟨a, List.mem_cons_of_mem _ ha⟩
      · cases h

theorem within_number (bare : List String) (big : Bool) (t : VTy) : (t.within bare big).IsNumber = t.IsNumber := by
  unfold VTy.within
  split
  · rename_i t
    unfold Ty.within
    split
    · rename_i k _
      cases k <;> rfl
    · rfl
    · rfl
    · rfl
  · rfl
  · rfl
  · rfl

theorem vfieldsOf_filled {bare : List String} {big : Bool} {ts : List VTy} (hts : ∀ t ∈ ts, t.Filled bare)
    {l : List VField} {fs : VFields} (h : vfieldsOf bare big ts l = some fs) : fs.Filled bare big := by
  induction l generalizing fs with
  | nil => cases h; rw [VFields.Filled]; trivial
  | cons p l ih =>
    unfold vfieldsOf at h
    cases p with
    | field n c vs tn =>
      simp only at h
      split at h
      · rename_i t fs' ht hf
        split at h
        · cases h
          rw [VFields.Filled]
          exact ⟨within_twice bare big t, within_filled big (hts _ (vtypeNamed_some ht).1), ih hf⟩
        · cases h
      · cases h
    | padding n a =>
      simp only at h
      split at h
      · rename_i fs' hf
        cases h
        rw [VFields.Filled]
        exact ih hf
      · cases h

theorem fixed_filled {bare : List String} {big : Bool} : ∀ {fs : VFields} {gs : Fields}, fs.fixed = some gs →
    fs.Filled bare big → gs.Filled bare big
  | .nil, gs, h, _ => by cases h; rw [Fields.Filled]; trivial
  | .cons n none [] (.fixed t) fs, gs, h, hl => by
    unfold VFields.fixed at h
    split at h
    · rename_i gs' hg
      cases h
      rw [VFields.Filled, VTy.Filled, VTy.within, VTy.fixed.injEq] at hl
      rw [Fields.Filled]
      exact ⟨hl.1, hl.2.1, fixed_filled hg hl.2.2⟩
    · cases h
  | .cons _ (some _) _ _ _, _, h, _ => by cases h
  | .cons _ none (_ :: _) _ _, _, h, _ => by cases h
  | .cons _ none [] (.block _ _ _) _, _, h, _ => by cases h
  | .cons _ none [] (.text _ _ _ _) _, _, h, _ => by cases h
  | .cons _ none [] (.array _ _ _) _, _, h, _ => by cases h
  | .cons _ none [] (.list _ _ _) _, _, h, _ => by cases h
  | .cons _ none [] (.record _ _ _) _, _, h, _ => by cases h
  | .cons _ none [] (.group _ _ _ _) _, _, h, _ => by cases h
  | .padding _ _ _, _, h, _ => by cases h

theorem vfieldsOf_ok {E : Env} {bare : List String} {big : Bool} {ts : List VTy} (hts : ∀ t ∈ ts, VTyOk E t)
    {l : List VField} {fs : VFields} (h : vfieldsOf bare big ts l = some fs)
    (hc : ∀ f ∈ l, ∀ n c vs t, f = .field n (some c) vs t → c.Accepted E)
    (ha : ∀ f ∈ l, ∀ n a, f = .padding n a → a ∈ [2, 4, 8, 16]) : VFieldsOk E fs := by
  induction l generalizing fs with
  | nil => cases h; rw [VFieldsOk]; trivial
  | cons p l ih =>
    have ih' := fun fs hf => ih (fs := fs) hf (fun f hf => hc f (List.mem_cons_of_mem _ hf))
      (fun f hf => ha f (List.mem_cons_of_mem _ hf))
    unfold vfieldsOf at h
    cases p with
    | field n c vs tn =>
      simp only at h
      split at h
      · rename_i t fs' ht hf
        split at h
        · rename_i hv
          cases h
          rw [VFieldsOk]
          refine ⟨?_, ?_, within_ok bare big (hts _ (vtypeNamed_some ht).1), ih' _ hf⟩
          · rintro x rfl
            exact hc _ (List.mem_cons_self ..) _ _ _ _ rfl
          · intro hne
            rw [Bool.or_eq_true, List.isEmpty_iff] at hv
            rcases hv with hv | hv
            · exact absurd hv hne
            · rw [within_number]
              exact hv
        · cases h
      · cases h
    | padding n a =>
      simp only at h
      split at h
      · rename_i fs' hf
        cases h
        rw [VFieldsOk]
        refine ⟨?_, ih' _ hf⟩
        have := ha _ (List.mem_cons_self ..) n a rfl
        simp only [List.mem_cons, List.not_mem_nil, or_false] at this
        omega
      · cases h

theorem fixed_some {bare : List String} {E : Env} : ∀ {fs : VFields} {gs : Fields}, fs.fixed = some gs →
    openVFieldDefns bare fs = openFieldDefns bare gs ∧ gs.names = fs.names ∧ (∀ t ∈ gs.types, VTy.fixed t ∈ fs.types) ∧
      (VFieldsOk E fs → FieldsOk E gs)
  | .nil, gs, h => by
    cases h
    rw [openVFieldDefns, openFieldDefns, FieldsOk, Fields.types]
    exact ⟨rfl, rfl, by simp, fun _ => trivial⟩
  | .cons n none [] (.fixed t) fs, gs, h => by
    unfold VFields.fixed at h
    split at h
    · rename_i gs' hg
      cases h
      obtain ⟨h1, h2, h3, h4⟩ := fixed_some (bare := bare) (E := E) hg
      rw [openVFieldDefns, openFieldDefns, FieldsOk, VFieldsOk, Fields.types, VFields.types, Fields.names, VFields.names, h1, h2,
        openDefn, VTyOk, vtyOrder]
      refine ⟨rfl, rfl, ?_, fun h => ⟨h.2.2.1, h4 h.2.2.2⟩⟩
      intro u hu
      rcases List.mem_cons.mp hu with rfl | hu
      · exact List.mem_cons_self ..
      · exact List.mem_cons_of_mem _ (h3 u hu)
    · cases h
  | .cons _ (some _) _ _ _, _, h => by cases h
  | .cons _ none (_ :: _) _ _, _, h => by cases h
  | .cons _ none [] (.block _ _ _) _, _, h => by cases h
  | .cons _ none [] (.text _ _ _ _) _, _, h => by cases h
  | .cons _ none [] (.array _ _ _) _, _, h => by cases h
  | .cons _ none [] (.list _ _ _) _, _, h => by cases h
  | .cons _ none [] (.record _ _ _) _, _, h => by cases h
  | .cons _ none [] (.group _ _ _ _) _, _, h => by cases h
  | .padding _ _ _, _, h => by cases h

theorem members_types_cons (t : VTy) (ms : VMembers) : (VMembers.cons t ms).types = t :: ms.types := rfl
theorem members_types_default (t : VTy) : (VMembers.default t).types = [t] := rfl

theorem vmembersOf_some {ts : List VTy} {df : Option String} {l : List String} {ms : VMembers}
    (h : vmembersOf ts df l = some ms) : ms.records.map VTy.name = l ∧ (∀ t ∈ ms.types, t ∈ ts) := by
  induction l generalizing ms with
  | nil =>
    unfold vmembersOf vdefaultOf at h
    split at h
    · cases h
      exact ⟨rfl, by intro t ht; rw [VMembers.types] at ht; cases ht⟩
    · split at h
      · rename_i ht
        cases h
        refine ⟨rfl, ?_⟩
        intro u hu
        rw [members_types_default, List.mem_singleton] at hu
        subst hu
        exact (vtypeNamed_some ht).1
      · cases h
  | cons n l ih =>
    unfold vmembersOf at h
    split at h
    · rename_i t ms' ht hm
      cases h
      obtain ⟨h1, h2⟩ := ih hm
      refine ⟨by rw [VMembers.records, List.map_cons, h1, (vtypeNamed_some ht).2], ?_⟩
      intro u hu
      rw [members_types_cons, List.mem_cons] at hu
      rcases hu with rfl | hu
      · exact (vtypeNamed_some ht).1
      · exact h2 u hu
    · cases h

theorem vmembers_ok {E : Env} {ident : String} : ∀ {ms : VMembers}, (∀ t ∈ ms.types, VTyOk E t) →
    (∀ t ∈ ms.records, t.keys ident ≠ []) → VMembersOk E ident ms
  | .nil, _, _ => by rw [VMembersOk]; trivial
  | .default t, h, _ => by
    rw [VMembersOk]
    exact h t (by rw [VMembers.types]; exact List.mem_singleton.mpr rfl)
  | .cons t ms, h, hk => by
    rw [VMembers.types] at h
    rw [VMembers.records] at hk
    rw [VMembersOk]
    exact ⟨hk t (List.mem_cons_self ..), h t (List.mem_cons_self ..),
      vmembers_ok (fun u hu => h u (List.mem_cons_of_mem _ hu)) fun u hu => hk u (List.mem_cons_of_mem _ hu)⟩

theorem told_iff {base : VTy} {ident : String} {ms : VMembers} : ms.told base ident = true ↔
    ident ∈ base.numbers ∧ ms.records ≠ [] ∧ (∀ t ∈ ms.records, t.keys ident ≠ []) ∧ (ms.keys ident).Nodup := by
  simp [VMembers.told, and_assoc]

theorem keys_of_record {ident : String} : ∀ {ms : VMembers} {t : VTy} {i : Int}, t ∈ ms.records → i ∈ t.keys ident →
    i ∈ ms.keys ident
  | .nil, _, _, h, _ => by rw [VMembers.records] at h; cases h
  | .default _, _, _, h, _ => by rw [VMembers.records] at h; cases h
  | .cons t ms, u, i, h, hi => by
    rw [VMembers.records, List.mem_cons] at h
    rw [VMembers.keys, List.mem_append]
    rcases h with rfl | h
    · exact .inl hi
    · exact .inr (keys_of_record h hi)

theorem records_types : ∀ {ms : VMembers} {t : VTy}, t ∈ ms.records → t ∈ ms.types
  | .nil, _, h => by rw [VMembers.records] at h; cases h
  | .default _, _, h => by rw [VMembers.records] at h; cases h
  | .cons t ms, u, h => by
    rw [VMembers.records, List.mem_cons] at h
    rw [members_types_cons, List.mem_cons]
    rcases h with rfl | h
    · exact .inl rfl
    · exact .inr (records_types h)

/-- Records with different numbers have different names. -/
theorem records_names {ident : String} : ∀ {ms : VMembers},
    (∀ t ∈ ms.records, ∀ u ∈ ms.records, t.name = u.name → t = u) → (∀ t ∈ ms.records, t.keys ident ≠ []) →
      (ms.keys ident).Nodup → (ms.records.map VTy.name).Nodup
  | .nil, _, _, _ => by rw [VMembers.records]; exact .nil
  | .default _, _, _, _ => by rw [VMembers.records]; exact .nil
  | .cons t ms, hu, hk, hn => by
    rw [VMembers.records] at hu hk
    rw [VMembers.keys, List.nodup_append] at hn
    rw [VMembers.records, List.map_cons, List.nodup_cons]
    refine ⟨?_, records_names (fun a ha b hb => hu a (List.mem_cons_of_mem _ ha) b (List.mem_cons_of_mem _ hb))
      (fun u hu => hk u (List.mem_cons_of_mem _ hu)) hn.2.1⟩
    intro hm
    obtain ⟨u, hm', he⟩ := List.mem_map.mp hm
    have := hu u (List.mem_cons_of_mem _ hm') t (List.mem_cons_self ..) he
    subst this
    obtain ⟨i, hi⟩ := List.exists_mem_of_ne_nil _ (hk u (List.mem_cons_self ..))
    exact hn.2.2 i hi i (keys_of_record hm' hi) rfl

theorem recordOf_defn (bare : List String) (big : Bool) (n : String) (fs : VFields) :
    openDefn bare (recordOf n big fs) = .struct { name := n, order := orderOf big } (openVFieldDefns bare fs) := by
  unfold recordOf
  split
  · rename_i gs hg
    rw [openDefn, openTyDefn, (fixed_some (E := exEnv) hg).1]
  · rw [openDefn]

theorem arrayOf_defn (bare : List String) (n : String) (e : VTy) (x : Expr) :
    openDefn bare (arrayOf n e x) =
      .seq { name := n, order := vtyOrder bare e } (countInfo e.name x) (openDefn bare e) := by
  unfold arrayOf
  split
  · rw [openDefn, openTyDefn, openDefn, vtyOrder]
    rfl
  · rw [openDefn]

theorem vnames_unique {E : Env} {ts : List VTy} (hn : (ts.map (E.lower ·.name)).Nodup) {t u : VTy} (ht : t ∈ ts)
    (hu : u ∈ ts) (he : t.name = u.name) : t = u := by
  induction ts with
  | nil => cases ht
  | cons x ts ih =>
    rw [List.map_cons, List.nodup_cons] at hn
    rcases List.mem_cons.mp ht with h1 | h1 <;> rcases List.mem_cons.mp hu with h2 | h2
    · rw [h1, h2]
    · exact absurd (List.mem_map.mpr ⟨u, h2, by rw [← he, h1]⟩) hn.1
    · exact absurd (List.mem_map.mpr ⟨t, h1, by rw [he, h2]⟩) hn.1
    · exact ih hn.2 h1 h2

theorem lenOk_of {E : Env} {e : Ty} {len : Len} (h : len.Usable E) (hf : len.fits e.size = true) : LenOk E e len := by
  cases len with
  | bytes x => exact h
  | count x => exact h
  | bytesTo x t => exact ⟨h.1, h.2.1, h.2.2.1⟩
  | countTo x t => exact ⟨h.1, h.2.1, h.2.2.1⟩
  | upto t => exact ⟨h.1, by simpa [Len.fits] using hf⟩

theorem listable_listed {e : VTy} {x : Expr} (h : e.listable x = true) (hp : x.Positive) : e.Listed x := by
  unfold VTy.listable at h
  split at h
  · cases h
  · rename_i hne
    intro k hk
    exact hne k hk
  · exact hp
  · exact hp
  · cases h

theorem vdeclType_ok {E : Env} {bare : List String} {ts : List VTy} {d : VDecl} {t : VTy} (h : d.type bare ts = some t) (hu : d.Usable E)
    (hok : ∀ t ∈ ts, VTyOk E t) (hn : (ts.map (E.lower ·.name)).Nodup) : VTyOk E t := by
  obtain ⟨-, h_, hb⟩ := hu
  unfold VDecl.type at h
  split at h
  · rename_i o k s heq
    rw [heq] at hb
    cases h
    rw [VTyOk, TyOk]
    exact ⟨h_, hb⟩
  · cases h
    rw [VTyOk, TyOk]
    exact h_
  · rename_i e len heq
    rw [heq] at hb
    split at h
    · rename_i n b k size ht
      split at h
      · rename_i hf
        cases h
        have := hok _ (vtypeNamed_some ht).1
        rw [VTyOk] at this
        rw [VTyOk]
        exact ⟨h_, ⟨_, _, _, _, rfl⟩, this, lenOk_of hb (by rw [Ty.size]; exact hf)⟩
      · cases h
    · cases h
  · rename_i enc e len heq
    rw [heq] at hb
    split at h
    · rename_i n b k size ht
      split at h
      · rename_i hf
        cases h
        have := hok _ (vtypeNamed_some ht).1
        rw [VTyOk] at this
        rw [VTyOk]
        exact ⟨h_, ⟨_, _, _, _, rfl⟩, this, lenOk_of hb.2 (by rw [Ty.size]; exact hf)⟩
      · cases h
    · cases h
  · rename_i e x heq
    rw [heq] at hb
    split at h
    · rename_i e' ht
      cases h
      have := hok _ (vtypeNamed_some ht).1
      unfold arrayOf
      split
      · rw [VTyOk] at this
        rw [VTyOk, TyOk]
        exact ⟨h_, hb.2 _ rfl, this⟩
      · rename_i hne
        rw [VTyOk]
        exact ⟨h_, hb.1, fun k hk => ⟨hb.2 k hk, fun t he => hne _ _ he hk⟩, this⟩
    · cases h
  · rename_i e x heq
    rw [heq] at hb
    split at h
    · rename_i e' ht
      split at h
      · rename_i hl
        cases h
        rw [VTyOk]
        exact ⟨h_, hb.1, listable_listed hl hb.2, hok _ (vtypeNamed_some ht).1⟩
      · cases h
    · cases h
  · rename_i big l heq
    rw [heq] at hb
    split at h
    · rename_i fs hf
      cases h
      obtain ⟨hnames, hts, hpads⟩ := vfieldsOf_some hf
      have hfo := vfieldsOf_ok hok hf hb.2.2.2.1 fun f hf n a he => (hb.2.2.2.2 f hf n a he).1
      have hun : ∀ t ∈ fs.types, ∀ u ∈ fs.types, t.name = u.name → t = u :=
        fun t ht u hu he => by
          obtain ⟨⟨t', ht', rfl⟩, -⟩ := hts t ht
          obtain ⟨⟨u', hu', rfl⟩, -⟩ := hts u hu
          rw [within_name, within_name] at he
          rw [vnames_unique hn ht' hu' he]
      unfold recordOf
      split
      · rename_i gs hg
        obtain ⟨-, h2, h3, h4⟩ := fixed_some (bare := []) (E := E) hg
        rw [VTyOk, TyOk, h2, hnames]
        refine ⟨h_, hb.1, hb.2.1, hb.2.2.1, fun t ht u hu he => ?_, h4 hfo⟩
        have := hun _ (h3 t ht) _ (h3 u hu) he
        cases this
        rfl
      · rename_i hg
        rw [VTyOk, hnames]
        refine ⟨h_, hb.1, hb.2.1, hb.2.2.1, hun, ?_, hfo⟩
        intro x hx
        obtain ⟨a, ha⟩ := hpads x hx
        obtain ⟨-, h1, h2⟩ := hb.2.2.2.2 _ ha x a rfl
        refine ⟨h1, fun t ht => ?_⟩
        obtain ⟨-, n, c, vs, hm⟩ := hts t ht
        exact h2 _ hm n c vs t.name rfl
    · cases h
  · rename_i b i df l heq
    split at h
    · rename_i base ms hbase hms
      split at h
      · rename_i ht
        cases h
        obtain ⟨h1, h2, h3, h4⟩ := told_iff.mp ht
        rw [VTyOk]
        exact ⟨h_, h1, hok _ (vtypeNamed_some hbase).1, h4, h2,
          vmembers_ok (fun t ht => hok t ((vmembersOf_some hms).2 t ht)) h3⟩
      · cases h
    · cases h

theorem vmembers_filled {bare : List String} : ∀ {ms : VMembers}, (∀ t ∈ ms.types, t.Filled bare) → ms.Filled bare
  | .nil, _ => by rw [VMembers.Filled]; trivial
  | .default t, h => by
    rw [VMembers.Filled]
    exact h t (by rw [VMembers.types]; exact List.mem_singleton.mpr rfl)
  | .cons t ms, h => by
    rw [VMembers.types] at h
    rw [VMembers.Filled]
    exact ⟨h t (List.mem_cons_self ..), vmembers_filled fun u hu => h u (List.mem_cons_of_mem _ hu)⟩

theorem vdeclType_filled {bare : List String} {ts : List VTy} {d : VDecl} {t : VTy} (h : d.type bare ts = some t)
    (hts : ∀ t ∈ ts, t.Filled bare) : t.Filled bare := by
  unfold VDecl.type at h
  split at h
  · cases h
    rw [VTy.Filled, Ty.Filled]; trivial
  · cases h
    rw [VTy.Filled, Ty.Filled]; trivial
  · split at h
    · split at h
      · cases h
        rw [VTy.Filled]; trivial
      · cases h
    · cases h
  · split at h
    · split at h
      · cases h
        rw [VTy.Filled]; trivial
      · cases h
    · cases h
  · split at h
    · rename_i ht
      cases h
      have := hts _ (vtypeNamed_some ht).1
      unfold arrayOf
      split
      · rw [VTy.Filled] at this
        rw [VTy.Filled, Ty.Filled]
        exact this
      · rw [VTy.Filled]
        exact this
    · cases h
  · split at h
    · rename_i ht
      split at h
      · cases h
        rw [VTy.Filled]
        exact hts _ (vtypeNamed_some ht).1
      · cases h
    · cases h
  · split at h
    · rename_i fs hf
      cases h
      have := vfieldsOf_filled hts hf
      unfold recordOf
      split
      · rename_i hg
        rw [VTy.Filled, Ty.Filled]
        exact fixed_filled hg this
      · rw [VTy.Filled]
        exact this
    · cases h
  · split at h
    · rename_i hbase hms
      split at h
      · cases h
        rw [VTy.Filled]
        exact ⟨hts _ (vtypeNamed_some hbase).1, vmembers_filled fun t ht => hts t ((vmembersOf_some hms).2 t ht)⟩
      · cases h
    · cases h

/-! ### The documents describe the definitions -/

theorem find_vtype {E : Env} {bare : List String} {ts : List VTy} (hn : (ts.map (E.lower ·.name)).Nodup) {n : String} {t : VTy}
    (h : vtypeNamed ts n = some t) : findName E (ts.map (openDefn bare)) n = some (openDefn bare t) := by
  obtain ⟨hm, rfl⟩ := vtypeNamed_some h
  unfold findName
  have := find_unique (E := E) (prev := ts.map (openDefn bare)) (by
    rw [List.map_map]
    simpa only [Function.comp_def, openDefn_name] using hn) (List.mem_map.mpr ⟨t, hm, rfl⟩)
  rw [openDefn_name] at this
  rw [this]

theorem openDefn_orderOrNative (bare : List String) (t : VTy) :
    (openDefn bare t).orderOrNative = vtyOrder bare t := by
  rw [Defn.orderOrNative, openDefn_order]
  rfl

theorem openTyDefn_orderOrNative (bare : List String) (t : Ty) :
    (openTyDefn bare t).orderOrNative = tyOrder bare t := by
  rw [Defn.orderOrNative, openTyDefn_order]
  rfl

theorem char_of_small {n : Nat} (h : n < 128) : (Char.ofNat n).toNat = n := by
  have hv : n.isValidChar := .inl (by omega)
  rw [Char.ofNat, dif_pos hv]
  show (UInt32.ofNatLT n _).toNat = n
  exact UInt32.toNat_ofNatLT ..

theorem asciiText_chars {t : Bytes} (h : ∀ b ∈ t, b.toNat < 128) : ∀ c ∈ (asciiText t).toList, c.toNat < 128 := by
  intro c hc
  rw [asciiText, String.toList_ofList] at hc
  obtain ⟨b, hb, rfl⟩ := List.mem_map.mp hc
  rw [char_of_small (h b hb)]
  exact h b hb

theorem textBytes_asciiText {t : Bytes} (h : ∀ b ∈ t, b.toNat < 128) : textBytes (asciiText t) = t := by
  rw [textBytes, asciiText, String.toList_ofList, List.map_map]
  conv => rhs; rw [← List.map_id t]
  apply List.map_congr_left
  intro b hb
  simp only [Function.comp, char_of_small (h b hb), id]
  exact UInt8.ofNat_toNat

theorem exprDoc_rule {E : Env} (A : Arithmetic E) {x : Expr} (hx : x.Accepted E) :
    SizeRule E x.doc x.plain x.formula ∧ x.doc ≠ .null := by
  rcases expr_cases x with ⟨k, rfl⟩ | hc
  · exact ⟨.number .int, by simp [Expr.doc]⟩
  · obtain ⟨h1, h2⟩ := formula_of hc
    have hd : x.doc = .str x.text := by
      cases x with
      | number n => exact absurd rfl (hc n)
      | _ => rfl
    rw [h1, h2, hd]
    exact ⟨.expr (A.no_number x hx hc), by simp⟩

theorem supported_many {v : Int} {vs : List Int} :
    SupportedBy .null (.list ((v :: vs).map .int)) (supported (v :: vs)) := by
  rw [supported, if_neg (by simp)]
  refine .many (value_iff.mpr rfl) .list ?_
  generalize v :: vs = l
  induction l with
  | nil => exact .nil
  | cons v l ih => exact .cons (.value (by rintro s h; cases h) .int) ih

theorem vfields_members {E : Env} {bare : List String} {big : Bool} {ts : List VTy} (hn : (ts.map (E.lower ·.name)).Nodup)
    {l : List VField} {fs : VFields} (h : vfieldsOf bare big ts l = some fs) (hne : ∀ x ∈ l.map VField.name, x ≠ "")
    (ha : ∀ f ∈ l, ∀ n a, f = .padding n a → a ∈ [2, 4, 8, 16]) :
    MemberList (Member E (findName E (ts.map (openDefn bare))) true) (l.map vfieldDoc) (openVFieldDefns bare fs) := by
  induction l generalizing fs with
  | nil => cases h; rw [openVFieldDefns]; exact .nil
  | cons p l ih =>
    have ih' := fun fs hf => ih (fs := fs) hf (fun x hx => hne x (List.mem_cons_of_mem _ hx))
      (fun f hf => ha f (List.mem_cons_of_mem _ hf))
    unfold vfieldsOf at h
    cases p with
    | field n c vs tn =>
      simp only at h
      have hnn : n ≠ "" := hne n (List.mem_cons_self ..)
      split at h
      · rename_i t fs' ht hf
        split at h
        · cases h
          rw [openVFieldDefns, within_defn, within_order, within_name]
          have hhead : ∀ es : List (Key × Yaml), entry es "aliases" = .null → entry es "description" = .null →
              Head es n (openDefn bare t).orderOrNative { name := n, order := vtyOrder bare t } := by
            intro es h1 h2
            exact ⟨rfl, (openDefn_orderOrNative bare t).symm, .inl ⟨by rw [h1]; exact .null, rfl⟩, .inl ⟨h2, rfl⟩⟩
          rw [(vtypeNamed_some ht).2]
          cases c with
          | none =>
            cases vs with
            | nil =>
              refine .member .null ?_ (ih' _ hf)
              refine .reference ⟨rfl, hnn⟩ rfl rfl (.absent .null (by rintro s hs; cases hs))
                (fun _ => .null) (.absent .null) ?_ (find_vtype hn ht) (hhead _ rfl rfl)
              exact knownKeys_mapping (es := [("name", .str n), ("data_type", .str tn)]) rfl
            | cons v vs =>
              refine .member .null ?_ (ih' _ hf)
              refine .reference ⟨rfl, hnn⟩ rfl rfl (.absent .null (by rintro s hs; cases hs))
                (fun _ => .null) supported_many ?_ (find_vtype hn ht) (hhead _ rfl rfl)
              exact knownKeys_mapping (es := [("name", .str n), ("data_type", .str tn),
                ("values", .list ((v :: vs).map .int))]) rfl
          | some c =>
            cases vs with
            | nil =>
              refine .member .null ?_ (ih' _ hf)
              refine .reference ⟨rfl, hnn⟩ rfl rfl .text
                (fun h => nomatch h) (.absent .null) ?_ (find_vtype hn ht) (hhead _ rfl rfl)
              exact knownKeys_mapping (es := [("name", .str n), ("data_type", .str tn), ("condition", .str c.text)]) rfl
            | cons v vs =>
              refine .member .null ?_ (ih' _ hf)
              refine .reference ⟨rfl, hnn⟩ rfl rfl .text
                (fun h => nomatch h) supported_many ?_ (find_vtype hn ht) (hhead _ rfl rfl)
              exact knownKeys_mapping (es := [("name", .str n), ("data_type", .str tn), ("condition", .str c.text),
                ("values", .list ((v :: vs).map .int))]) rfl
        · cases h
      · cases h
    | padding n a =>
      simp only at h
      have hnn : n ≠ "" := hne n (List.mem_cons_self ..)
      split at h
      · rename_i fs' hf
        cases h
        rw [openVFieldDefns]
        refine .member .null ?_ (ih' _ hf)
        exact Member.typed (cond := none) (sv := none) (.inl ⟨rfl, hnn⟩) (ty := "padding") rfl rfl
          (.absent .null (by rintro s hs; cases hs)) (fun _ => .null) (.absent .null)
          (knownKeys_mapping (es := [("name", .str n), ("type", .str "padding"), ("alignment_size", .int a)]) rfl)
          (.padding rfl ⟨rfl, rfl, .inl ⟨.null, rfl⟩, .inl ⟨rfl, rfl⟩⟩ rfl (ha _ (List.mem_cons_self ..) n a rfl))
      · cases h

theorem valuesOf_names {ident : String} : ∀ {fs : VFields}, fs.valuesOf ident ≠ [] → ident ∈ fs.names
  | .nil, h => absurd rfl h
  | .cons n c vs t fs, h => by
    rw [VFields.valuesOf] at h
    rw [VFields.names, List.mem_cons]
    split at h
    · rename_i he
      exact .inl he.symm
    · exact .inr (valuesOf_names h)
  | .padding n a fs, h => by
    rw [VFields.valuesOf] at h
    rw [VFields.names, List.mem_cons]
    split at h
    · exact absurd rfl h
    · exact .inr (valuesOf_names h)

theorem keys_member {bare : List String} {ident : String} {t : VTy} (h : t.keys ident ≠ []) :
    ∃ inner, (openDefn bare t).members? = some inner ∧ ∃ x ∈ inner, x.name = ident := by
  unfold VTy.keys at h
  split at h
  · rename_i n b fs
    rw [openDefn]
    refine ⟨_, rfl, ?_⟩
    have := valuesOf_names h
    rw [← openVFieldDefns_names bare] at this
    obtain ⟨x, hx, he⟩ := List.mem_map.mp this
    exact ⟨x, hx, he⟩
  · exact absurd rfl h

theorem memberDefns_records (bare : List String) : ∀ ms : VMembers, openMemberDefns bare ms = ms.records.map (openDefn bare)
  | .nil => by rw [openMemberDefns, VMembers.records]; rfl
  | .default _ => by rw [openMemberDefns, VMembers.records]; rfl
  | .cons t ms => by rw [openMemberDefns, VMembers.records, List.map_cons, memberDefns_records bare ms]

theorem members_named {E : Env} {bare : List String} {ts : List VTy} (hn : (ts.map (E.lower ·.name)).Nodup) {df : Option String}
    {l : List String} {ms : VMembers} (h : vmembersOf ts df l = some ms) :
    All2 (NameOf (findName E (ts.map (openDefn bare)))) (l.map .str) (openMemberDefns bare ms) ∧
      (openDefaultDefn bare ms = df.bind fun n => findName E (ts.map (openDefn bare)) n) ∧
      (∀ n, df = some n → ∃ d, findName E (ts.map (openDefn bare)) n = some d) := by
  induction l generalizing ms with
  | nil =>
    unfold vmembersOf vdefaultOf at h
    split at h
    · cases h
      rw [openMemberDefns, openDefaultDefn]
      exact ⟨.nil, rfl, fun n h => nomatch h⟩
    · split at h
      · rename_i ht
        cases h
        have := find_vtype (bare := bare) hn ht
        rw [openMemberDefns, openDefaultDefn]
        refine ⟨.nil, this.symm, ?_⟩
        rintro n ⟨⟩
        exact ⟨_, this⟩
      · cases h
  | cons n l ih =>
    unfold vmembersOf at h
    split at h
    · rename_i t ms' ht hm
      cases h
      obtain ⟨h1, h2, h3⟩ := ih hm
      rw [openMemberDefns, openDefaultDefn]
      exact ⟨.cons ⟨n, rfl, find_vtype hn ht⟩ h1, h2, h3⟩
    · cases h

theorem default_named {ts : List VTy} (hnames : ∀ t ∈ ts, t.name ≠ "") {l : List String} {ms : VMembers}
    (h : vmembersOf ts (some "") l = some ms) : False := by
  induction l generalizing ms with
  | nil =>
    unfold vmembersOf vdefaultOf at h
    simp only at h
    split at h
    · rename_i ht
      exact hnames _ (vtypeNamed_some ht).1 (vtypeNamed_some ht).2
    · cases h
  | cons n l ih =>
    unfold vmembersOf at h
    split at h
    · rename_i hm
      exact ih hm
    · cases h

theorem openScalar_describes {E : Env} {look : String → Option Defn} {n : String} {k : Atom} {s : Nat} (hne : n ≠ "")
    (hb : k.Size s) : Describes E look (openScalarDoc n s k) (.prim { name := n } (scalarKind k) (.bytes s) "bytes") := by
  cases k with
  | integer signed =>
    refine ⟨_, n, "integer", rfl, rfl, hne, rfl, knownKeys_mapping rfl, ?_⟩
    refine .primitive (o := .native) (.inr ⟨_, rfl, knownKeys_mapping rfl⟩) rfl
      ⟨rfl, rfl, .inl ⟨.null, rfl⟩, .inl ⟨rfl, rfl⟩⟩ (.integer ?_) (.inr ⟨s, ?_, rfl, rfl⟩) rfl
    · cases signed <;> rfl
    · simpa [Atom.Size] using hb
  | boolean =>
    refine ⟨_, n, "boolean", rfl, rfl, hne, rfl, knownKeys_mapping rfl, ?_⟩
    refine .primitive (o := .native) (.inr ⟨_, rfl, knownKeys_mapping rfl⟩) rfl
      ⟨rfl, rfl, .inl ⟨.null, rfl⟩, .inl ⟨rfl, rfl⟩⟩ .boolean (.inr ⟨s, ?_, rfl, rfl⟩) rfl
    simpa [Atom.Size] using hb
  | double =>
    refine ⟨_, n, "floating-point", rfl, rfl, hne, rfl, knownKeys_mapping rfl, ?_⟩
    refine .primitive (o := .native) (.inr ⟨_, rfl, knownKeys_mapping rfl⟩) rfl
      ⟨rfl, rfl, .inl ⟨.null, rfl⟩, .inl ⟨rfl, rfl⟩⟩ .floatingPoint (.inr ⟨s, ?_, rfl, rfl⟩) rfl
    simp [show s = 8 from hb]

theorem vdecl_describes {E : Env} (A : Arithmetic E) {bare : List String} {ts : List VTy}
    (hn : (ts.map (E.lower ·.name)).Nodup) (hnames : ∀ t ∈ ts, t.name ≠ "") {d : VDecl} {t : VTy}
    (h : d.type bare ts = some t) (hu : d.Usable E) (hbare : d.isBare = true ↔ d.name ∈ bare) :
    Describes E (findName E (ts.map (openDefn bare))) d.doc (openDefn bare t) := by
  have hu' := hu
  obtain ⟨hne, hna, hb⟩ := hu
  unfold VDecl.type at h
  unfold VDecl.doc
  unfold VDecl.isBare at hbare
  generalize d.body = b at h hb hbare
  cases b with
  | scalar o k s =>
    cases h
    rw [openDefn]
    cases o with
    | none =>
      rw [openTyDefn, bareOrder, if_pos (hbare.mp rfl)]
      exact openScalar_describes hne hb
    | some o =>
      rw [openTyDefn, bareOrder_not _ fun h => nomatch hbare.mpr h]
      have := scalar_describes (E := E) (big := o) (look := findName E (ts.map (openDefn bare))) hne hb
      rw [tyDefn] at this
      exact this
  | uuid o =>
    cases h
    rw [openDefn, openTyDefn]
    cases o with
    | none =>
      rw [bareOrder, if_pos (hbare.mp rfl)]
      refine ⟨_, d.name, "uuid", rfl, rfl, hne, rfl, knownKeys_mapping rfl, ?_⟩
      exact .uuid (o := .native) (.inl .null) rfl
        ⟨rfl, rfl, .inl ⟨.null, rfl⟩, .inl ⟨rfl, rfl⟩⟩ (.inr ⟨16, by simp, rfl, rfl⟩) rfl
    | some o =>
      rw [bareOrder_not _ fun h => nomatch hbare.mpr h]
      refine ⟨_, d.name, "uuid", rfl, rfl, hne, rfl, knownKeys_mapping rfl, ?_⟩
      refine .uuid (o := orderOf o) (.inr ⟨_, rfl, knownKeys_mapping rfl⟩) ?_
        ⟨rfl, rfl, .inl ⟨.null, rfl⟩, .inl ⟨rfl, rfl⟩⟩ (.inr ⟨16, by simp, rfl, rfl⟩) rfl
      cases o <;> rfl
  | block e len =>
    simp only at h hb ⊢
    split at h
    · rename_i n b k size ht
      split at h
      · cases h
        rw [openDefn]
        obtain ⟨hm, he⟩ := vtypeNamed_some ht
        have hfind := find_vtype (bare := bare) hn ht
        rw [openDefn] at hfind
        have he : (Ty.scalar n b k size).name = e := he
        have hen : e ≠ "" := he ▸ hnames _ hm
        cases len with
        | bytes x =>
          obtain ⟨h1, h2⟩ := exprDoc_rule A hb.1
          refine ⟨_, d.name, "stream", rfl, rfl, hne, rfl, knownKeys_mapping rfl, ?_⟩
          rw [lenInfo, he]
          exact .stream rfl ⟨⟨e, rfl, hen, rfl, hfind⟩, .inl h2, .inr rfl, h1, .absent, .absent⟩
            ⟨rfl, (openTyDefn_orderOrNative ..).symm, .inl ⟨.null, rfl⟩, .inl ⟨rfl, rfl⟩⟩
        | count x =>
          obtain ⟨h1, h2⟩ := exprDoc_rule A hb.1
          refine ⟨_, d.name, "stream", rfl, rfl, hne, rfl, knownKeys_mapping rfl, ?_⟩
          rw [lenInfo, he]
          exact .stream rfl ⟨⟨e, rfl, hen, rfl, hfind⟩, .inr (.inr h2), .inl rfl, .absent, h1, .absent⟩
            ⟨rfl, (openTyDefn_orderOrNative ..).symm, .inl ⟨.null, rfl⟩, .inl ⟨rfl, rfl⟩⟩
        | bytesTo x t =>
          obtain ⟨h1, h2⟩ := exprDoc_rule A hb.1
          have h3 := Terminator.text (asciiText_chars hb.2.2.2)
          rw [textBytes_asciiText hb.2.2.2] at h3
          refine ⟨_, d.name, "stream", rfl, rfl, hne, rfl, knownKeys_mapping rfl, ?_⟩
          rw [lenInfo, he]
          exact .stream rfl ⟨⟨e, rfl, hen, rfl, hfind⟩, .inl h2, .inr rfl, h1, .absent, h3⟩
            ⟨rfl, (openTyDefn_orderOrNative ..).symm, .inl ⟨.null, rfl⟩, .inl ⟨rfl, rfl⟩⟩
        | countTo x t =>
          obtain ⟨h1, h2⟩ := exprDoc_rule A hb.1
          have h3 := Terminator.text (asciiText_chars hb.2.2.2)
          rw [textBytes_asciiText hb.2.2.2] at h3
          refine ⟨_, d.name, "stream", rfl, rfl, hne, rfl, knownKeys_mapping rfl, ?_⟩
          rw [lenInfo, he]
          exact .stream rfl ⟨⟨e, rfl, hen, rfl, hfind⟩, .inr (.inr h2), .inl rfl, .absent, h1, h3⟩
            ⟨rfl, (openTyDefn_orderOrNative ..).symm, .inl ⟨.null, rfl⟩, .inl ⟨rfl, rfl⟩⟩
        | upto t =>
          have h1 := Terminator.text (asciiText_chars hb.2)
          rw [textBytes_asciiText hb.2] at h1
          refine ⟨_, d.name, "stream", rfl, rfl, hne, rfl, knownKeys_mapping rfl, ?_⟩
          rw [lenInfo, he]
          exact .stream rfl ⟨⟨e, rfl, hen, rfl, hfind⟩, .inr (.inl (fun h => nomatch h)), .inl rfl, .absent, .absent, h1⟩
            ⟨rfl, (openTyDefn_orderOrNative ..).symm, .inl ⟨.null, rfl⟩, .inl ⟨rfl, rfl⟩⟩
      · cases h
    · cases h
  | text enc e len =>
    simp only at h hb ⊢
    split at h
    · rename_i n b k size ht
      split at h
      · cases h
        rw [openDefn]
        obtain ⟨hm, he⟩ := vtypeNamed_some ht
        have hfind := find_vtype (bare := bare) hn ht
        rw [openDefn] at hfind
        have he : (Ty.scalar n b k size).name = e := he
        have hen : e ≠ "" := he ▸ hnames _ hm
        cases len with
        | bytes x =>
          obtain ⟨h1, h2⟩ := exprDoc_rule A hb.2.1
          refine ⟨_, d.name, "string", rfl, rfl, hne, rfl, knownKeys_mapping rfl, ?_⟩
          rw [lenInfo, he]
          exact .string rfl rfl hb.1 ⟨⟨e, rfl, hen, rfl, hfind⟩, .inl h2, .inr rfl, h1, .absent, .absent⟩
            ⟨rfl, (openTyDefn_orderOrNative ..).symm, .inl ⟨.null, rfl⟩, .inl ⟨rfl, rfl⟩⟩
        | count x =>
          obtain ⟨h1, h2⟩ := exprDoc_rule A hb.2.1
          refine ⟨_, d.name, "string", rfl, rfl, hne, rfl, knownKeys_mapping rfl, ?_⟩
          rw [lenInfo, he]
          exact .string rfl rfl hb.1 ⟨⟨e, rfl, hen, rfl, hfind⟩, .inr (.inr h2), .inl rfl, .absent, h1, .absent⟩
            ⟨rfl, (openTyDefn_orderOrNative ..).symm, .inl ⟨.null, rfl⟩, .inl ⟨rfl, rfl⟩⟩
        | bytesTo x t =>
          obtain ⟨h1, h2⟩ := exprDoc_rule A hb.2.1
          have h3 := Terminator.text (asciiText_chars hb.2.2.2.2)
          rw [textBytes_asciiText hb.2.2.2.2] at h3
          refine ⟨_, d.name, "string", rfl, rfl, hne, rfl, knownKeys_mapping rfl, ?_⟩
          rw [lenInfo, he]
          exact .string rfl rfl hb.1 ⟨⟨e, rfl, hen, rfl, hfind⟩, .inl h2, .inr rfl, h1, .absent, h3⟩
            ⟨rfl, (openTyDefn_orderOrNative ..).symm, .inl ⟨.null, rfl⟩, .inl ⟨rfl, rfl⟩⟩
        | countTo x t =>
          obtain ⟨h1, h2⟩ := exprDoc_rule A hb.2.1
          have h3 := Terminator.text (asciiText_chars hb.2.2.2.2)
          rw [textBytes_asciiText hb.2.2.2.2] at h3
          refine ⟨_, d.name, "string", rfl, rfl, hne, rfl, knownKeys_mapping rfl, ?_⟩
          rw [lenInfo, he]
          exact .string rfl rfl hb.1 ⟨⟨e, rfl, hen, rfl, hfind⟩, .inr (.inr h2), .inl rfl, .absent, h1, h3⟩
            ⟨rfl, (openTyDefn_orderOrNative ..).symm, .inl ⟨.null, rfl⟩, .inl ⟨rfl, rfl⟩⟩
        | upto t =>
          have h1 := Terminator.text (asciiText_chars hb.2.2)
          rw [textBytes_asciiText hb.2.2] at h1
          refine ⟨_, d.name, "string", rfl, rfl, hne, rfl, knownKeys_mapping rfl, ?_⟩
          rw [lenInfo, he]
          exact .string rfl rfl hb.1
            ⟨⟨e, rfl, hen, rfl, hfind⟩, .inr (.inl (fun h => nomatch h)), .inl rfl, .absent, .absent, h1⟩
            ⟨rfl, (openTyDefn_orderOrNative ..).symm, .inl ⟨.null, rfl⟩, .inl ⟨rfl, rfl⟩⟩
      · cases h
    · cases h
  | array e x =>
    simp only at h hb ⊢
    split at h
    · rename_i e' ht
      cases h
      rw [arrayOf_defn]
      obtain ⟨h1, h2⟩ := exprDoc_rule A hb.1
      refine ⟨_, d.name, "sequence", rfl, rfl, hne, rfl, knownKeys_mapping rfl, ?_⟩
      obtain ⟨hm, he⟩ := vtypeNamed_some ht
      rw [he]
      exact .sequence rfl ⟨⟨e, rfl, he ▸ hnames _ hm, rfl, find_vtype hn ht⟩, .inr (.inr h2), .inl rfl,
        .absent, h1, .absent⟩ ⟨rfl, (openDefn_orderOrNative ..).symm, .inl ⟨.null, rfl⟩, .inl ⟨rfl, rfl⟩⟩
    · cases h
  | list e x =>
    simp only at h hb ⊢
    split at h
    · rename_i e' ht
      split at h
      · cases h
        rw [openDefn]
        obtain ⟨h1, h2⟩ := exprDoc_rule A hb.1
        refine ⟨_, d.name, "sequence", rfl, rfl, hne, rfl, knownKeys_mapping rfl, ?_⟩
        obtain ⟨hm, he⟩ := vtypeNamed_some ht
        rw [he]
        exact .sequence rfl ⟨⟨e, rfl, he ▸ hnames _ hm, rfl, find_vtype hn ht⟩, .inl h2, .inr rfl,
          h1, .absent, .absent⟩ ⟨rfl, (openDefn_orderOrNative ..).symm, .inl ⟨.null, rfl⟩, .inl ⟨rfl, rfl⟩⟩
      · cases h
    · cases h
  | record big l =>
    simp only at h hb ⊢
    split at h
    · rename_i fs hf
      cases h
      rw [recordOf_defn]
      obtain ⟨hnm, -⟩ := vfieldsOf_some hf
      have hnz : ∀ x ∈ l.map VField.name, x ≠ "" := by
        intro x hx he
        subst he
        have := (hb.1.memberNames _ hx).1
        simp [Identifier] at this
      refine ⟨_, d.name, "structure", rfl, rfl, hne, rfl, knownKeys_mapping rfl, ?_⟩
      refine .structure (o := orderOf big) rfl (.inr ⟨_, rfl, knownKeys_mapping rfl⟩) ?_
        ⟨rfl, rfl, .inl ⟨.null, rfl⟩, .inl ⟨rfl, rfl⟩⟩ ?_ .list (vfields_members hn hf hnz fun f hf n a he => (hb.2.2.2.2 f hf n a he).1) ?_
      · cases big <;> rfl
      · have h0 := hb.1.nonempty
        cases l with
        | nil => exact absurd rfl h0
        | cons _ _ => exact value_iff.mpr rfl
      · rw [openVFieldDefns_names, hnm]
        exact hb.1.distinct
    · cases h
  | group b i df l =>
    simp only at h hb ⊢
    split at h
    · rename_i base ms hbase hms
      split at h
      · rename_i ht
        cases h
        obtain ⟨h1, h2, h3, h4⟩ := told_iff.mp ht
        obtain ⟨hall, hdef, hfind⟩ := members_named (bare := bare) hn hms
        obtain ⟨hl, hts⟩ := vmembersOf_some hms
        obtain ⟨hbm, hbn⟩ := vtypeNamed_some hbase
        have hbne : b ≠ "" := hbn ▸ hnames _ hbm
        have hlne : l ≠ [] := by
          rw [← hl]
          simpa using h2
        have hdn : ((openMemberDefns bare ms).map (·.name)).Nodup := by
          rw [memberDefns_records, List.map_map]
          simp only [Function.comp_def, openDefn_name]
          exact records_names (fun t ht u hu he => vnames_unique hn (hts t (records_types ht)) (hts u (records_types hu)) he)
            h3 h4
        have hx : ∀ d ∈ openMemberDefns bare ms, ∃ inner, d.members? = some inner ∧ ∃ x ∈ inner, x.name = i := by
          intro d hd
          rw [memberDefns_records] at hd
          obtain ⟨t, htm, rfl⟩ := List.mem_map.mp hd
          exact keys_member (h3 t htm)
        rw [openDefn]
        have hlt : ¬ NoValue (.list (l.map .str)) := by
          cases l with
          | nil => exact absurd rfl hlne
          | cons _ _ => exact value_iff.mpr rfl
        have hbt : ¬ NoValue (.str b) := value_iff.mpr (by simpa [Yaml.truthy] using hbne)
        cases df with
        | none =>
          refine ⟨_, d.name, "structure-group", rfl, rfl, hne, rfl, knownKeys_mapping rfl, ?_⟩
          refine .group rfl ⟨rfl, (openDefn_orderOrNative bare base).symm, .inl ⟨.null, rfl⟩, .inl ⟨rfl, rfl⟩⟩
            ⟨b, rfl, find_vtype hn hbase⟩ hbt rfl hb (.inl ⟨.null, hdef⟩) hlt .list hall hdn hx
        | some n =>
          obtain ⟨e, he⟩ := hfind n rfl
          have hnn : n ≠ "" := by
            rintro rfl
            exact default_named hnames hms
          have hnt : ¬ NoValue (.str n) := value_iff.mpr (by simpa [Yaml.truthy] using hnn)
          refine ⟨_, d.name, "structure-group", rfl, rfl, hne, rfl, knownKeys_mapping rfl, ?_⟩
          refine .group rfl ⟨rfl, (openDefn_orderOrNative bare base).symm, .inl ⟨.null, rfl⟩, .inl ⟨rfl, rfl⟩⟩
            ⟨b, rfl, find_vtype hn hbase⟩ hbt rfl hb
            (.inr ⟨hnt, e, ⟨n, rfl, he⟩, hdef.trans he⟩)
            hlt .list hall hdn hx
      · cases h
    · cases h

theorem vfile_library {E : Env} (A : Arithmetic E) {bare : List String} (ds : List VDecl) {ts us : List VTy}
    (h : vtypesOf bare ts ds = some us) (hn : ((ts ++ us).map (E.lower ·.name)).Nodup) (hu : ∀ d ∈ ds, d.Usable E)
    (hbare : ∀ d ∈ ds, d.isBare = true ↔ d.name ∈ bare) (hnames : ∀ t ∈ ts, t.name ≠ "")
    (hok : ∀ t ∈ ts, VTyOk E t ∧ t.Filled bare) :
    Library E (ts.map (openDefn bare)) (ds.map VDecl.doc) (us.map (openDefn bare)) ∧
      ∀ t ∈ us, VTyOk E t ∧ t.Filled bare := by
  induction ds generalizing ts us with
  | nil => cases h; exact ⟨.nil, by simp⟩
  | cons d ds ih =>
    unfold vtypesOf at h
    split at h
    · cases h
    rename_i t ht
    split at h
    · cases h
    rename_i vs hv
    cases h
    have hd := hu d (List.mem_cons_self ..)
    have hnt : (ts.map (E.lower ·.name)).Nodup := by
      rw [List.map_append] at hn
      exact (List.nodup_append.mp hn).1
    have hto : VTyOk E t ∧ t.Filled bare :=
      ⟨vdeclType_ok ht hd (fun t ht => (hok t ht).1) hnt, vdeclType_filled ht fun t ht => (hok t ht).2⟩
    have hname := vdeclType_name ht
    obtain ⟨hlib, hall⟩ := ih (ts := ts ++ [t]) hv (by simpa using hn) (fun x hx => hu x (List.mem_cons_of_mem _ hx))
      (fun x hx => hbare x (List.mem_cons_of_mem _ hx))
      (by
        intro x hx
        rcases List.mem_append.mp hx with hx | hx
        · exact hnames x hx
        · rw [List.mem_singleton.mp hx, hname]
          exact hd.1)
      (by
        intro x hx
        rcases List.mem_append.mp hx with hx | hx
        · exact hok x hx
        · rw [List.mem_singleton.mp hx]
          exact hto)
    refine ⟨.cons (vdecl_describes A hnt hnames ht hd (hbare d (List.mem_cons_self ..))) ?_ ?_, ?_⟩
    · intro y hy
      obtain ⟨u, hu', rfl⟩ := List.mem_map.mp hy
      rw [openDefn_name, openDefn_name, show (openDefn bare u).hdr.aliases = [] by
        cases u <;> rw [openDefn]
        case fixed u => cases u <;> rw [openTyDefn] <;> rfl
        all_goals rfl]
      refine ⟨?_, by simp, by simp⟩
      rw [List.map_append] at hn
      exact (List.nodup_append.mp hn).2.2 _ (List.mem_map.mpr ⟨u, hu', rfl⟩) _
        (List.mem_map.mpr ⟨t, List.mem_cons_self .., rfl⟩)
    · simpa using hlib
    · intro x hx
      rcases List.mem_cons.mp hx with rfl | hx
      · exact hto
      · exact hall x hx

theorem bareOf_iff {E : Env} {ds : List VDecl} (hn : (ds.map (E.lower ·.name)).Nodup) :
    ∀ d ∈ ds, d.isBare = true ↔ d.name ∈ bareOf ds := by
  intro d hd
  have hu : ∀ e ∈ ds, e.name = d.name → e = d := by
    induction ds with
    | nil => cases hd
    | cons x ds ih =>
      rw [List.map_cons, List.nodup_cons] at hn
      intro e he hen
      rcases List.mem_cons.mp hd with h1 | h1 <;> rcases List.mem_cons.mp he with h2 | h2
      · rw [h1, h2]
      · exact absurd (List.mem_map.mpr ⟨e, h2, by rw [hen, h1]⟩) hn.1
      · exact absurd (List.mem_map.mpr ⟨d, h1, by rw [← hen, h2]⟩) hn.1
      · exact ih hn.2 h1 e h2 hen
  unfold bareOf
  constructor
  · intro h
    exact List.mem_map.mpr ⟨d, List.mem_filter.mpr ⟨hd, h⟩, rfl⟩
  · intro h
    obtain ⟨e, he, hen⟩ := List.mem_map.mp h
    obtain ⟨he, hb⟩ := List.mem_filter.mp he
    rw [← hu e he hen]
    exact hb

theorem vtypes_nodup {E : Env} {ds : List VDecl} {ts : List VTy} (h : fileTypes ds = some ts)
    (hn : (ds.map (E.lower ·.name)).Nodup) : (ts.map (E.lower ·.name)).Nodup := by
  have := vtypesOf_names h
  rw [show ts.map (E.lower ·.name) = (ts.map VTy.name).map E.lower by rw [List.map_map]; rfl, this, List.map_map]
  exact hn

theorem vfile_read {E : Env} (A : Arithmetic E) {ds : List VDecl} {ts : List VTy}
    (h : fileTypes ds = some ts) (hn : (ds.map (E.lower ·.name)).Nodup) (hu : ∀ d ∈ ds, d.Usable E) :
    (readFileObject E {} { docs := ds.map VDecl.doc }).1 = .ok () ∧
      ∀ t ∈ ts, (readFileObject E {} { docs := ds.map VDecl.doc }).2.getByName E t.name =
        some (openDefn (bareOf ds) t) := by
  have hnm := vtypes_nodup h hn
  obtain ⟨hlib, -⟩ := vfile_library A ds h (by simpa using hnm) hu (bareOf_iff hn) (by simp) (by simp)
  obtain ⟨hread, hdefs⟩ := (C55_file E [] { docs := ds.map VDecl.doc } (ts.map (openDefn (bareOf ds)))).mpr ⟨rfl, hlib⟩
  refine ⟨hread, ?_⟩
  intro t ht
  have h1 := C55_lookup E [{ docs := ds.map VDecl.doc }] t.name
  have h2 : readFiles E [{ docs := ds.map VDecl.doc }] =
    (readFileObject E {} { docs := ds.map VDecl.doc }).2 := rfl
  have h3 : ([] : List YamlFile) ++ [{ docs := ds.map VDecl.doc }] = [{ docs := ds.map VDecl.doc }] := rfl
  have h4 : (readFiles E []).getDefinitions = [] := rfl
  rw [h3, h4, List.nil_append] at hdefs
  rw [hdefs, h2] at h1
  rw [h1]
  unfold findName
  have := find_unique (E := E) (prev := ts.map (openDefn (bareOf ds))) (by
    rw [List.map_map]
    simpa only [Function.comp_def, openDefn_name] using hnm) (List.mem_map.mpr ⟨t, ht, rfl⟩)
  rw [openDefn_name] at this
  rw [this]

/-! ### The theorem -/

theorem nsGet_map_lookup (ns : Namespace) (r : String) : (given ns).lookup r =
    (nsGet ns r).map fun v => if r = "__builtins__" then .record [] else seen v := by
  rw [← lookup_nsGet]
  induction ns with
  | nil => rfl
  | cons p ns ih =>
    rw [given, List.map_cons, List.lookup_cons, List.lookup_cons]
    by_cases h : r = p.1
    · subst h; simp
    · rw [show (r == p.1) = false by simpa using h]
      exact ih

theorem agrees_given {ns : Namespace} (hn : (ns.map (·.1)).Nodup) : Agrees (given ns) ns ns := by
  have hk : ∀ r, nsGet ns r ≠ none → r ∈ (given ns).map (·.1) := by
    intro r hr
    rw [given, List.map_map]
    unfold nsGet at hr
    rw [ne_eq, Option.map_eq_none_iff, ← ne_eq, Option.ne_none_iff_exists'] at hr
    obtain ⟨p, hp⟩ := hr
    exact List.mem_map.mpr ⟨p, List.mem_of_find?_eq_some hp, by simpa using List.find?_some hp⟩
  refine ⟨hk, hk, hn, ?_, ?_⟩
  · intro r hr
    rw [nsGet_map_lookup] at hr
    cases hv : nsGet ns r with
    | none => rw [hv] at hr; cases hr
    | some v =>
      rw [hv, Option.map_some, Option.some.injEq] at hr
      split at hr
      · cases hr
      · rename_i hb
        refine ⟨hb, ?_⟩
        cases v <;> first | exact ⟨_, rfl, rfl⟩ | cases hr
  · intro r fs f hr hf
    rw [nsGet_map_lookup] at hr
    rw [fieldNumber_eq]
    cases hv : nsGet ns r with
    | none => rw [hv] at hr; cases hr
    | some v =>
      rw [hv, Option.map_some, Option.some.injEq] at hr
      split at hr
      · cases hr; cases hf
      · rename_i hb
        refine ⟨hb, ?_⟩
        cases v with
        | struct c attrs =>
          cases hr
          have := (List.mem_filter.mp hf).2
          obtain ⟨i, hi⟩ := Option.isSome_iff_exists.mp this
          exact ⟨i, hi, hi⟩
        | _ => cases hr; try cases hf

theorem open_created {E : Env} {bare : List String} {t : VTy} (hok : VTyOk E t) (hl : t.Filled bare) (hs : t.Settled bare)
    {m : DMap} (hm : createAs E t.name (orderOf t.big) (vtyDefn t) = .ok m) :
    ∃ m', createMap E (openDefn bare t) = .ok m' ∧ SameMap m' m := by
  have hm : createMap E (vtyDefn t) = .ok m := by
    rw [createMap, vtyDefn_name, Defn.orderOrNative, vtyDefn_order]
    exact hm
  have := open_map bare hok hl hs
  rw [hm] at this
  generalize createMap E (openDefn bare t) = r at this
  cases this with
  | ok h => exact ⟨_, rfl, h⟩

/-- A fabric made from a file of declarations knows the types it declares: every
type has a map that reads exactly what the type means and tells how many bytes it
took. Where the bytes do not suffice, it raises ByteStreamTooSmallError; where a length
is negative, bytes are no text, a field has a number it may not hold or no record of a
group has the number of the base, MappingError. The expressions of the type name numbers
the caller supplies and number fields that come before; no value the caller supplies has
the name of a record of the type. Scalars and UUIDs may leave out their byte order; the
types meant are those for which it is known nevertheless. -/
theorem C71_fabric (E : Env) (A : Arithmetic E) (ds : List VDecl) (ts : List VTy)
    (h : fileTypes ds = some ts) (hn : (ds.map (E.lower ·.name)).Nodup) (hu : ∀ d ∈ ds, d.Usable E) :
    ∃ reg, fabric E (some { docs := ds.map VDecl.doc }) = .ok reg ∧
      ∀ t ∈ ts, t.Settled (bareOf ds) → t.height ≤ 11 → ∃ m, reg.createDataTypeMap E t.name = .ok m ∧
        ∀ bs off (c : Ctx), c.Clean → off ≤ bs.length → (c.values.map (·.1)).Nodup → t.Scoped (given c.values) →
          match t.read E.decode bs.length c.values (bs.drop off) with
          | .done v rest => (mapStream E m bs off 0 c).1 = .ok v ∧
            ∃ n : Nat, (mapStream E m bs off 0 c).2.byteSize = some n ∧ off + n ≤ bs.length ∧ rest = bs.drop (off + n)
          | .short => (mapStream E m bs off 0 c).1 = .error .tooSmall
          | .invalid => (mapStream E m bs off 0 c).1 = .error .mapping := by
  have hnm := vtypes_nodup h hn
  obtain ⟨-, hok⟩ := vfile_library A ds h (by simpa using hnm) hu (bareOf_iff hn) (by simp) (by simp)
  obtain ⟨hread, hlook⟩ := vfile_read A h hn hu
  refine ⟨_, fabric_some hread, ?_⟩
  intro t ht hset hh
  have hlook := hlook t ht
  obtain ⟨m, hm, hr⟩ := vty_mapped A t (hok t ht).1
  obtain ⟨m', hm', hsame⟩ := open_created (hok t ht).1 (hok t ht).2 hset hm
  refine ⟨m', ?_, ?_⟩
  · unfold Registry.createDataTypeMap
    rw [hlook]
    exact hm'
  · intro bs off c hc hoff hd hs
    simp only [mapStream_sameMap E hsame]
    have hp := hr _ hs bs off 0 c.values c.values hoff (by omega) (agrees_given hd)
    generalize t.read E.decode bs.length c.values (bs.drop off) = o at hp ⊢
    cases o with
    | done v rest =>
      obtain ⟨n, hp, hle, hrest⟩ := hp
      rw [Nat.zero_add] at hp
      obtain ⟨h1, h2⟩ := mapStream_of_parse hc hp
      exact ⟨h1, n, h2, hle, hrest⟩
    | short => exact (mapStream_error hc).mpr hp
    | invalid => exact (mapStream_error hc).mpr hp

/-! ### Writing -/

/-- What is known of the types declared before: no record of fixed size has a part of
its own name, and all parts are declared. -/
def PartsKnown (names : List String) (t : VTy) : Prop :=
  t.Apart ∧ ∀ u, t = .fixed u → ∀ x ∈ u.parts, x ∈ names

theorem within_parts {names : List String} (bare : List String) (big : Bool) {t : VTy} (h : PartsKnown names t) :
    PartsKnown names (t.within bare big) := by
  obtain ⟨h1, h2⟩ := h
  unfold VTy.within
  split
  · rename_i t
    rw [VTy.Apart] at h1
    have h2 := h2 t rfl
    have : (t.within bare big).Apart ∧ (t.within bare big).parts = t.parts := by
      unfold Ty.within
      split
      · exact ⟨by rw [Ty.Apart]; trivial, by rw [Ty.parts, Ty.parts]⟩
      · exact ⟨by rw [Ty.Apart]; trivial, by rw [Ty.parts, Ty.parts]⟩
      · exact ⟨by rw [Ty.Apart, Ty.Apart]; trivial, by rw [Ty.parts, Ty.parts, Ty.parts, Ty.parts]⟩
      · exact ⟨h1, rfl⟩
    refine ⟨by rw [VTy.Apart]; exact this.1, ?_⟩
    rintro u ⟨⟩ x hx
    rw [this.2] at hx
    exact h2 x hx
  · exact ⟨by rw [VTy.Apart, VTy.Apart, Ty.Apart]; trivial, fun u hu => nomatch hu⟩
  · exact ⟨by rw [VTy.Apart, VTy.Apart, Ty.Apart]; trivial, fun u hu => nomatch hu⟩
  · exact ⟨h1, h2⟩

theorem fields_apart {names : List String} : ∀ {gs : Fields},
    (∀ t ∈ gs.types, t.Apart ∧ ∀ x ∈ t.parts, x ∈ names) → gs.Apart ∧ ∀ x ∈ gs.parts, x ∈ names
  | .nil, _ => by
    rw [Fields.Apart, Fields.parts]
    exact ⟨trivial, by simp⟩
  | .cons n t fs, h => by
    rw [Fields.types] at h
    rw [Fields.Apart, Fields.parts]
    obtain ⟨h1, h2⟩ := h t (List.mem_cons_self ..)
    obtain ⟨h3, h4⟩ := fields_apart fun u hu => h u (List.mem_cons_of_mem _ hu)
    refine ⟨⟨h1, h3⟩, ?_⟩
    intro x hx
    rcases List.mem_append.mp hx with hx | hx
    · exact h2 x hx
    · exact h4 x hx

theorem vfields_apart : ∀ {fs : VFields}, (∀ t ∈ fs.types, t.Apart) → fs.Apart
  | .nil, _ => by rw [VFields.Apart]; trivial
  | .padding n a fs, h => by
    rw [VFields.types] at h
    rw [VFields.Apart]
    exact vfields_apart h
  | .cons n c vs t fs, h => by
    rw [VFields.types] at h
    rw [VFields.Apart]
    exact ⟨h t (List.mem_cons_self ..), vfields_apart fun u hu => h u (List.mem_cons_of_mem _ hu)⟩

theorem vmembers_apart : ∀ {ms : VMembers}, (∀ t ∈ ms.types, t.Apart) → ms.Apart
  | .nil, _ => by rw [VMembers.Apart]; trivial
  | .default t, h => by
    rw [VMembers.types] at h
    rw [VMembers.Apart]
    exact h t (List.mem_singleton.mpr rfl)
  | .cons t ms, h => by
    rw [VMembers.types] at h
    rw [VMembers.Apart]
    exact ⟨h t (List.mem_cons_self ..), vmembers_apart fun u hu => h u (List.mem_cons_of_mem _ hu)⟩

theorem vdeclType_apart {E : Env} {bare : List String} {ts : List VTy} (hts : ∀ t ∈ ts, PartsKnown (ts.map VTy.name) t) {d : VDecl} {t : VTy}
    (h : d.type bare ts = some t) (hd : d.name ∉ ts.map VTy.name) : PartsKnown (d.name :: ts.map VTy.name) t := by
  unfold VDecl.type at h
  split at h
  · cases h
    refine ⟨by rw [VTy.Apart, Ty.Apart]; trivial, ?_⟩
    intro u hu x hx
    cases hu
    rw [Ty.parts] at hx
    rw [List.mem_singleton.mp hx]
    exact List.mem_cons_self ..
  · cases h
    refine ⟨by rw [VTy.Apart, Ty.Apart]; trivial, ?_⟩
    intro u hu x hx
    cases hu
    rw [Ty.parts] at hx
    rw [List.mem_singleton.mp hx]
    exact List.mem_cons_self ..
  · split at h
    · split at h
      · cases h
        exact ⟨by rw [VTy.Apart]; trivial, fun u hu => nomatch hu⟩
      · cases h
    · cases h
  · split at h
    · split at h
      · cases h
        exact ⟨by rw [VTy.Apart]; trivial, fun u hu => nomatch hu⟩
      · cases h
    · cases h
  · split at h
    · rename_i ht
      cases h
      obtain ⟨h1, h2⟩ := hts _ (vtypeNamed_some ht).1
      unfold arrayOf
      split
      · rename_i t n
        rw [VTy.Apart] at h1
        refine ⟨by rw [VTy.Apart, Ty.Apart]; exact h1, ?_⟩
        intro u hu x hx
        cases hu
        rw [Ty.parts] at hx
        rcases List.mem_cons.mp hx with rfl | hx
        · exact List.mem_cons_self ..
        · exact List.mem_cons_of_mem _ (h2 _ rfl x hx)
      · exact ⟨by rw [VTy.Apart]; exact h1, fun u hu => nomatch hu⟩
    · cases h
  · split at h
    · rename_i ht
      split at h
      · cases h
        exact ⟨by rw [VTy.Apart]; exact (hts _ (vtypeNamed_some ht).1).1, fun u hu => nomatch hu⟩
      · cases h
    · cases h
  · split at h
    · rename_i fs hf
      cases h
      have hmem : ∀ t ∈ fs.types, PartsKnown (ts.map VTy.name) t := by
        intro t ht
        obtain ⟨⟨u, hu, rfl⟩, -⟩ := (vfieldsOf_some hf).2.1 t ht
        exact within_parts _ _ (hts u hu)
      unfold recordOf
      split
      · rename_i gs hg
        obtain ⟨-, -, hgt, -⟩ := fixed_some (bare := []) (E := E) hg
        obtain ⟨h1, h2⟩ := fields_apart (names := ts.map VTy.name) (gs := gs) (by
          intro t ht
          obtain ⟨h1, h2⟩ := hmem _ (hgt t ht)
          rw [VTy.Apart] at h1
          exact ⟨h1, h2 t rfl⟩)
        refine ⟨by rw [VTy.Apart, Ty.Apart]; exact ⟨fun hx => hd (h2 _ hx), h1⟩, ?_⟩
        intro u hu x hx
        cases hu
        rw [Ty.parts] at hx
        rcases List.mem_cons.mp hx with rfl | hx
        · exact List.mem_cons_self ..
        · exact List.mem_cons_of_mem _ (h2 x hx)
      · exact ⟨by rw [VTy.Apart]; exact vfields_apart fun t ht => (hmem t ht).1, fun u hu => nomatch hu⟩
    · cases h
  · split at h
    · rename_i base ms hbase hms
      split at h
      · cases h
        refine ⟨?_, fun u hu => nomatch hu⟩
        rw [VTy.Apart]
        exact ⟨(hts _ (vtypeNamed_some hbase).1).1, vmembers_apart fun t ht => (hts t ((vmembersOf_some hms).2 t ht)).1⟩
      · cases h
    · cases h

theorem vfile_apart {E : Env} {bare : List String} (ds : List VDecl) {ts us : List VTy} (h : vtypesOf bare ts ds = some us)
    (hn : ((ts ++ us).map (E.lower ·.name)).Nodup) (hts : ∀ t ∈ ts, PartsKnown (ts.map VTy.name) t) :
    ∀ t ∈ us, t.Apart := by
  induction ds generalizing ts us with
  | nil => cases h; simp
  | cons d ds ih =>
    unfold vtypesOf at h
    split at h
    · cases h
    rename_i t ht
    split at h
    · cases h
    rename_i vs hv
    cases h
    have hname := vdeclType_name ht
    have hd : d.name ∉ ts.map VTy.name := by
      intro hm
      obtain ⟨u, hu, he⟩ := List.mem_map.mp hm
      rw [List.map_append] at hn
      exact (List.nodup_append.mp hn).2.2 _ (List.mem_map.mpr ⟨u, hu, rfl⟩) _
        (List.mem_map.mpr ⟨t, List.mem_cons_self .., rfl⟩) (by rw [he, hname])
    obtain ⟨h1, h2⟩ := vdeclType_apart (E := E) hts ht hd
    have hall := ih (ts := ts ++ [t]) hv (by simpa using hn) (by
      intro x hx
      rw [List.map_append]
      rcases List.mem_append.mp hx with hx | hx
      · exact ⟨(hts x hx).1, fun u hu y hy => List.mem_append_left _ ((hts x hx).2 u hu y hy)⟩
      · rw [List.mem_singleton.mp hx]
        refine ⟨h1, fun u hu y hy => ?_⟩
        rcases List.mem_cons.mp (h2 u hu y hy) with rfl | hy
        · exact List.mem_append_right _ (by simp [hname])
        · exact List.mem_append_left _ hy)
    intro x hx
    rcases List.mem_cons.mp hx with rfl | hx
    · exact h1
    · exact hall x hx

/-- Bytes that mean a value are what the value is folded to: for types without arrays
and groups whose lengths depend on the record they are in only, without booleans, and with
encodings that are lossless. `Kept` is as in C31 and holds of every value without
floating-point numbers. -/
theorem C72_fold (E : Env) (A : Arithmetic E) (ds : List VDecl) (ts : List VTy)
    (h : fileTypes ds = some ts) (hn : (ds.map (E.lower ·.name)).Nodup) (hu : ∀ d ∈ ds, d.Usable E) {reg : Registry}
    (hf : fabric E (some { docs := ds.map VDecl.doc }) = .ok reg) :
    ∀ t ∈ ts, t.Settled (bareOf ds) → t.height ≤ 11 → ∃ m, reg.createDataTypeMap E t.name = .ok m ∧
      ∀ values : Scope, (values.map (·.1)).Nodup → t.Scoped (given values) → t.Writable E (given values) →
        ∀ size b v rest, t.read E.decode size values (b ++ rest) = .done v rest → Kept E v →
          fold E m v values = .ok (.bytes b) := by
  have hnm := vtypes_nodup h hn
  obtain ⟨-, hok⟩ := vfile_library A ds h (by simpa using hnm) hu (bareOf_iff hn) (by simp) (by simp)
  obtain ⟨hread, hlook⟩ := vfile_read A h hn hu
  rw [fabric_some hread] at hf
  cases hf
  intro t ht hset hh
  obtain ⟨m, hm, -⟩ := vty_mapped A t (hok t ht).1
  obtain ⟨m', hm', hsame⟩ := open_created (hok t ht).1 (hok t ht).2 hset hm
  refine ⟨m', ?_, ?_⟩
  · unfold Registry.createDataTypeMap
    rw [hlook t ht]
    exact hm'
  · intro values hd hs hw size b v rest hr hk
    rw [fold_same E hsame]
    have hag := agrees_given hd
    have hap := vfile_apart ds h (by simpa using hnm) (by simp) t ht
    obtain ⟨b', h1, h2⟩ := vty_folds A t (hok t ht).1 hap hh m hm _ _ values values values _ _ v rest hs hw
      hag.scope hag (fun _ _ => rfl) hr hk
    rw [h1, List.append_cancel_right h2]

/-! ### A file -/

/-- A packet: the number of names, the size of the packet without a header whose size
the caller knows, the names, a checksum if there are names, and the rest. -/
def exVDecls : List VDecl :=
  [⟨"u8", .scalar (some true) (.integer false) 1⟩, ⟨"name", .text "ascii" "u8" (.upto [0])⟩,
    ⟨"names", .array "name" (.field "packet" "count")⟩,
    ⟨"rest", .block "u8" (.bytes (.minus (.field "packet" "size") (.given "header")))⟩,
    ⟨"packet", .record true [.field "count" none [] "u8", .field "size" none [] "u8", .field "names" none [] "names",
      .field "sum" (some (.compare .lt (.number 0) (.field "packet" "count"))) [] "u8", .field "rest" none [] "rest"]⟩]

def exVName : VTy := .text "name" "ascii" (.scalar "u8" true (.integer false) 1) (.upto [0])

def exVFields : VFields :=
  .cons "count" none [] (.fixed (.scalar "u8" true (.integer false) 1))
    (.cons "size" none [] (.fixed (.scalar "u8" true (.integer false) 1))
    (.cons "names" none [] (.array "names" exVName (.field "packet" "count"))
    (.cons "sum" (some (.compare .lt (.number 0) (.field "packet" "count"))) [] (.fixed (.scalar "u8" true (.integer false) 1))
    (.cons "rest" none [] (.block "rest" (.scalar "u8" true (.integer false) 1)
      (.bytes (.minus (.field "packet" "size") (.given "header")))) .nil))))

def exVPacket : VTy := .record "packet" true exVFields

example : (fileTypes exVDecls).bind (·[4]?) = some exVPacket := rfl

/-- The packet has two names, a checksum and two more bytes. -/
theorem exV_read : exVPacket.read exEnv.decode 11 [("header", .int 3)] [2, 5, 97, 98, 0, 99, 0, 7, 8, 9, 1] =
    .done (.struct "packet" [("count", .int 2), ("size", .int 5), ("names", .tuple [.str [97, 98], .str [99]]),
      ("sum", .int 7), ("rest", .bytes [8, 9])]) [1] := rfl

/-- No name, so no checksum. -/
theorem exV_absent : exVPacket.read exEnv.decode 4 [("header", .int 3)] [0, 4, 7, 8] =
    .done (.struct "packet" [("count", .int 0), ("size", .int 4), ("names", .tuple []), ("sum", .pyNone),
      ("rest", .bytes [7])]) [8] := rfl

/-- The size is smaller than that of the header. -/
theorem exV_invalid : exVPacket.read exEnv.decode 4 [("header", .int 3)] [0, 1, 7, 8] = .invalid := rfl

/-- The second name does not end. -/
theorem exV_short : exVPacket.read exEnv.decode 6 [("header", .int 3)] [2, 5, 97, 98, 0, 99] = .short := rfl

theorem exV_usable {n : String} (h1 : ∀ c ∈ n.toList, c.isAlphanum = true) (h2 : n.toList ≠ [])
    (h3 : ∀ c, n.toList.head? = some c → c.isDigit = false) (h4 : arithEnv.isKeyword n = false) :
    Spec.Usable arithEnv n :=
  ⟨⟨h2, h3, fun c hc => .inl (h1 c hc)⟩, h4, rfl⟩

theorem exV_packet : Spec.Usable arithEnv "packet" := exV_usable (by decide +kernel) (by decide +kernel) (by decide +kernel) (by decide)
theorem exV_count : Spec.Usable arithEnv "count" := exV_usable (by decide +kernel) (by decide +kernel) (by decide +kernel) (by decide)
theorem exV_size : Spec.Usable arithEnv "size" := exV_usable (by decide +kernel) (by decide +kernel) (by decide +kernel) (by decide)
theorem exV_header : Spec.Usable arithEnv "header" := exV_usable (by decide +kernel) (by decide +kernel) (by decide +kernel) (by decide)

theorem exVDecls_usable : ∀ d ∈ exVDecls, d.Usable arithEnv := by
  intro d hd
  simp only [exVDecls, List.mem_cons, List.not_mem_nil, or_false] at hd
  rcases hd with rfl | rfl | rfl | rfl | rfl
  · exact ⟨by decide, by decide, .inl rfl⟩
  · exact ⟨by decide, by decide, by decide, by decide, by decide⟩
  · exact ⟨by decide, by decide, expr_accepted ⟨exV_packet, exV_count⟩, fun n h => nomatch h⟩
  · exact ⟨by decide, by decide, expr_accepted ⟨⟨exV_packet, exV_size⟩, exV_header⟩, fun n h => nomatch h⟩
  · refine ⟨by decide, by decide, validateClass_iff.mp rfl, by decide, by decide, ?_, ?_⟩
    · intro f hf n c vs t ht
      simp only [List.mem_cons, List.not_mem_nil, or_false] at hf
      rcases hf with rfl | rfl | rfl | rfl | rfl <;> cases ht
      exact test_accepted ⟨trivial, exV_packet, exV_count⟩
    · intro f hf n a ht
      simp only [List.mem_cons, List.not_mem_nil, or_false] at hf
      rcases hf with rfl | rfl | rfl | rfl | rfl <;> cases ht

theorem exV_scoped : exVPacket.Scoped (given [("header", .int 3)]) := by
  simp [exVPacket, exVFields, exVName, VTy.Scoped, VFields.Scoped, given, seen, VTy.IsNumber, Len.Within, Test.Within,
    Expr.Within, List.lookup]

/-- The fabric of the file reads packets. -/
example : ∃ reg m, fabric arithEnv (some { docs := exVDecls.map VDecl.doc }) = .ok reg ∧
    reg.createDataTypeMap arithEnv "packet" = .ok m ∧
      (mapStream arithEnv m [2, 5, 97, 98, 0, 99, 0, 7, 8, 9, 1] 0 0 { values := [("header", .int 3)] }).1 =
        .ok (.struct "packet" [("count", .int 2), ("size", .int 5), ("names", .tuple [.str [97, 98], .str [99]]),
          ("sum", .int 7), ("rest", .bytes [8, 9])]) ∧
      (mapStream arithEnv m [0, 1, 7, 8] 0 0 { values := [("header", .int 3)] }).1 = .error .mapping ∧
      (mapStream arithEnv m [2, 5, 97, 98, 0, 99] 0 0 { values := [("header", .int 3)] }).1 = .error .tooSmall := by
  obtain ⟨reg, hf, h⟩ := C71_fabric arithEnv arithmetic_exists exVDecls _ rfl (by decide) exVDecls_usable
  obtain ⟨m, hm, hr⟩ := h exVPacket (.tail _ (.tail _ (.tail _ (.tail _ (.head _))))) (settled_nil _) (by decide)
  have hd : ((([("header", .int 3)] : Namespace)).map (·.1)).Nodup := by decide
  have h1 := hr [2, 5, 97, 98, 0, 99, 0, 7, 8, 9, 1] 0 { values := [("header", .int 3)] } rfl (by decide) hd exV_scoped
  have h2 := hr [0, 1, 7, 8] 0 { values := [("header", .int 3)] } rfl (by decide) hd exV_scoped
  have h3 := hr [2, 5, 97, 98, 0, 99] 0 { values := [("header", .int 3)] } rfl (by decide) hd exV_scoped
  rw [List.drop_zero, show arithEnv.decode = exEnv.decode from rfl] at h1 h2 h3
  rw [show ([2, 5, 97, 98, 0, 99, 0, 7, 8, 9, 1] : Bytes).length = 11 from rfl, exV_read] at h1
  rw [show ([0, 1, 7, 8] : Bytes).length = 4 from rfl, exV_invalid] at h2
  rw [show ([2, 5, 97, 98, 0, 99] : Bytes).length = 6 from rfl, exV_short] at h3
  exact ⟨reg, m, hf, hm, h1.1, h2, h3⟩

/-! ### A file with groups, supported values and padding -/

/-- Items of three kinds, told apart by their first byte: a point, with its coordinate at a
multiple of four bytes, a text, or anything else. -/
def exGDecls : List VDecl :=
  [⟨"u8", .scalar (some true) (.integer false) 1⟩, ⟨"u32", .scalar (some true) (.integer false) 4⟩,
    ⟨"head", .record true [.field "kind" none [] "u8"]⟩,
    ⟨"point", .record true [.field "kind" none [1] "u8", .padding "gap" 4, .field "x" none [] "u32"]⟩,
    ⟨"letters", .block "u8" (.bytes (.field "word" "size"))⟩,
    ⟨"word", .record true [.field "kind" none [2, 3] "u8", .field "size" none [] "u8", .field "letters" none [] "letters"]⟩,
    ⟨"item", .group "head" "kind" (some "head") ["point", "word"]⟩,
    ⟨"items", .array "item" (.given "count")⟩]

def exGU8 : VTy := .fixed (.scalar "u8" true (.integer false) 1)

def exGHead : VTy := .fixed (.record "head" true (.cons "kind" (.scalar "u8" true (.integer false) 1) .nil))

def exGPoint : VTy := .record "point" true (.cons "kind" none [1] exGU8 (.padding "gap" 4
  (.cons "x" none [] (.fixed (.scalar "u32" true (.integer false) 4)) .nil)))

def exGWord : VTy := .record "word" true (.cons "kind" none [2, 3] exGU8 (.cons "size" none [] exGU8
  (.cons "letters" none [] (.block "letters" (.scalar "u8" true (.integer false) 1) (.bytes (.field "word" "size"))) .nil)))

def exGItems : VTy :=
  .array "items" (.group "item" exGHead "kind" (.cons exGPoint (.cons exGWord (.default exGHead)))) (.given "count")

theorem exG_types : (fileTypes exGDecls).bind (·[7]?) = some exGItems := rfl

/-- A word, another item and a point at offset 5; its coordinate is at offset 8. -/
theorem exG_read : exGItems.read exEnv.decode 13 [("count", .int 3)] [3, 2, 97, 98, 9, 1, 7, 7, 0, 0, 1, 0, 5] =
    .done (.tuple [.struct "word" [("kind", .int 3), ("size", .int 2), ("letters", .bytes [97, 98])],
      .struct "head" [("kind", .int 9)],
      .struct "point" [("kind", .int 1), ("gap", .bytes [7, 7]), ("x", .int 256)]]) [5] := rfl

/-- Without a record for all other cases the second item is invalid. -/
theorem exG_invalid : (VTy.array "items" (.group "item" exGHead "kind" (.cons exGPoint (.cons exGWord .nil)))
    (.given "count")).read exEnv.decode 13 [("count", .int 3)] [3, 2, 97, 98, 9, 1, 7, 7, 0, 0, 1, 0, 5] =
    .invalid := rfl

/-- The point does not fit. -/
theorem exG_short : exGItems.read exEnv.decode 7 [("count", .int 1)] [1, 7, 7, 7, 0, 0, 1] = .short := rfl

theorem exG_word : Spec.Usable arithEnv "word" := exV_usable (by decide +kernel) (by decide +kernel) (by decide +kernel) (by decide)

theorem exGDecls_usable : ∀ d ∈ exGDecls, d.Usable arithEnv := by
  intro d hd
  simp only [exGDecls, List.mem_cons, List.not_mem_nil, or_false] at hd
  rcases hd with rfl | rfl | rfl | rfl | rfl | rfl | rfl | rfl
  · exact ⟨by decide, by decide, .inl rfl⟩
  · exact ⟨by decide, by decide, .inr (.inr (.inl rfl))⟩
  · refine ⟨by decide, by decide, validateClass_iff.mp rfl, by decide, by decide, ?_, ?_⟩
    · intro f hf n c vs t ht
      rw [List.mem_singleton.mp hf] at ht
      cases ht
    · intro f hf n a ht
      rw [List.mem_singleton.mp hf] at ht
      cases ht
  · refine ⟨by decide, by decide, validateClass_iff.mp rfl, by decide, by decide, ?_, ?_⟩
    · intro f hf n c vs t ht
      simp only [List.mem_cons, List.not_mem_nil, or_false] at hf
      rcases hf with rfl | rfl | rfl <;> cases ht
    · intro f hf n a ht
      simp only [List.mem_cons, List.not_mem_nil, or_false] at hf
      rcases hf with rfl | rfl | rfl <;> cases ht
      refine ⟨by decide, by decide +kernel, ?_⟩
      intro g hg m c vs t ht
      simp only [List.mem_cons, List.not_mem_nil, or_false] at hg
      rcases hg with rfl | rfl | rfl <;> cases ht <;> decide
  · exact ⟨by decide, by decide, expr_accepted ⟨exG_word, exV_size⟩, fun n h => nomatch h⟩
  · refine ⟨by decide, by decide, validateClass_iff.mp rfl, by decide, by decide, ?_, ?_⟩
    · intro f hf n c vs t ht
      simp only [List.mem_cons, List.not_mem_nil, or_false] at hf
      rcases hf with rfl | rfl | rfl <;> cases ht
    · intro f hf n a ht
      simp only [List.mem_cons, List.not_mem_nil, or_false] at hf
      rcases hf with rfl | rfl | rfl <;> cases ht
  · exact ⟨by decide, by decide, by decide⟩
  · exact ⟨by decide, by decide, expr_accepted exV_count, fun n h => nomatch h⟩

theorem exG_scoped (i : Int) : exGItems.Scoped (given [("count", .int i)]) := by
  simp [exGItems, exGHead, exGPoint, exGWord, exGU8, VTy.Scoped, VFields.Scoped, VMembers.Scoped, given, seen,
    VTy.IsNumber, Len.Within, Expr.Within, List.lookup]

/-- The fabric of the file reads items. -/
example : ∃ reg m, fabric arithEnv (some { docs := exGDecls.map VDecl.doc }) = .ok reg ∧
    reg.createDataTypeMap arithEnv "items" = .ok m ∧
      (mapStream arithEnv m [3, 2, 97, 98, 9, 1, 7, 7, 0, 0, 1, 0, 5] 0 0 { values := [("count", .int 3)] }).1 =
        .ok (.tuple [.struct "word" [("kind", .int 3), ("size", .int 2), ("letters", .bytes [97, 98])],
          .struct "head" [("kind", .int 9)],
          .struct "point" [("kind", .int 1), ("gap", .bytes [7, 7]), ("x", .int 256)]]) ∧
      (mapStream arithEnv m [1, 7, 7, 7, 0, 0, 1] 0 0 { values := [("count", .int 1)] }).1 = .error .tooSmall := by
  obtain ⟨reg, hf, h⟩ := C71_fabric arithEnv arithmetic_exists exGDecls _ rfl (by decide) exGDecls_usable
  obtain ⟨m, hm, hr⟩ := h exGItems (List.mem_of_getElem? (i := 7) rfl) (settled_nil _) (by decide)
  have h1 := hr [3, 2, 97, 98, 9, 1, 7, 7, 0, 0, 1, 0, 5] 0 { values := [("count", .int 3)] } rfl (by decide) (by decide)
    (exG_scoped 3)
  have h2 := hr [1, 7, 7, 7, 0, 0, 1] 0 { values := [("count", .int 1)] } rfl (by decide) (by decide) (exG_scoped 1)
  rw [List.drop_zero, show arithEnv.decode = exEnv.decode from rfl] at h1 h2
  rw [show ([3, 2, 97, 98, 9, 1, 7, 7, 0, 0, 1, 0, 5] : Bytes).length = 13 from rfl, exG_read] at h1
  rw [show ([1, 7, 7, 7, 0, 0, 1] : Bytes).length = 7 from rfl, exG_short] at h2
  exact ⟨reg, m, hf, hm, h1.1, h2⟩

/-! ### A file of types that can be written -/

/-- A record: the size of its body, a name, a checksum if the body is not empty, and the
body. -/
def exWDecls : List VDecl :=
  [⟨"u8", .scalar (some true) (.integer false) 1⟩, ⟨"name", .text "ascii" "u8" (.upto [0])⟩,
    ⟨"body", .block "u8" (.bytes (.minus (.field "record" "size") (.number 1)))⟩,
    ⟨"record", .record true [.field "size" none [] "u8", .field "name" none [] "name",
      .field "sum" (some (.compare .lt (.number 1) (.field "record" "size"))) [] "u8", .field "body" none [] "body"]⟩]

def exWRecord : VTy :=
  .record "record" true (.cons "size" none [] (.fixed (.scalar "u8" true (.integer false) 1))
    (.cons "name" none [] exVName
    (.cons "sum" (some (.compare .lt (.number 1) (.field "record" "size"))) [] (.fixed (.scalar "u8" true (.integer false) 1))
    (.cons "body" none [] (.block "body" (.scalar "u8" true (.integer false) 1)
      (.bytes (.minus (.field "record" "size") (.number 1)))) .nil))))

example : (fileTypes exWDecls).bind (·[3]?) = some exWRecord := rfl

theorem exW_record : Spec.Usable arithEnv "record" := exV_usable (by decide +kernel) (by decide +kernel) (by decide +kernel) (by decide)

theorem exWDecls_usable : ∀ d ∈ exWDecls, d.Usable arithEnv := by
  intro d hd
  simp only [exWDecls, List.mem_cons, List.not_mem_nil, or_false] at hd
  rcases hd with rfl | rfl | rfl | rfl
  · exact ⟨by decide, by decide, .inl rfl⟩
  · exact ⟨by decide, by decide, by decide, by decide, by decide⟩
  · exact ⟨by decide, by decide, expr_accepted ⟨⟨exW_record, exV_size⟩, trivial⟩, fun n h => nomatch h⟩
  · refine ⟨by decide, by decide, validateClass_iff.mp rfl, by decide, by decide, ?_, ?_⟩
    · intro f hf n c vs t ht
      simp only [List.mem_cons, List.not_mem_nil, or_false] at hf
      rcases hf with rfl | rfl | rfl | rfl <;> cases ht
      exact test_accepted ⟨trivial, exW_record, exV_size⟩
    · intro f hf n a ht
      simp only [List.mem_cons, List.not_mem_nil, or_false] at hf
      rcases hf with rfl | rfl | rfl | rfl <;> cases ht

theorem exW_lossless : Lossless arithEnv "ascii" := by
  intro b cs h
  rw [← Option.some.inj (show some (b.map (·.toNat)) = some cs from h)]
  clear h
  show some ((b.map (·.toNat)).map UInt8.ofNat) = some b
  rw [List.map_map]
  congr 1
  induction b with
  | nil => rfl
  | cons x b ih => rw [List.map_cons, ih]; simp

theorem exW_scoped : exWRecord.Scoped (given []) := by
  simp [exWRecord, exVName, VTy.Scoped, VFields.Scoped, given, VTy.IsNumber, Len.Within, Test.Within, Expr.Within,
    List.lookup]

theorem exW_writable : exWRecord.Writable arithEnv (given []) := by
  simp [exWRecord, exVName, VTy.Writable, VFields.Writable, Ty.Writable, given, VTy.IsNumber, Len.Within, Len.Whole,
    Expr.Within, List.lookup, exW_lossless]

theorem exW_read : exWRecord.read exEnv.decode 8 [] ([3, 97, 98, 0, 7, 8, 9] ++ [1]) =
    .done (.struct "record" [("size", .int 3), ("name", .str [97, 98]), ("sum", .int 7), ("body", .bytes [8, 9])]) [1] := rfl

/-- The fabric of the file writes records. -/
example : ∃ reg m, fabric arithEnv (some { docs := exWDecls.map VDecl.doc }) = .ok reg ∧
    reg.createDataTypeMap arithEnv "record" = .ok m ∧
      fold arithEnv m (.struct "record" [("size", .int 3), ("name", .str [97, 98]), ("sum", .int 7), ("body", .bytes [8, 9])])
        [] = .ok (.bytes [3, 97, 98, 0, 7, 8, 9]) := by
  obtain ⟨reg, hf, -⟩ := C71_fabric arithEnv arithmetic_exists exWDecls _ rfl (by decide) exWDecls_usable
  obtain ⟨m, hm, hr⟩ := C72_fold arithEnv arithmetic_exists exWDecls _ rfl (by decide) exWDecls_usable hf exWRecord
    (.tail _ (.tail _ (.tail _ (.head _)))) (settled_nil _) (by decide)
  refine ⟨reg, m, hf, hm, hr [] .nil exW_scoped exW_writable _ _ _ _ exW_read ?_⟩
  intro f hfl
  cases hfl with
  | struct hx hfl =>
    simp only [List.mem_cons, List.not_mem_nil, or_false, Prod.mk.injEq] at hx
    rcases hx with ⟨-, rfl⟩ | ⟨-, rfl⟩ | ⟨-, rfl⟩ | ⟨-, rfl⟩ <;> cases hfl

theorem exG_writable : exGPoint.Writable arithEnv (given []) := by
  simp [exGPoint, exGU8, VTy.Writable, VFields.Writable, Ty.Writable, given]

/-- Padding is written as it was read. -/
example : ∃ reg m, fabric arithEnv (some { docs := exGDecls.map VDecl.doc }) = .ok reg ∧
    reg.createDataTypeMap arithEnv "point" = .ok m ∧
      fold arithEnv m (.struct "point" [("kind", .int 1), ("gap", .bytes [7, 8, 9]), ("x", .int 256)]) [] =
        .ok (.bytes [1, 7, 8, 9, 0, 0, 1, 0]) := by
  obtain ⟨reg, hf, -⟩ := C71_fabric arithEnv arithmetic_exists exGDecls _ rfl (by decide) exGDecls_usable
  obtain ⟨m, hm, hr⟩ := C72_fold arithEnv arithmetic_exists exGDecls _ rfl (by decide) exGDecls_usable hf exGPoint
    (List.mem_of_getElem? (i := 3) rfl) (settled_nil _) (by decide)
  refine ⟨reg, m, hf, hm, hr [] .nil ?_ exG_writable 10 [1, 7, 8, 9, 0, 0, 1, 0] _ [1, 2] rfl ?_⟩
  · simp [exGPoint, exGU8, VTy.Scoped, VFields.Scoped, given]
  · intro f hfl
    cases hfl with
    | struct hx hfl =>
      simp only [List.mem_cons, List.not_mem_nil, or_false, Prod.mk.injEq] at hx
      rcases hx with ⟨-, rfl⟩ | ⟨-, rfl⟩ | ⟨-, rfl⟩ <;> cases hfl

/-! ### A file with lists, and with texts that have a length and a terminator -/

/-- A page: a label of four bytes, of which only those before the first zero count, the
size of the lines, the lines and codes, of which the number of bytes is given. -/
def exLDecls : List VDecl :=
  [⟨"u8", .scalar (some true) (.integer false) 1⟩, ⟨"u16", .scalar (some true) (.integer false) 2⟩,
    ⟨"label", .text "ascii" "u8" (.bytesTo (.number 4) [0])⟩, ⟨"line", .text "ascii" "u8" (.upto [0])⟩,
    ⟨"lines", .list "line" (.field "page" "size")⟩, ⟨"codes", .list "u16" (.given "rest")⟩,
    ⟨"page", .record true [.field "label" none [] "label", .field "size" none [] "u8", .field "lines" none [] "lines",
      .field "codes" none [] "codes"]⟩]

def exLPage : VTy :=
  .record "page" true (.cons "label" none [] (.text "label" "ascii" (.scalar "u8" true (.integer false) 1)
      (.bytesTo (.number 4) [0]))
    (.cons "size" none [] (.fixed (.scalar "u8" true (.integer false) 1))
    (.cons "lines" none [] (.list "lines" (.text "line" "ascii" (.scalar "u8" true (.integer false) 1) (.upto [0]))
      (.field "page" "size"))
    (.cons "codes" none [] (.list "codes" (.fixed (.scalar "u16" true (.integer false) 2)) (.given "rest")) .nil))))

example : (fileTypes exLDecls).bind (·[6]?) = some exLPage := rfl

/-- The label ends at the first zero. There are five bytes for codes, so two codes. -/
theorem exL_read : exLPage.read exEnv.decode 15 [("rest", .int 5)] [97, 0, 98, 99, 5, 120, 0, 121, 122, 0, 0, 1, 1, 0, 9] =
    .done (.struct "page" [("label", .str [97]), ("size", .int 5), ("lines", .tuple [.str [120], .str [121, 122]]),
      ("codes", .tuple [.int 1, .int 256])]) [9] := rfl

/-- The second line starts before the third byte, so it is read, too. -/
theorem exL_over : exLPage.read exEnv.decode 10 [("rest", .int 0)] [97, 98, 98, 99, 3, 120, 0, 121, 122, 0] =
    .done (.struct "page" [("label", .str [97, 98, 98, 99]), ("size", .int 3),
      ("lines", .tuple [.str [120], .str [121, 122]]), ("codes", .tuple [])]) [] := rfl

/-- The second line does not end. -/
theorem exL_short : exLPage.read exEnv.decode 9 [("rest", .int 0)] [97, 98, 98, 99, 3, 120, 0, 121, 122] = .short := rfl

theorem exL_page : Spec.Usable arithEnv "page" := exV_usable (by decide +kernel) (by decide +kernel) (by decide +kernel) (by decide)
theorem exL_rest : Spec.Usable arithEnv "rest" := exV_usable (by decide +kernel) (by decide +kernel) (by decide +kernel) (by decide)

theorem exLDecls_usable : ∀ d ∈ exLDecls, d.Usable arithEnv := by
  intro d hd
  simp only [exLDecls, List.mem_cons, List.not_mem_nil, or_false] at hd
  rcases hd with rfl | rfl | rfl | rfl | rfl | rfl | rfl
  · exact ⟨by decide, by decide, .inl rfl⟩
  · exact ⟨by decide, by decide, .inr (.inl rfl)⟩
  · refine ⟨by decide, by decide, by decide, expr_accepted trivial, ?_, by decide, by decide⟩
    rintro n ⟨⟩
    decide
  · exact ⟨by decide, by decide, by decide, by decide, by decide⟩
  · exact ⟨by decide, by decide, expr_accepted ⟨exL_page, exV_size⟩, fun n h => nomatch h⟩
  · exact ⟨by decide, by decide, expr_accepted exL_rest, fun n h => nomatch h⟩
  · refine ⟨by decide, by decide, validateClass_iff.mp rfl, by decide, by decide, ?_, ?_⟩
    · intro f hf n c vs t ht
      simp only [List.mem_cons, List.not_mem_nil, or_false] at hf
      rcases hf with rfl | rfl | rfl | rfl <;> cases ht
    · intro f hf n a ht
      simp only [List.mem_cons, List.not_mem_nil, or_false] at hf
      rcases hf with rfl | rfl | rfl | rfl <;> cases ht

theorem exL_scoped (i : Int) : exLPage.Scoped (given [("rest", .int i)]) := by
  simp [exLPage, VTy.Scoped, VFields.Scoped, given, seen, VTy.IsNumber, Len.Within, Expr.Within, List.lookup]

/-- The fabric of the file reads pages. -/
example : ∃ reg m, fabric arithEnv (some { docs := exLDecls.map VDecl.doc }) = .ok reg ∧
    reg.createDataTypeMap arithEnv "page" = .ok m ∧
      (mapStream arithEnv m [97, 0, 98, 99, 5, 120, 0, 121, 122, 0, 0, 1, 1, 0, 9] 0 0 { values := [("rest", .int 5)] }).1 =
        .ok (.struct "page" [("label", .str [97]), ("size", .int 5), ("lines", .tuple [.str [120], .str [121, 122]]),
          ("codes", .tuple [.int 1, .int 256])]) ∧
      (mapStream arithEnv m [97, 98, 98, 99, 3, 120, 0, 121, 122] 0 0 { values := [("rest", .int 0)] }).1 =
        .error .tooSmall := by
  obtain ⟨reg, hf, h⟩ := C71_fabric arithEnv arithmetic_exists exLDecls _ rfl (by decide) exLDecls_usable
  obtain ⟨m, hm, hr⟩ := h exLPage (List.mem_of_getElem? (i := 6) rfl) (settled_nil _) (by decide)
  have h1 := hr [97, 0, 98, 99, 5, 120, 0, 121, 122, 0, 0, 1, 1, 0, 9] 0 { values := [("rest", .int 5)] } rfl (by decide)
    (by decide) (exL_scoped 5)
  have h2 := hr [97, 98, 98, 99, 3, 120, 0, 121, 122] 0 { values := [("rest", .int 0)] } rfl (by decide) (by decide)
    (exL_scoped 0)
  rw [List.drop_zero, show arithEnv.decode = exEnv.decode from rfl] at h1 h2
  rw [show ([97, 0, 98, 99, 5, 120, 0, 121, 122, 0, 0, 1, 1, 0, 9] : Bytes).length = 15 from rfl, exL_read] at h1
  rw [show ([97, 98, 98, 99, 3, 120, 0, 121, 122] : Bytes).length = 9 from rfl, exL_short] at h2
  exact ⟨reg, m, hf, hm, h1.1, h2⟩

/-! ### A file with flags, quotients and a choice -/

/-- A part: flags, a size, an extra byte if the highest flag is set, as many bytes as half
the size, and a rest, which is empty if the size is zero, or else one byte less than it. -/
def exFDecls : List VDecl :=
  [⟨"u8", .scalar (some true) (.integer false) 1⟩, ⟨"half", .block "u8" (.count (.over (.field "part" "size") 2))⟩,
    ⟨"rest", .block "u8" (.bytes (.choose (.number 0) .eq (.field "part" "size") (.number 0)
      (.minus (.field "part" "size") (.number 1))))⟩,
    ⟨"part", .record true [.field "flags" none [] "u8", .field "size" none [] "u8",
      .field "extra" (some (.compare .ne (.bits (.field "part" "flags") (.number 128)) (.number 0))) [] "u8",
      .field "half" none [] "half", .field "rest" none [] "rest"]⟩]

def exFU8 : Ty := .scalar "u8" true (.integer false) 1

def exFPart : VTy :=
  .record "part" true (.cons "flags" none [] (.fixed exFU8) (.cons "size" none [] (.fixed exFU8)
    (.cons "extra" (some (.compare .ne (.bits (.field "part" "flags") (.number 128)) (.number 0))) [] (.fixed exFU8)
    (.cons "half" none [] (.block "half" exFU8 (.count (.over (.field "part" "size") 2)))
    (.cons "rest" none [] (.block "rest" exFU8 (.bytes (.choose (.number 0) .eq (.field "part" "size") (.number 0)
      (.minus (.field "part" "size") (.number 1))))) .nil)))))

example : (fileTypes exFDecls).bind (·[3]?) = some exFPart := rfl

/-- The texts of the expressions. -/
theorem exF_texts : (Expr.over (.field "part" "size") 2).text = "(part.size//2)" ∧
    (Expr.choose (.number 0) .eq (.field "part" "size") (.number 0) (.minus (.field "part" "size") (.number 1))).text =
      "(0 if (part.size==0) else (part.size-1))" ∧
    (Test.compare .ne (.bits (.field "part" "flags") (.number 128)) (.number 0)).text = "((part.flags&128)!=0)" := by
  decide +kernel

/-- The highest flag is set. Half of three is one. -/
theorem exF_read : exFPart.read exEnv.decode 7 [] [129, 3, 7, 8, 9, 10, 11] =
    .done (.struct "part" [("flags", .int 129), ("size", .int 3), ("extra", .int 7), ("half", .bytes [8]),
      ("rest", .bytes [9, 10])]) [11] := rfl

/-- It is not set, and there is no rest. -/
theorem exF_empty : exFPart.read exEnv.decode 3 [] [127, 0, 7] =
    .done (.struct "part" [("flags", .int 127), ("size", .int 0), ("extra", .pyNone), ("half", .bytes []),
      ("rest", .bytes [])]) [7] := rfl

theorem exF_part : Spec.Usable arithEnv "part" := exV_usable (by decide +kernel) (by decide +kernel) (by decide +kernel) (by decide)
theorem exF_flags : Spec.Usable arithEnv "flags" := exV_usable (by decide +kernel) (by decide +kernel) (by decide +kernel) (by decide)

theorem exFDecls_usable : ∀ d ∈ exFDecls, d.Usable arithEnv := by
  intro d hd
  simp only [exFDecls, List.mem_cons, List.not_mem_nil, or_false] at hd
  rcases hd with rfl | rfl | rfl | rfl
  · exact ⟨by decide, by decide, .inl rfl⟩
  · exact ⟨by decide, by decide, expr_accepted ⟨⟨exF_part, exV_size⟩, by decide⟩, fun n h => nomatch h⟩
  · exact ⟨by decide, by decide, expr_accepted ⟨⟨trivial, ⟨exF_part, exV_size⟩, trivial⟩, ⟨exF_part, exV_size⟩, trivial⟩, fun n h => nomatch h⟩
  · refine ⟨by decide, by decide, validateClass_iff.mp rfl, by decide, by decide, ?_, ?_⟩
    · intro f hf n c vs t ht
      simp only [List.mem_cons, List.not_mem_nil, or_false] at hf
      rcases hf with rfl | rfl | rfl | rfl | rfl <;> cases ht
      exact test_accepted ⟨⟨⟨exF_part, exF_flags⟩, trivial⟩, trivial⟩
    · intro f hf n a ht
      simp only [List.mem_cons, List.not_mem_nil, or_false] at hf
      rcases hf with rfl | rfl | rfl | rfl | rfl <;> cases ht

theorem exF_scoped : exFPart.Scoped (given []) := by
  simp [exFPart, VTy.Scoped, VFields.Scoped, given, seen, VTy.IsNumber, Len.Within, Expr.Within, Test.Within, List.lookup,
    exFU8]

/-- The fabric of the file reads parts. -/
example : ∃ reg m, fabric arithEnv (some { docs := exFDecls.map VDecl.doc }) = .ok reg ∧
    reg.createDataTypeMap arithEnv "part" = .ok m ∧
      (mapStream arithEnv m [129, 3, 7, 8, 9, 10, 11] 0 0 {}).1 =
        .ok (.struct "part" [("flags", .int 129), ("size", .int 3), ("extra", .int 7), ("half", .bytes [8]),
          ("rest", .bytes [9, 10])]) ∧
      (mapStream arithEnv m [127, 0, 7] 0 0 {}).1 =
        .ok (.struct "part" [("flags", .int 127), ("size", .int 0), ("extra", .pyNone), ("half", .bytes []),
          ("rest", .bytes [])]) := by
  obtain ⟨reg, hf, h⟩ := C71_fabric arithEnv arithmetic_exists exFDecls _ rfl (by decide) exFDecls_usable
  obtain ⟨m, hm, hr⟩ := h exFPart (List.mem_of_getElem? (i := 3) rfl) (settled_nil _) (by decide)
  have h1 := hr [129, 3, 7, 8, 9, 10, 11] 0 {} rfl (by decide) (by decide) exF_scoped
  have h2 := hr [127, 0, 7] 0 {} rfl (by decide) (by decide) exF_scoped
  rw [List.drop_zero, show arithEnv.decode = exEnv.decode from rfl] at h1 h2
  rw [show ([129, 3, 7, 8, 9, 10, 11] : Bytes).length = 7 from rfl, exF_read] at h1
  rw [show ([127, 0, 7] : Bytes).length = 3 from rfl, exF_empty] at h2
  exact ⟨reg, m, hf, hm, h1.1, h2.1⟩

/-- Bits of negative numbers. -/
theorem exF_bits : commonBits 12 10 = 8 ∧ commonBits 12 (-2) = 12 ∧ commonBits (-4) 7 = 4 ∧ commonBits (-4) (-6) = -8 := by
  decide

/-! ### A file in which records have different byte orders, and scalars may have none -/

/-- A table in big-endian: the number of entries, a mark in little-endian, the entries, a
name and a pair, which is in little-endian. -/
def exODecls : List VDecl :=
  [⟨"u8", .scalar none (.integer false) 1⟩, ⟨"u16", .scalar none (.integer false) 2⟩,
    ⟨"le16", .scalar (some false) (.integer false) 2⟩,
    ⟨"list", .array "u16" (.field "table" "size")⟩, ⟨"name", .text "ascii" "u8" (.upto [0])⟩,
    ⟨"pair", .record false [.field "x" none [] "u16", .field "y" none [] "le16"]⟩,
    ⟨"table", .record true [.field "size" none [] "u16", .field "mark" none [] "le16", .field "list" none [] "list",
      .field "name" none [] "name", .field "pair" none [] "pair"]⟩]

def exOU16 (big : Bool) : VTy := .fixed (.scalar "u16" big (.integer false) 2)

def exOPair : VTy :=
  .fixed (.record "pair" false (.cons "x" (.scalar "u16" false (.integer false) 2)
    (.cons "y" (.scalar "le16" false (.integer false) 2) .nil)))

def exOTable : VTy :=
  .record "table" true (.cons "size" none [] (exOU16 true)
    (.cons "mark" none [] (.fixed (.scalar "le16" false (.integer false) 2))
    (.cons "list" none [] (.array "list" (exOU16 true) (.field "table" "size"))
    (.cons "name" none [] (.text "name" "ascii" (.scalar "u8" false (.integer false) 1) (.upto [0]))
    (.cons "pair" none [] exOPair .nil)))))

example : (fileTypes exODecls).bind (·[6]?) = some exOTable := rfl

theorem exO_read : exOTable.read exEnv.decode 15 [] [0, 2, 1, 0, 1, 0, 0, 5, 97, 0, 2, 0, 3, 0, 9] =
    .done (.struct "table" [("size", .int 2), ("mark", .int 1), ("list", .tuple [.int 256, .int 5]), ("name", .str [97]),
      ("pair", .struct "pair" [("x", .int 2), ("y", .int 3)])]) [9] := rfl

theorem exO_table : Spec.Usable arithEnv "table" := exV_usable (by decide +kernel) (by decide +kernel) (by decide +kernel) (by decide)

theorem exODecls_usable : ∀ d ∈ exODecls, d.Usable arithEnv := by
  intro d hd
  simp only [exODecls, List.mem_cons, List.not_mem_nil, or_false] at hd
  rcases hd with rfl | rfl | rfl | rfl | rfl | rfl | rfl
  · exact ⟨by decide, by decide, .inl rfl⟩
  · exact ⟨by decide, by decide, .inr (.inl rfl)⟩
  · exact ⟨by decide, by decide, .inr (.inl rfl)⟩
  · exact ⟨by decide, by decide, expr_accepted ⟨exO_table, exV_size⟩, fun n h => nomatch h⟩
  · exact ⟨by decide, by decide, by decide, by decide, by decide⟩
  · refine ⟨by decide, by decide, validateClass_iff.mp rfl, by decide, by decide, ?_, ?_⟩
    · intro f hf n c vs t ht
      simp only [List.mem_cons, List.not_mem_nil, or_false] at hf
      rcases hf with rfl | rfl <;> cases ht
    · intro f hf n a ht
      simp only [List.mem_cons, List.not_mem_nil, or_false] at hf
      rcases hf with rfl | rfl <;> cases ht
  · refine ⟨by decide, by decide, validateClass_iff.mp rfl, by decide, by decide, ?_, ?_⟩
    · intro f hf n c vs t ht
      simp only [List.mem_cons, List.not_mem_nil, or_false] at hf
      rcases hf with rfl | rfl | rfl | rfl | rfl <;> cases ht
    · intro f hf n a ht
      simp only [List.mem_cons, List.not_mem_nil, or_false] at hf
      rcases hf with rfl | rfl | rfl | rfl | rfl <;> cases ht

theorem exO_scoped : exOTable.Scoped (given []) := by
  simp [exOTable, exOU16, exOPair, VTy.Scoped, VFields.Scoped, given, VTy.IsNumber, Len.Within, Expr.Within]

example : bareOf exODecls = ["u8", "u16"] := rfl

/-- Some scalars leave out the byte order, the table and the pair do not. -/
theorem exO_settled : exOTable.Settled ["u8", "u16"] := by
  simp [exOTable, exOU16, exOPair, VTy.Settled, VFields.Settled, VTy.Inherits, Ty.Inherits, Ty.Settled, Fields.Settled, Even,
    Fields.scalars, VFields.scalars]

/-- The fabric of the file reads tables, with the byte order of the table, on a machine
with the other byte order. -/
example : arithEnv.nativeLittle = true ∧ ∃ reg m,
    fabric arithEnv (some { docs := exODecls.map VDecl.doc }) = .ok reg ∧
    reg.createDataTypeMap arithEnv "table" = .ok m ∧
      (mapStream arithEnv m [0, 2, 1, 0, 1, 0, 0, 5, 97, 0, 2, 0, 3, 0, 9] 0 0 {}).1 =
        .ok (.struct "table" [("size", .int 2), ("mark", .int 1), ("list", .tuple [.int 256, .int 5]), ("name", .str [97]),
          ("pair", .struct "pair" [("x", .int 2), ("y", .int 3)])]) := by
  obtain ⟨reg, hf, h⟩ := C71_fabric arithEnv arithmetic_exists exODecls _ rfl (by decide) exODecls_usable
  obtain ⟨m, hm, hr⟩ := h exOTable (List.mem_of_getElem? (i := 6) rfl) exO_settled (by decide)
  have h1 := hr [0, 2, 1, 0, 1, 0, 0, 5, 97, 0, 2, 0, 3, 0, 9] 0 {} rfl (by decide) .nil exO_scoped
  rw [List.drop_zero, show arithEnv.decode = exEnv.decode from rfl] at h1
  have h2 := exO_read
  rw [show ([0, 2, 1, 0, 1, 0, 0, 5, 97, 0, 2, 0, 3, 0, 9] : Bytes).length = 15 from rfl] at h1
  rw [show ({} : Ctx).values = [] from rfl, h2] at h1
  exact ⟨rfl, reg, m, hf, hm, h1.1⟩

/-- Outside of records nothing gives the scalars a byte order: they are read in that of
the machine. -/
theorem C71_open : ¬ (exOU16 true).Settled ["u8", "u16"] ∧
    ∃ m, createMap exEnv (openDefn ["u8", "u16"] (exOU16 true)) = .ok m ∧
      (mapStream exEnv m [0, 2] 0 0 {}).1 = .ok (.int 512) ∧
      (exOU16 true).read exEnv.decode 2 [] [0, 2] = .done (.int 2) [] :=
  ⟨by simp [exOU16, VTy.Settled, Ty.Settled], _, rfl, rfl, rfl⟩

/-- A record of scalars only, one without a byte order and one in the other byte order
than the record. -/
def exOMixed : VTy :=
  .fixed (.record "mixed" true (.cons "x" (.scalar "u16" true (.integer false) 2)
    (.cons "y" (.scalar "le16" false (.integer false) 2) .nil)))

/-- Such a record is read in one byte order: the value in the other one is wrong. -/
theorem C71_mixed : ¬ exOMixed.Settled ["u16"] ∧ ∃ m, createMap exEnv (openDefn ["u16"] exOMixed) = .ok m ∧
    (mapStream exEnv m [0, 2, 3, 0] 0 0 {}).1 = .ok (.struct "mixed" [("x", .int 2), ("y", .int 768)]) ∧
    exOMixed.read exEnv.decode 4 [] [0, 2, 3, 0] = .done (.struct "mixed" [("x", .int 2), ("y", .int 3)]) [] :=
  ⟨by simp [exOMixed, VTy.Settled, Ty.Settled, Even, Fields.scalars], _, rfl, rfl, rfl⟩

end Dtf
