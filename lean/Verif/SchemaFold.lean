import Verif.SchemaMap
import Verif.RoundTrip
/-!
Folding what the map of a schema type read gives the bytes back.
-/
namespace Dtf
namespace Spec

/-- Integers and floating-point numbers. -/
def Ty.IsNumber : Ty → Prop
  | .scalar _ _ k _ => k ≠ .boolean
  | _ => False

mutual
/-- The types that are written as they are read: without booleans, because many
bytes mean true, and without sequences of anything but numbers, because
FoldByteStream does not support them (C31). -/
def Ty.Writable : Ty → Prop
  | .scalar _ _ k _ => k ≠ .boolean
  | .uuid _ _ | .stream _ _ _ => True
  | .sequence _ e _ => e.IsNumber
  | .record _ _ fs => fs.Writable
termination_by structural t => t
def Fields.Writable : Fields → Prop
  | .nil => True
  | .cons _ t fs => t.Writable ∧ fs.Writable
termination_by structural fs => fs
end

end Spec
open Spec

mutual
/-- The names of a type and its parts. -/
def Spec.Ty.parts : Ty → List String
  | .scalar n _ _ _ | .uuid n _ => [n]
  | .stream n e _ | .sequence n e _ => n :: e.parts
  | .record n _ fs => n :: fs.parts
termination_by structural t => t
def Spec.Fields.parts : Fields → List String
  | .nil => []
  | .cons _ t fs => t.parts ++ fs.parts
termination_by structural fs => fs
end

mutual
/-- No record has a part of its own name. -/
def Spec.Ty.Apart : Ty → Prop
  | .scalar _ _ _ _ | .uuid _ _ => True
  | .stream _ e _ | .sequence _ e _ => e.Apart
  | .record n _ fs => n ∉ fs.parts ∧ fs.Apart
termination_by structural t => t
def Spec.Fields.Apart : Fields → Prop
  | .nil => True
  | .cons _ t fs => t.Apart ∧ fs.Apart
termination_by structural fs => fs
end

theorem ty_seq {E : Env} {t : Ty} {h : Hdr} {info : SeqInfo} {ei : ElemInfo} {bsz : Option Int} {e : DMap}
    (hm : createAs E t.name (orderOf t.big) (tyDefn t) = .ok (.seq h info ei bsz e)) :
    info.dataSizeExpr = none ∧ info.numElementsExpr = none := by
  cases t with
  | scalar n big k s =>
    rw [tyDefn] at hm
    cases k <;> simp [scalarKind, createAs] at hm
  | uuid n big => rw [tyDefn, createAs] at hm; cases hm
  | stream n e s =>
    rw [tyDefn] at hm
    obtain ⟨_, _, _, _, _, heq, _⟩ := createAs_seq hm
    cases heq
    exact ⟨rfl, rfl⟩
  | sequence n e s =>
    rw [tyDefn] at hm
    obtain ⟨_, _, _, _, _, heq, _⟩ := createAs_seq hm
    cases heq
    exact ⟨rfl, rfl⟩
  | record n big fs =>
    rw [tyDefn] at hm
    obtain ⟨_, _, _, _, _, _, _, heq, _⟩ := createAs_struct hm
    cases heq

theorem ty_prim {E : Env} {t : Ty} {h : Hdr} {k : PrimKind} {s : Size} {u : String} (hw : t.Writable)
    (hm : createAs E t.name (orderOf t.big) (tyDefn t) = .ok (.prim h k s u)) : Number k := by
  cases t with
  | scalar n big k s =>
    rw [Ty.Writable] at hw
    rw [tyDefn] at hm
    cases k with
    | boolean => exact absurd rfl hw
    | integer _ => simp [scalarKind, createAs] at hm; rw [← hm.2.1]; trivial
    | double => simp [scalarKind, createAs] at hm; rw [← hm.2.1]; trivial
  | uuid n big => rw [tyDefn, createAs] at hm; cases hm
  | stream n e s =>
    rw [tyDefn] at hm
    obtain ⟨_, _, _, _, _, heq, _⟩ := createAs_seq hm
    cases heq
  | sequence n e s =>
    rw [tyDefn] at hm
    obtain ⟨_, _, _, _, _, heq, _⟩ := createAs_seq hm
    cases heq
  | record n big fs =>
    rw [tyDefn] at hm
    obtain ⟨_, _, _, _, _, _, _, heq, _⟩ := createAs_struct hm
    cases heq

/-- What holds of the maps of all field types holds of the maps of a record. -/
theorem fields_maps {E : Env} {big : Bool} {sname : String} {P : DMap → Prop} : ∀ (fs : Fields) (maps : List DMap),
    All2 (MapOf E sname (orderOf big)) (fieldDefns fs) maps →
    (∀ t ∈ fs.types, ∀ m, createAs E t.name (orderOf t.big) (tyDefn t) = .ok m → P m) → ∀ m ∈ maps, P m
  | .nil, maps, hmo, _ => by
    rw [fieldDefns] at hmo
    cases hmo
    simp
  | .cons n t fs, maps, hmo, h => by
    rw [fieldDefns] at hmo
    rw [Fields.types] at h
    cases hmo with
    | @cons a m as ms hm hms =>
    obtain ⟨n', o', hno, hcr⟩ := hm
    simp only [Defn.target, field_order, Except.ok.injEq, Prod.mk.injEq] at hno
    obtain ⟨rfl, rfl⟩ := hno
    intro x hx
    rcases List.mem_cons.mp hx with rfl | hx
    · exact h t (List.mem_cons_self ..) _ hcr
    · exact fields_maps fs ms hms (fun u hu => h u (List.mem_cons_of_mem _ hu)) x hx

theorem record_distinct {E : Env} {big : Bool} {n : String} {fs : Fields} (hok : TyOk E (.record n big fs)) :
    DistinctTypes (fieldDefns fs) := by
  rw [TyOk] at hok
  obtain ⟨-, -, -, -, hdist, hfs⟩ := hok
  refine ⟨?_, ?_⟩
  · intro x hx y hy he
    obtain ⟨_, t, rfl, ht, -⟩ := fieldDefns_mem hx
    obtain ⟨_, u, rfl, hu, -⟩ := fieldDefns_mem hy
    simp only [Defn.target, tyDefn_name] at he ⊢
    rw [hdist t ht u hu he]
  · intro x hx
    obtain ⟨_, t, rfl, ht, -⟩ := fieldDefns_mem hx
    simp only [Defn.target, tyDefn_name]
    exact fieldsOk_names hfs ht

theorem fields_writable : ∀ {fs : Fields}, fs.Writable → ∀ t ∈ fs.types, t.Writable
  | .nil, _, t, ht => by rw [Fields.types] at ht; cases ht
  | .cons n u fs, h, t, ht => by
    rw [Fields.Writable] at h
    rw [Fields.types, List.mem_cons] at ht
    rcases ht with rfl | ht
    · exact h.1
    · exact fields_writable h.2 t ht

mutual
theorem ty_every {E : Env} (t : Ty) (hok : TyOk E t) : (tyDefn t).Every TypesDistinct := by
  cases t with
  | scalar n big k s => rw [tyDefn, Defn.Every]; trivial
  | uuid n big => rw [tyDefn, Defn.Every]; trivial
  | stream n e s =>
    rw [TyOk] at hok
    rw [tyDefn, Defn.Every]
    exact ⟨trivial, ty_every e hok.2.2.2⟩
  | sequence n e s =>
    rw [TyOk] at hok
    rw [tyDefn, Defn.Every]
    exact ⟨trivial, ty_every e hok.2.2⟩
  | record n big fs =>
    have hd := record_distinct hok
    rw [TyOk] at hok
    rw [tyDefn, Defn.Every]
    exact ⟨hd, fields_every fs hok.2.2.2.2.2⟩
termination_by structural t
theorem fields_every {E : Env} (fs : Fields) (hok : FieldsOk E fs) :
    everyDefn TypesDistinct (fieldDefns fs) := by
  cases fs with
  | nil => rw [fieldDefns]; trivial
  | cons n t fs =>
    rw [FieldsOk] at hok
    rw [fieldDefns, everyDefn, Defn.Every]
    exact ⟨⟨trivial, ty_every t hok.1⟩, fields_every fs hok.2⟩
termination_by structural fs
end

mutual
theorem ty_foldable {E : Env} (t : Ty) (hok : TyOk E t) (hw : t.Writable) (ha : t.Apart)
    (outer : List String) (ho : ∀ x ∈ t.parts, x ∉ outer) (m : DMap)
    (hm : createAs E t.name (orderOf t.big) (tyDefn t) = .ok m) : Foldable E outer m := by
  cases t with
  | scalar n big k s =>
    rw [TyOk] at hok
    obtain ⟨m', hm', rfl, -⟩ := scalar_map E big n k s hok.2
    rw [Ty.name, Ty.big, hm'] at hm
    cases hm
    exact .number (ty_prim hw hm')
  | uuid n big =>
    rw [tyDefn, createAs] at hm
    cases hm
    exact .uuid (orderOf_ne big)
  | stream n e s =>
    rw [TyOk] at hok
    have hbs := ty_byteSize e hok.2.2.2
    rw [tyDefn] at hm
    obtain ⟨_, _, _, _, _, rfl, _⟩ := createAs_seq hm
    refine .stream rfl ?_
    intro es he
    simp only [hbs, Option.some.injEq] at he
    omega
  | sequence n e k =>
    rw [Ty.Writable] at hw
    rw [TyOk] at hok
    cases e with
    | scalar en big ek es =>
      have hok' := hok.2.2
      rw [TyOk] at hok'
      obtain ⟨em, hem, rfl, -⟩ := scalar_map E big en ek es hok'.2
      have hl := sequence_linear (.scalar en big ek es) k
      rw [(composite_scalar _).mpr ⟨_, _, _, _, rfl⟩] at hl
      rw [tyDefn, Ty.name] at hm
      have hcreate := seq_createAs (n := n) (e := .scalar en big ek es) (info := sequenceInfo (.scalar en big ek es) k) hem
      have hm2 := hcreate.symm.trans hm
      unfold finishSeq at hm2
      rw [hl] at hm2
      split at hm2
      · cases hm2
      · simp only [sequenceInfo, Bool.not_false, if_true] at hm2
        split at hm2
        · cases hm2
        · cases hm2
          refine .numbers rfl hl (ty_prim (t := .scalar en big ek es) (by rw [Ty.Writable]; exact hw) hem) ?_
          intro d n hd
          cases hd
    | _ => exact absurd hw (by simp [Ty.IsNumber])
  | record n big fs =>
    have hdt := record_distinct hok
    rw [Ty.Writable] at hw
    rw [Ty.Apart] at ha
    rw [Ty.parts] at ho
    rw [tyDefn, Ty.name] at hm
    obtain ⟨io, infos, maps, l, -, hmem, -, rfl, -⟩ := createAs_struct hm
    have hmo := createMembers_mapOf E n (orderOf big) _ hdt _ (fun d hd => hd) [] (by simp) _ _ hmem
    rw [TyOk] at hok
    cases l with
    | true =>
      refine .linear fun m hm h k s u he => ?_
      subst he
      exact fields_maps (P := fun m => ∀ h k s u, m = .prim h k s u → Number k) fs maps hmo
        (fun t ht m hm h k s u he => ty_prim (fields_writable hw t ht) (he ▸ hm)) _ hm _ _ _ _ rfl
    | false =>
      refine .composite (ho n (List.mem_cons_self ..)) ?_ ?_ ?_
      · intro he
        simp only at he
        exact hok.1.1 (by rw [he]; rfl)
      · refine fields_maps fs maps hmo (fields_foldable fs hok.2.2.2.2.2 hw ha.2 (n :: outer) ?_)
        intro x hx
        simp only [List.mem_cons, not_or]
        exact ⟨fun he => ha.1 (he ▸ hx), ho x (List.mem_cons_of_mem _ hx)⟩
      · intro i m hi
        have := fields_maps (P := fun m => ∀ cls names, SizedBy E cls names m) fs maps hmo (fun t ht m hm cls names => by
          cases m with
          | seq h info ei bsz e =>
            obtain ⟨h1, h2⟩ := ty_seq hm
            intro text htext
            rw [h1, h2] at htext
            rcases htext with h | h <;> cases h
          | _ => trivial) m (List.mem_of_getElem? hi)
        exact this _ _
termination_by structural t
theorem fields_foldable {E : Env} (fs : Fields) (hok : FieldsOk E fs) (hw : fs.Writable) (ha : fs.Apart)
    (outer : List String) (ho : ∀ x ∈ fs.parts, x ∉ outer) :
    ∀ t ∈ fs.types, ∀ m, createAs E t.name (orderOf t.big) (tyDefn t) = .ok m → Foldable E outer m := by
  cases fs with
  | nil => intro t ht; rw [Fields.types] at ht; cases ht
  | cons n t fs =>
    rw [FieldsOk] at hok
    rw [Fields.Writable] at hw
    rw [Fields.Apart] at ha
    rw [Fields.parts] at ho
    intro u hu m hm
    rw [Fields.types, List.mem_cons] at hu
    rcases hu with he | hu
    · rw [he] at hm
      exact ty_foldable t hok.1 hw.1 ha.1 outer (fun x hx => ho x (List.mem_append_left _ hx)) m hm
    · exact fields_foldable fs hok.2 hw.2 ha.2 outer (fun x hx => ho x (List.mem_append_right _ hx)) u hu m hm
termination_by structural fs
end

end Dtf
