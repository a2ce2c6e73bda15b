import Verif.VariableMap
import Verif.Orders
/-!
Files in which scalars and UUIDs may leave out the byte order: their definitions, and
that the byte orders that count are those of the file in which every type has one.
-/
namespace Dtf
namespace Spec

/-- The byte order of a scalar or UUID in a record: its own, or that of the record if it
is in `bare`. -/
def orderIn (bare : List String) (big : Bool) (name : String) (own : Bool) : Bool := if name ∈ bare then big else own

/-- The type of a field, in a record of the given byte order: the scalars and UUIDs in
`bare` and arrays of them take the byte order of the record. -/
def Ty.within (bare : List String) (big : Bool) : Ty → Ty
  | .scalar n b k s => .scalar n (orderIn bare big n b) k s
  | .uuid n b => .uuid n (orderIn bare big n b)
  | .sequence n (.scalar e b k s) c => .sequence n (.scalar e (orderIn bare big e b) k s) c
  | t => t

def VTy.within (bare : List String) (big : Bool) : VTy → VTy
  | .fixed t => .fixed (t.within bare big)
  | .array n (.fixed (.scalar e b k s)) x => .array n (.fixed (.scalar e (orderIn bare big e b) k s)) x
  | .list n (.fixed (.scalar e b k s)) x => .list n (.fixed (.scalar e (orderIn bare big e b) k s)) x
  | t => t

/-- The names and byte orders of the fields, if all are scalars. -/
def Fields.scalars : Fields → Option (List (String × Bool))
  | .nil => some []
  | .cons _ (.scalar n b _ _) fs => fs.scalars.map ((n, b) :: ·)
  | .cons _ _ _ => none

/-- The names and byte orders of the fields, if all are scalars without conditions. -/
def VFields.scalars : VFields → Option (List (String × Bool))
  | .nil => some []
  | .cons _ none _ (.fixed (.scalar n b _ _)) fs => fs.scalars.map ((n, b) :: ·)
  | .cons _ _ _ _ _ | .padding _ _ _ => none

/-- If a record has scalars only and some leave out the byte order, the others have that
of the record. -/
def Even (bare : List String) (big : Bool) (scalars : Option (List (String × Bool))) : Prop :=
  ∀ l, scalars = some l → (∃ p ∈ l, p.1 ∈ bare) → ∀ p ∈ l, p.2 = big

/-- The type takes the byte order of the record it is a field of, where it has none:
scalars, UUIDs and arrays of scalars. -/
def Ty.Inherits : Ty → Prop
  | .scalar _ _ _ _ | .uuid _ _ | .sequence _ (.scalar _ _ _ _) _ => True
  | _ => False

mutual
/-- The byte order of all parts is known, where the scalars and UUIDs in `bare` leave it
out: it does not matter for blocks, and fields of a record can take that of the record. A record with scalars only does not mix
scalars without a byte order with such of the other byte order. -/
def Ty.Settled (bare : List String) : Ty → Prop
  | .scalar n _ _ _ | .uuid n _ => n ∉ bare
  | .stream _ _ _ => True
  | .sequence _ e _ => e.Settled bare
  | .record _ b fs => Even bare b fs.scalars ∧ fs.Settled bare
termination_by structural t => t
def Fields.Settled (bare : List String) : Fields → Prop
  | .nil => True
  | .cons _ t fs => (t.Inherits ∨ t.Settled bare) ∧ fs.Settled bare
termination_by structural fs => fs
end

def VTy.Inherits : VTy → Prop
  | .fixed t => t.Inherits
  | .array _ (.fixed (.scalar _ _ _ _)) _ => True
  | .list _ (.fixed (.scalar _ _ _ _)) _ => True
  | _ => False

mutual
def VTy.Settled (bare : List String) : VTy → Prop
  | .fixed t => t.Settled bare
  | .block _ _ _ | .text _ _ _ _ => True
  | .array _ e _ | .list _ e _ => e.Settled bare
  | .record _ b fs => Even bare b fs.scalars ∧ fs.Settled bare
  | .group _ base _ ms => base.Settled bare ∧ ms.Settled bare
termination_by structural t => t
def VFields.Settled (bare : List String) : VFields → Prop
  | .nil => True
  | .cons _ _ _ t fs => (t.Inherits ∨ t.Settled bare) ∧ fs.Settled bare
  | .padding _ _ fs => fs.Settled bare
termination_by structural fs => fs
def VMembers.Settled (bare : List String) : VMembers → Prop
  | .nil => True
  | .default t => t.Settled bare
  | .cons t ms => t.Settled bare ∧ ms.Settled bare
termination_by structural ms => ms
end

end Spec
open Spec

/-! ### Definitions -/

/-- The byte order of the definition of a scalar or UUID. -/
def bareOrder (bare : List String) (big : Bool) (n : String) : Order := if n ∈ bare then .native else orderOf big

/-- The byte order of the definition of a type: blocks and arrays have that of their
elements. -/
def tyOrder (bare : List String) : Ty → Order
  | .scalar n b _ _ | .uuid n b => bareOrder bare b n
  | .stream _ e _ | .sequence _ e _ => tyOrder bare e
  | .record _ b _ => orderOf b
termination_by structural t => t

mutual
/-- The definition the reader makes of a type. -/
def openTyDefn (bare : List String) : Ty → Defn
  | .scalar n b k s => .prim { name := n, order := bareOrder bare b n } (scalarKind k) (.bytes s) "bytes"
  | .uuid n b => .uuid { name := n, order := bareOrder bare b n } (.bytes 16) "bytes"
  | .stream n e s =>
    .seq { name := n, order := tyOrder bare e }
      { kind := .stream, elementDataType := some e.name, dataSize := some (s : Int) } (openTyDefn bare e)
  | .sequence n e k =>
    .seq { name := n, order := tyOrder bare e }
      { kind := .sequence, elementDataType := some e.name, numElements := some (k : Int) } (openTyDefn bare e)
  | .record n b fs => .struct { name := n, order := orderOf b } (openFieldDefns bare fs)
termination_by structural t => t
def openFieldDefns (bare : List String) : Fields → List Defn
  | .nil => []
  | .cons n t fs =>
    .member { name := n, order := tyOrder bare t } (openTyDefn bare t) none (some t.name) none ::
      openFieldDefns bare fs
termination_by structural fs => fs
end

def vtyOrder (bare : List String) : VTy → Order
  | .fixed t => tyOrder bare t
  | .block _ e _ | .text _ _ e _ => tyOrder bare e
  | .array _ e _ | .list _ e _ => vtyOrder bare e
  | .record _ b _ => orderOf b
  | .group _ base _ _ => vtyOrder bare base
termination_by structural t => t

mutual
/-- The definition the reader makes of a type. -/
def openDefn (bare : List String) : VTy → Defn
  | .fixed t => openTyDefn bare t
  | .block n e len => .seq { name := n, order := tyOrder bare e } (lenInfo .stream e len) (openTyDefn bare e)
  | .text n enc e len =>
    .seq { name := n, order := tyOrder bare e } (lenInfo (.string enc) e len) (openTyDefn bare e)
  | .array n e count => .seq { name := n, order := vtyOrder bare e } (countInfo e.name count) (openDefn bare e)
  | .list n e size => .seq { name := n, order := vtyOrder bare e } (sizeInfo e.name size) (openDefn bare e)
  | .record n b fs => .struct { name := n, order := orderOf b } (openVFieldDefns bare fs)
  | .group n base ident ms =>
    .group { name := n, order := vtyOrder bare base } (openDefn bare base) ident (openDefaultDefn bare ms)
      (openMemberDefns bare ms)
termination_by structural t => t
def openVFieldDefns (bare : List String) : VFields → List Defn
  | .nil => []
  | .cons n c vs t fs =>
    .member { name := n, order := vtyOrder bare t } (openDefn bare t) (c.map Test.text) (some t.name) (supported vs) ::
      openVFieldDefns bare fs
  | .padding n a fs => .padding { name := n, order := .native } (some a) :: openVFieldDefns bare fs
termination_by structural fs => fs
/-- The definition of the record for all other cases. -/
def openDefaultDefn (bare : List String) : VMembers → Option Defn
  | .nil => none
  | .default t => some (openDefn bare t)
  | .cons _ ms => openDefaultDefn bare ms
termination_by structural ms => ms
/-- The definitions of the records of a group. -/
def openMemberDefns (bare : List String) : VMembers → List Defn
  | .nil | .default _ => []
  | .cons t ms => openDefn bare t :: openMemberDefns bare ms
termination_by structural ms => ms
end

theorem openTyDefn_name (bare : List String) (t : Ty) : (openTyDefn bare t).name = t.name := by
  cases t <;> simp [openTyDefn, Defn.name, Defn.hdr, Ty.name]

theorem openTyDefn_order (bare : List String) (t : Ty) :
    (openTyDefn bare t).order? = some (tyOrder bare t) := by
  cases t <;> simp [openTyDefn, Defn.order?, tyOrder]

theorem openDefn_name (bare : List String) (t : VTy) : (openDefn bare t).name = t.name := by
  cases t with
  | fixed t => rw [openDefn, openTyDefn_name]; rfl
  | _ => simp [openDefn, Defn.name, Defn.hdr, VTy.name]

theorem openDefn_order (bare : List String) (t : VTy) :
    (openDefn bare t).order? = some (vtyOrder bare t) := by
  cases t with
  | fixed t => rw [openDefn, openTyDefn_order, vtyOrder]
  | _ => simp [openDefn, Defn.order?, vtyOrder]

theorem openVFieldDefns_names (bare : List String) : ∀ fs : VFields,
    (openVFieldDefns bare fs).map Defn.name = fs.names
  | .nil => by simp [openVFieldDefns, VFields.names]
  | .cons n c vs t fs => by
    simp only [openVFieldDefns, VFields.names, List.map_cons, openVFieldDefns_names bare fs]
    rfl
  | .padding n a fs => by
    simp only [openVFieldDefns, VFields.names, List.map_cons, openVFieldDefns_names bare fs]
    rfl

/-! ### The types of fields -/

theorem tyWithin_name (bare : List String) (big : Bool) (t : Ty) : (t.within bare big).name = t.name := by
  unfold Ty.within
  split <;> rfl

theorem within_name (bare : List String) (big : Bool) (t : VTy) : (t.within bare big).name = t.name := by
  unfold VTy.within
  split
  · exact tyWithin_name bare big _
  · rfl
  · rfl
  · rfl

theorem bareOrder_in (bare : List String) (big b : Bool) (n : String) :
    bareOrder bare (orderIn bare big n b) n = bareOrder bare b n := by
  unfold bareOrder orderIn
  split <;> rfl

theorem tyWithin_order (bare : List String) (big : Bool) (t : Ty) : tyOrder bare (t.within bare big) = tyOrder bare t := by
  unfold Ty.within
  split <;> simp only [tyOrder, bareOrder_in]

theorem within_order (bare : List String) (big : Bool) (t : VTy) : vtyOrder bare (t.within bare big) = vtyOrder bare t := by
  unfold VTy.within
  split
  · rw [vtyOrder, vtyOrder, tyWithin_order]
  · simp only [vtyOrder, tyOrder, bareOrder_in]
  · simp only [vtyOrder, tyOrder, bareOrder_in]
  · rfl

theorem tyWithin_defn (bare : List String) (big : Bool) (t : Ty) :
    openTyDefn bare (t.within bare big) = openTyDefn bare t := by
  unfold Ty.within
  split <;> simp only [openTyDefn, tyOrder, bareOrder_in, Ty.name]

theorem within_defn (bare : List String) (big : Bool) (t : VTy) : openDefn bare (t.within bare big) = openDefn bare t := by
  unfold VTy.within
  split
  · rw [openDefn, openDefn, tyWithin_defn]
  · simp only [openDefn, openTyDefn, vtyOrder, tyOrder, bareOrder_in, VTy.name, Ty.name]
  · simp only [openDefn, openTyDefn, vtyOrder, tyOrder, bareOrder_in, VTy.name, Ty.name]
  · rfl

theorem tyWithin_ok {E : Env} (bare : List String) (big : Bool) {t : Ty} (h : TyOk E t) : TyOk E (t.within bare big) := by
  unfold Ty.within
  split
  · rw [TyOk] at h ⊢; exact h
  · rw [TyOk] at h ⊢; exact h
  · rw [TyOk, TyOk] at h
    rw [TyOk, TyOk]
    exact h
  · exact h

theorem within_ok {E : Env} (bare : List String) (big : Bool) {t : VTy} (h : VTyOk E t) : VTyOk E (t.within bare big) := by
  unfold VTy.within
  split
  · rw [VTyOk] at h ⊢; exact tyWithin_ok bare big h
  · rw [VTyOk, VTyOk, TyOk] at h
    rw [VTyOk, VTyOk, TyOk]
    exact ⟨h.1, h.2.1, fun k hk => ⟨(h.2.2.1 k hk).1, fun t ht => (h.2.2.1 k hk).2 _ rfl⟩, h.2.2.2⟩
  · rw [VTyOk, VTyOk, TyOk] at h
    rw [VTyOk, VTyOk, TyOk]
    exact h
  · exact h

theorem orderIn_twice (bare : List String) (big b : Bool) (n : String) :
    orderIn bare big n (orderIn bare big n b) = orderIn bare big n b := by
  unfold orderIn
  split <;> rfl

theorem tyWithin_twice (bare : List String) (big : Bool) (t : Ty) :
    (t.within bare big).within bare big = t.within bare big := by
  conv => lhs; arg 3; unfold Ty.within
  split
  · rw [Ty.within, Ty.within, orderIn_twice]
  · rw [Ty.within, Ty.within, orderIn_twice]
  · rw [Ty.within, Ty.within, orderIn_twice]
  · rfl

theorem within_twice (bare : List String) (big : Bool) (t : VTy) :
    (t.within bare big).within bare big = t.within bare big := by
  conv => lhs; arg 3; unfold VTy.within
  split
  · rw [VTy.within, VTy.within, tyWithin_twice]
  · rw [VTy.within, VTy.within, orderIn_twice]
  · rw [VTy.within, VTy.within, orderIn_twice]
  · rfl

/-! ### Byte orders filled in -/

namespace Spec

mutual
/-- The fields of all records have the byte orders of the records where they leave them
out. -/
def Ty.Filled (bare : List String) : Ty → Prop
  | .scalar _ _ _ _ | .uuid _ _ => True
  | .stream _ e _ | .sequence _ e _ => e.Filled bare
  | .record _ b fs => fs.Filled bare b
termination_by structural t => t
def Fields.Filled (bare : List String) (big : Bool) : Fields → Prop
  | .nil => True
  | .cons _ t fs => t.within bare big = t ∧ t.Filled bare ∧ fs.Filled bare big
termination_by structural fs => fs
end

mutual
def VTy.Filled (bare : List String) : VTy → Prop
  | .fixed t => t.Filled bare
  | .block _ _ _ | .text _ _ _ _ => True
  | .array _ e _ | .list _ e _ => e.Filled bare
  | .record _ b fs => fs.Filled bare b
  | .group _ base _ ms => base.Filled bare ∧ ms.Filled bare
termination_by structural t => t
def VFields.Filled (bare : List String) (big : Bool) : VFields → Prop
  | .nil => True
  | .cons _ _ _ t fs => t.within bare big = t ∧ t.Filled bare ∧ fs.Filled bare big
  | .padding _ _ fs => fs.Filled bare big
termination_by structural fs => fs
def VMembers.Filled (bare : List String) : VMembers → Prop
  | .nil => True
  | .default t => t.Filled bare
  | .cons t ms => t.Filled bare ∧ ms.Filled bare
termination_by structural ms => ms
end

end Spec

theorem tyWithin_filled {bare : List String} (big : Bool) {t : Ty} (h : t.Filled bare) : (t.within bare big).Filled bare := by
  unfold Ty.within
  split
  · rw [Ty.Filled]; trivial
  · rw [Ty.Filled]; trivial
  · rw [Ty.Filled, Ty.Filled]; trivial
  · exact h

theorem within_filled {bare : List String} (big : Bool) {t : VTy} (h : t.Filled bare) : (t.within bare big).Filled bare := by
  unfold VTy.within
  split
  · rw [VTy.Filled] at h ⊢
    exact tyWithin_filled big h
  · rw [VTy.Filled, VTy.Filled, Ty.Filled]; trivial
  · rw [VTy.Filled, VTy.Filled, Ty.Filled]; trivial
  · exact h

/-! ### Byte orders that count -/

theorem tyDefn_composite (bare : List String) (t : Ty) :
    (openTyDefn bare t).isComposite = (tyDefn t).isComposite := by
  cases t <;> simp [openTyDefn, tyDefn, Defn.isComposite]

theorem vtyDefn_composite (bare : List String) (t : VTy) :
    (openDefn bare t).isComposite = (vtyDefn t).isComposite := by
  cases t with
  | fixed t => rw [openDefn, vtyDefn, tyDefn_composite]
  | _ => simp [openDefn, vtyDefn, Defn.isComposite]

theorem bareOrder_not {bare : List String} (big : Bool) {n : String} (h : n ∉ bare) : bareOrder bare big n = orderOf big :=
  if_neg h

/-- A sequence whose elements have settled byte orders. -/
theorem settle_sequence {w o o' : Order} {n : String} {info : SeqInfo} {e e' : Defn} (hk : info.kind = .sequence)
    (hc : e.isComposite = e'.isComposite) (he : ∀ w, settle w e = settle w e') (ho : e.isComposite = false → o = o') :
    settle w (.seq { name := n, order := o } info e) = settle w (.seq { name := n, order := o' } info e') := by
  rw [settle_seq hk, settle_seq hk, ← hc, he]
  cases hb : e.isComposite with
  | true => rfl
  | false => rw [ho hb]

theorem effective_own (big b : Bool) : effective (orderOf big) (orderOf b) = orderOf b := by
  cases b <;> rfl

theorem effective_bare {bare : List String} {big b : Bool} {n : String} (h : orderIn bare big n b = b) :
    effective (orderOf big) (bareOrder bare b n) = orderOf b := by
  unfold orderIn at h
  unfold bareOrder
  split at h
  · rename_i hn
    rw [if_pos hn, h]
    rfl
  · rename_i hn
    rw [if_neg hn, effective_own]

/-- A sequence of scalars in a record. -/
theorem settle_scalars {bare : List String} {big b : Bool} {n en : String} {info : SeqInfo} {k : PrimKind} {s : Size}
    {u : String} (hk : info.kind = .sequence) (h : orderIn bare big en b = b) :
    settle (orderOf big) (.seq { name := n, order := bareOrder bare b en } info
        (.prim { name := en, order := bareOrder bare b en } k s u)) =
      settle (orderOf big) (.seq { name := n, order := orderOf b } info (.prim { name := en, order := orderOf b } k s u)) := by
  rw [settle_seq hk, settle_seq hk]
  simp only [Defn.isComposite, Bool.false_eq_true, if_false, effective_bare h, effective_own, settle]
  congr 2
  unfold effective bareOrder
  split <;> simp

/-- A stream of scalars. -/
theorem settle_bytes {w o o' eo eo' : Order} {n en : String} {info : SeqInfo} {k : PrimKind} {s : Size}
    {u : String} (hk : info.kind ≠ .sequence) :
    settle w (.seq { name := n, order := o } info (.prim { name := en, order := eo } k s u)) =
      settle w (.seq { name := n, order := o' } info (.prim { name := en, order := eo' } k s u)) := by
  rw [settle_stream hk, settle_stream hk]
  rfl

theorem ty_inherits {bare : List String} {big : Bool} {t : Ty} (h : t.Inherits) (hw : t.within bare big = t) :
    settle (orderOf big) (openTyDefn bare t) = settle (orderOf big) (tyDefn t) := by
  unfold Ty.Inherits at h
  split at h
  · simp only [Ty.within, Ty.scalar.injEq, true_and, and_true] at hw
    simp only [openTyDefn, tyDefn, settle, effective_bare hw, effective_own]
  · simp only [Ty.within, Ty.uuid.injEq, true_and] at hw
    simp only [openTyDefn, tyDefn, settle, effective_bare hw, effective_own]
  · simp only [Ty.within, Ty.sequence.injEq, Ty.scalar.injEq, true_and, and_true] at hw
    simp only [openTyDefn, tyDefn, tyOrder, Ty.big]
    exact settle_scalars rfl hw
  · cases h

theorem ty_simple {bare : List String} {t : Ty} (hs : t.Settled bare)
    (hc : (openTyDefn bare t).isComposite = false) : tyOrder bare t = orderOf t.big := by
  cases t with
  | scalar n b k s =>
    rw [Ty.Settled] at hs
    rw [tyOrder, bareOrder_not b hs, Ty.big]
  | _ => simp [openTyDefn, Defn.isComposite] at hc

mutual
theorem ty_settled {E : Env} (bare : List String) : ∀ (t : Ty), TyOk E t → t.Filled bare → t.Settled bare → ∀ w,
    settle w (openTyDefn bare t) = settle w (tyDefn t)
  | .scalar n b k s, _, _, h => by
    intro w
    rw [Ty.Settled] at h
    rw [openTyDefn, tyDefn, bareOrder_not b h]
  | .uuid n b, _, _, h => by
    intro w
    rw [Ty.Settled] at h
    rw [openTyDefn, tyDefn, bareOrder_not b h]
  | .stream n e s, ht, _, h => by
    intro w
    rw [TyOk] at ht
    obtain ⟨-, -, ⟨en, eb, k, z, rfl⟩, -⟩ := ht
    simp only [openTyDefn, tyDefn]
    exact settle_bytes (by simp)
  | .sequence n e k, ht, hf, h => by
    intro w
    rw [TyOk] at ht
    rw [Ty.Settled] at h
    rw [Ty.Filled] at hf
    rw [openTyDefn, tyDefn]
    exact settle_sequence rfl (tyDefn_composite ..) (ty_settled bare e ht.2.2 hf h) fun hc => ty_simple h hc
  | .record n b fs, ht, hf, h => by
    intro w
    rw [TyOk] at ht
    rw [Ty.Settled] at h
    rw [Ty.Filled] at hf
    rw [openTyDefn, tyDefn, settle, settle, fields_settled bare b fs ht.2.2.2.2.2 hf h.2]
theorem fields_settled {E : Env} (bare : List String) (big : Bool) : ∀ (fs : Fields), FieldsOk E fs →
    fs.Filled bare big → fs.Settled bare →
    settleAll (orderOf big) (openFieldDefns bare fs) = settleAll (orderOf big) (fieldDefns fs)
  | .nil, _, _, _ => by rw [openFieldDefns, fieldDefns]
  | .cons n t fs, hf, hl, h => by
    rw [FieldsOk] at hf
    rw [Fields.Settled] at h
    rw [Fields.Filled] at hl
    rw [openFieldDefns, fieldDefns, settleAll, settleAll, fields_settled bare big fs hf.2 hl.2.2 h.2, settle, settle]
    have : settle (orderOf big) (openTyDefn bare t) = settle (orderOf big) (tyDefn t) := by
      rcases h.1 with h | h
      · exact ty_inherits h hl.1
      · exact ty_settled bare t hf.1 hl.2.1 h _
    rw [this]
end

theorem vty_inherits {bare : List String} {big : Bool} {t : VTy} (h : t.Inherits) (hw : t.within bare big = t) :
    settle (orderOf big) (openDefn bare t) = settle (orderOf big) (vtyDefn t) := by
  unfold VTy.Inherits at h
  split at h
  · simp only [VTy.within, VTy.fixed.injEq] at hw
    rw [openDefn, vtyDefn]
    exact ty_inherits h hw
  · simp only [VTy.within, VTy.array.injEq, VTy.fixed.injEq, Ty.scalar.injEq, true_and, and_true] at hw
    simp only [openDefn, vtyDefn, vtyOrder, openTyDefn, tyDefn, tyOrder, VTy.big, Ty.big]
    exact settle_scalars rfl hw
  · simp only [VTy.within, VTy.list.injEq, VTy.fixed.injEq, Ty.scalar.injEq, true_and, and_true] at hw
    simp only [openDefn, vtyDefn, vtyOrder, openTyDefn, tyDefn, tyOrder, VTy.big, Ty.big]
    exact settle_scalars rfl hw
  · cases h

theorem vty_simple {bare : List String} {t : VTy} (hs : t.Settled bare)
    (hc : (openDefn bare t).isComposite = false) : vtyOrder bare t = orderOf t.big := by
  cases t with
  | fixed t =>
    rw [VTy.Settled] at hs
    rw [openDefn] at hc
    rw [vtyOrder, VTy.big]
    exact ty_simple hs hc
  | _ => simp [openDefn, Defn.isComposite] at hc

mutual
theorem vty_settled {E : Env} (bare : List String) : ∀ (t : VTy), VTyOk E t → t.Filled bare → t.Settled bare → ∀ w,
    settle w (openDefn bare t) = settle w (vtyDefn t)
  | .fixed t, ht, hl, h => by
    intro w
    rw [VTyOk] at ht
    rw [VTy.Settled] at h
    rw [VTy.Filled] at hl
    rw [openDefn, vtyDefn, ty_settled bare t ht hl h]
  | .block n e len, ht, _, h => by
    intro w
    rw [VTyOk] at ht
    obtain ⟨-, ⟨en, eb, k, z, rfl⟩, -⟩ := ht
    simp only [openDefn, vtyDefn, openTyDefn, tyDefn]
    exact settle_bytes (by cases len <;> simp [lenInfo])
  | .text n enc e len, ht, _, h => by
    intro w
    rw [VTyOk] at ht
    obtain ⟨-, ⟨en, eb, k, z, rfl⟩, -⟩ := ht
    simp only [openDefn, vtyDefn, openTyDefn, tyDefn]
    exact settle_bytes (by cases len <;> simp [lenInfo])
  | .array n e x, ht, hl, h => by
    intro w
    rw [VTyOk] at ht
    rw [VTy.Settled] at h
    rw [VTy.Filled] at hl
    rw [openDefn, vtyDefn]
    exact settle_sequence rfl (vtyDefn_composite ..) (vty_settled bare e ht.2.2.2 hl h) fun hc => vty_simple h hc
  | .list n e x, ht, hl, h => by
    intro w
    rw [VTyOk] at ht
    rw [VTy.Settled] at h
    rw [VTy.Filled] at hl
    rw [openDefn, vtyDefn]
    exact settle_sequence rfl (vtyDefn_composite ..) (vty_settled bare e ht.2.2.2 hl h) fun hc => vty_simple h hc
  | .record n b fs, ht, hl, h => by
    intro w
    rw [VTyOk] at ht
    rw [VTy.Settled] at h
    rw [VTy.Filled] at hl
    rw [openDefn, vtyDefn, settle, settle, vfields_settled bare b fs ht.2.2.2.2.2.2 hl h.2]
  | .group n base ident ms, ht, hl, h => by
    intro w
    rw [VTyOk] at ht
    rw [VTy.Settled] at h
    rw [VTy.Filled] at hl
    obtain ⟨h1, h2⟩ := vmembers_settled (ident := ident) bare ms ht.2.2.2.2.2 hl.2 h.2
    rw [openDefn, vtyDefn, settle, settle, vty_settled bare base ht.2.2.1 hl.1 h.1, h1, h2]
theorem vfields_settled {E : Env} (bare : List String) (big : Bool) : ∀ (fs : VFields), VFieldsOk E fs →
    fs.Filled bare big → fs.Settled bare →
    settleAll (orderOf big) (openVFieldDefns bare fs) = settleAll (orderOf big) (vfieldDefns fs)
  | .nil, _, _, _ => by rw [openVFieldDefns, vfieldDefns]
  | .cons n c vs t fs, hf, hl, h => by
    rw [VFieldsOk] at hf
    rw [VFields.Settled] at h
    rw [VFields.Filled] at hl
    rw [openVFieldDefns, vfieldDefns, settleAll, settleAll, vfields_settled bare big fs hf.2.2.2 hl.2.2 h.2, settle, settle]
    have : settle (orderOf big) (openDefn bare t) = settle (orderOf big) (vtyDefn t) := by
      rcases h.1 with h | h
      · exact vty_inherits h hl.1
      · exact vty_settled bare t hf.2.2.1 hl.2.1 h _
    rw [this]
  | .padding n a fs, hf, hl, h => by
    rw [VFieldsOk] at hf
    rw [VFields.Settled] at h
    rw [VFields.Filled] at hl
    rw [openVFieldDefns, vfieldDefns, settleAll, settleAll, vfields_settled bare big fs hf.2 hl h]
theorem vmembers_settled {E : Env} {ident : String} (bare : List String) : ∀ (ms : VMembers),
    VMembersOk E ident ms → ms.Filled bare → ms.Settled bare →
    settleOpt .native (openDefaultDefn bare ms) = settleOpt .native (vdefaultDefn ms) ∧
      settleAll .native (openMemberDefns bare ms) = settleAll .native (vmemberDefns ms)
  | .nil, _, _, _ => by rw [openDefaultDefn, vdefaultDefn, openMemberDefns, vmemberDefns]; exact ⟨rfl, rfl⟩
  | .default t, hm, hl, h => by
    rw [VMembersOk] at hm
    rw [VMembers.Settled] at h
    rw [VMembers.Filled] at hl
    rw [openDefaultDefn, vdefaultDefn, openMemberDefns, vmemberDefns, settleOpt, settleOpt, vty_settled bare t hm hl h]
    exact ⟨rfl, rfl⟩
  | .cons t ms, hm, hl, h => by
    rw [VMembersOk] at hm
    rw [VMembers.Settled] at h
    rw [VMembers.Filled] at hl
    obtain ⟨h1, h2⟩ := vmembers_settled bare ms hm.2.2 hl.2 h.2
    rw [openDefaultDefn, vdefaultDefn, openMemberDefns, vmemberDefns, settleAll, settleAll, h1, h2,
      vty_settled bare t hm.2.1 hl.1 h.1]
    exact ⟨rfl, rfl⟩
end

/-! ### The definitions are orderly -/

namespace Spec

mutual
/-- All records of scalars are even. -/
def Ty.EvenAll (bare : List String) : Ty → Prop
  | .scalar _ _ _ _ | .uuid _ _ => True
  | .stream _ e _ | .sequence _ e _ => e.EvenAll bare
  | .record _ b fs => Even bare b fs.scalars ∧ fs.EvenAll bare
termination_by structural t => t
def Fields.EvenAll (bare : List String) : Fields → Prop
  | .nil => True
  | .cons _ t fs => t.EvenAll bare ∧ fs.EvenAll bare
termination_by structural fs => fs
end

mutual
def VTy.EvenAll (bare : List String) : VTy → Prop
  | .fixed t => t.EvenAll bare
  | .block _ _ _ | .text _ _ _ _ => True
  | .array _ e _ | .list _ e _ => e.EvenAll bare
  | .record _ b fs => Even bare b fs.scalars ∧ fs.EvenAll bare
  | .group _ base _ ms => base.EvenAll bare ∧ ms.EvenAll bare
termination_by structural t => t
def VFields.EvenAll (bare : List String) : VFields → Prop
  | .nil => True
  | .cons _ _ _ t fs => t.EvenAll bare ∧ fs.EvenAll bare
  | .padding _ _ fs => fs.EvenAll bare
termination_by structural fs => fs
def VMembers.EvenAll (bare : List String) : VMembers → Prop
  | .nil => True
  | .default t => t.EvenAll bare
  | .cons t ms => t.EvenAll bare ∧ ms.EvenAll bare
termination_by structural ms => ms
end

end Spec

mutual
theorem ty_even {E : Env} {bare : List String} : ∀ t : Ty, TyOk E t → t.Settled bare → t.EvenAll bare
  | .scalar _ _ _ _, _, _ => by rw [Ty.EvenAll]; trivial
  | .uuid _ _, _, _ => by rw [Ty.EvenAll]; trivial
  | .stream _ e _, h, _ => by
    rw [TyOk] at h
    obtain ⟨-, -, ⟨en, eb, k, z, rfl⟩, -⟩ := h
    rw [Ty.EvenAll, Ty.EvenAll]
    trivial
  | .sequence _ e _, h, hs => by
    rw [TyOk] at h
    rw [Ty.Settled] at hs
    rw [Ty.EvenAll]
    exact ty_even e h.2.2 hs
  | .record _ b fs, h, hs => by
    rw [TyOk] at h
    rw [Ty.Settled] at hs
    rw [Ty.EvenAll]
    exact ⟨hs.1, fields_even fs h.2.2.2.2.2 hs.2⟩
theorem fields_even {E : Env} {bare : List String} : ∀ fs : Fields, FieldsOk E fs → fs.Settled bare → fs.EvenAll bare
  | .nil, _, _ => by rw [Fields.EvenAll]; trivial
  | .cons _ t fs, h, hs => by
    rw [FieldsOk] at h
    rw [Fields.Settled] at hs
    rw [Fields.EvenAll]
    refine ⟨?_, fields_even fs h.2 hs.2⟩
    rcases hs.1 with hi | hi
    · unfold Ty.Inherits at hi
      split at hi
      · rw [Ty.EvenAll]; trivial
      · rw [Ty.EvenAll]; trivial
      · rw [Ty.EvenAll, Ty.EvenAll]; trivial
      · cases hi
    · exact ty_even t h.1 hi
end

mutual
theorem vty_even {E : Env} {bare : List String} : ∀ t : VTy, VTyOk E t → t.Settled bare → t.EvenAll bare
  | .fixed t, h, hs => by
    rw [VTyOk] at h
    rw [VTy.Settled] at hs
    rw [VTy.EvenAll]
    exact ty_even t h hs
  | .block _ _ _, _, _ => by rw [VTy.EvenAll]; trivial
  | .text _ _ _ _, _, _ => by rw [VTy.EvenAll]; trivial
  | .array _ e _, h, hs => by
    rw [VTyOk] at h
    rw [VTy.Settled] at hs
    rw [VTy.EvenAll]
    exact vty_even e h.2.2.2 hs
  | .list _ e _, h, hs => by
    rw [VTyOk] at h
    rw [VTy.Settled] at hs
    rw [VTy.EvenAll]
    exact vty_even e h.2.2.2 hs
  | .record _ b fs, h, hs => by
    rw [VTyOk] at h
    rw [VTy.Settled] at hs
    rw [VTy.EvenAll]
    exact ⟨hs.1, vfields_even fs h.2.2.2.2.2.2 hs.2⟩
  | .group _ base ident ms, h, hs => by
    rw [VTyOk] at h
    rw [VTy.Settled] at hs
    rw [VTy.EvenAll]
    exact ⟨vty_even base h.2.2.1 hs.1, vmembers_even (ident := ident) ms h.2.2.2.2.2 hs.2⟩
theorem vfields_even {E : Env} {bare : List String} : ∀ fs : VFields, VFieldsOk E fs → fs.Settled bare → fs.EvenAll bare
  | .nil, _, _ => by rw [VFields.EvenAll]; trivial
  | .cons _ _ _ t fs, h, hs => by
    rw [VFieldsOk] at h
    rw [VFields.Settled] at hs
    rw [VFields.EvenAll]
    refine ⟨?_, vfields_even fs h.2.2.2 hs.2⟩
    rcases hs.1 with hi | hi
    · unfold VTy.Inherits at hi
      split at hi
      · rename_i t
        rw [VTy.EvenAll]
        unfold Ty.Inherits at hi
        split at hi
        · rw [Ty.EvenAll]; trivial
        · rw [Ty.EvenAll]; trivial
        · rw [Ty.EvenAll, Ty.EvenAll]; trivial
        · cases hi
      · rw [VTy.EvenAll, VTy.EvenAll, Ty.EvenAll]; trivial
      · rw [VTy.EvenAll, VTy.EvenAll, Ty.EvenAll]; trivial
      · cases hi
    · exact vty_even t h.2.2.1 hi
  | .padding _ _ fs, h, hs => by
    rw [VFieldsOk] at h
    rw [VFields.Settled] at hs
    rw [VFields.EvenAll]
    exact vfields_even fs h.2 hs
theorem vmembers_even {E : Env} {ident : String} {bare : List String} : ∀ ms : VMembers, VMembersOk E ident ms →
    ms.Settled bare → ms.EvenAll bare
  | .nil, _, _ => by rw [VMembers.EvenAll]; trivial
  | .default t, h, hs => by
    rw [VMembersOk] at h
    rw [VMembers.Settled] at hs
    rw [VMembers.EvenAll]
    exact vty_even t h hs
  | .cons t ms, h, hs => by
    rw [VMembersOk] at h
    rw [VMembers.Settled] at hs
    rw [VMembers.EvenAll]
    exact ⟨vty_even t h.2.1 hs.1, vmembers_even ms h.2.2 hs.2⟩
end

theorem bareOrder_native {bare : List String} {big : Bool} {n : String} : bareOrder bare big n = .native ↔ n ∈ bare := by
  unfold bareOrder
  split
  · simp [*]
  · simp [*, orderOf_ne big]

theorem fields_scalars {bare : List String} : ∀ {fs : Fields},
    (∀ m ∈ openFieldDefns bare fs, m.isComposite = false ∧ ∀ h a, m ≠ .padding h a) →
    ∃ l, fs.scalars = some l ∧ (openFieldDefns bare fs).map Defn.order? = l.map fun p => some (bareOrder bare p.2 p.1)
  | .nil, _ => ⟨[], rfl, by rw [openFieldDefns]; rfl⟩
  | .cons n t fs, h => by
    rw [openFieldDefns] at h ⊢
    obtain ⟨l, hl, ho⟩ := fields_scalars fun m hm => h m (List.mem_cons_of_mem _ hm)
    have hc := (h _ List.mem_cons_self).1
    rw [Defn.isComposite, Bool.or_eq_false_iff, tyDefn_composite] at hc
    obtain ⟨tn, b, k, s, rfl⟩ := (composite_scalar t).mp hc.2
    refine ⟨(tn, b) :: l, by rw [Fields.scalars, hl]; rfl, ?_⟩
    rw [List.map_cons, List.map_cons, ho, Defn.order?, openTyDefn_order, tyOrder]
    rfl

theorem vfields_scalars {bare : List String} : ∀ {fs : VFields},
    (∀ m ∈ openVFieldDefns bare fs, m.isComposite = false ∧ ∀ h a, m ≠ .padding h a) →
    ∃ l, fs.scalars = some l ∧ (openVFieldDefns bare fs).map Defn.order? = l.map fun p => some (bareOrder bare p.2 p.1)
  | .nil, _ => ⟨[], rfl, by rw [openVFieldDefns]; rfl⟩
  | .padding n a fs, h => by
    rw [openVFieldDefns] at h
    exact absurd rfl ((h _ List.mem_cons_self).2 _ _)
  | .cons n c vs t fs, h => by
    rw [openVFieldDefns] at h ⊢
    obtain ⟨l, hl, ho⟩ := vfields_scalars fun m hm => h m (List.mem_cons_of_mem _ hm)
    have hc := (h _ List.mem_cons_self).1
    rw [Defn.isComposite, Bool.or_eq_false_iff, vtyDefn_composite] at hc
    cases c with
    | some x => simp [truthyStr, test_text] at hc
    | none =>
      cases t with
      | fixed t =>
        rw [vtyDefn] at hc
        obtain ⟨tn, b, k, s, rfl⟩ := (composite_scalar t).mp hc.2
        refine ⟨(tn, b) :: l, by rw [VFields.scalars, hl]; rfl, ?_⟩
        rw [List.map_cons, List.map_cons, ho, Defn.order?, openDefn_order, vtyOrder, tyOrder]
        rfl
      | _ => simp [vtyDefn, Defn.isComposite] at hc

theorem even_orders {bare : List String} {big : Bool} {ms : List Defn} {l : List (String × Bool)}
    (ho : ms.map Defn.order? = l.map fun p => some (bareOrder bare p.2 p.1)) (he : Even bare big (some l))
    (hx : ∃ m ∈ ms, m.order? = some .native) :
    ∀ m ∈ ms, m.order? = some .native ∨ m.order? = some (orderOf big) := by
  have hp : ∀ m ∈ ms, ∃ p ∈ l, m.order? = some (bareOrder bare p.2 p.1) := by
    intro m hm
    have : m.order? ∈ ms.map Defn.order? := List.mem_map.mpr ⟨m, hm, rfl⟩
    rw [ho] at this
    obtain ⟨p, hp, hq⟩ := List.mem_map.mp this
    exact ⟨p, hp, hq.symm⟩
  obtain ⟨m, hm, hn⟩ := hx
  obtain ⟨p, hpl, hpo⟩ := hp m hm
  rw [hpo, Option.some.injEq, bareOrder_native] at hn
  have hall := he l rfl ⟨p, hpl, hn⟩
  intro x hx
  obtain ⟨q, hql, hqo⟩ := hp x hx
  rw [hqo, hall q hql]
  by_cases hb : q.1 ∈ bare
  · exact .inl (by rw [bareOrder_native.mpr hb])
  · exact .inr (by rw [bareOrder_not big hb])

theorem openTyDefn_struct {bare : List String} {t : Ty} {h : Hdr} {ms : List Defn}
    (he : openTyDefn bare t = .struct h ms) : h.order ≠ .native := by
  cases t <;> simp only [openTyDefn] at he <;> cases he
  exact orderOf_ne _

theorem openDefn_struct {bare : List String} {t : VTy} {h : Hdr} {ms : List Defn}
    (he : openDefn bare t = .struct h ms) : h.order ≠ .native := by
  cases t with
  | fixed t => rw [openDefn] at he; exact openTyDefn_struct he
  | record n b fs =>
    simp only [openDefn] at he
    cases he
    exact orderOf_ne b
  | _ => simp only [openDefn] at he; cases he

theorem openFieldDefns_mem {bare : List String} {d : Defn} : ∀ {fs : Fields}, d ∈ openFieldDefns bare fs →
    ∃ n t, d = .member { name := n, order := tyOrder bare t } (openTyDefn bare t) none (some t.name) none ∧
      t ∈ fs.types
  | .nil, h => by rw [openFieldDefns] at h; cases h
  | .cons n t fs, h => by
    rw [openFieldDefns, List.mem_cons] at h
    rw [Fields.types]
    rcases h with rfl | h
    · exact ⟨n, t, rfl, List.mem_cons_self ..⟩
    · obtain ⟨n', t', he, ht⟩ := openFieldDefns_mem h
      exact ⟨n', t', he, List.mem_cons_of_mem _ ht⟩

theorem openVFieldDefns_mem {bare : List String} {d : Defn} : ∀ {fs : VFields},
    d ∈ openVFieldDefns bare fs →
    (∃ n c vs t, d = .member { name := n, order := vtyOrder bare t } (openDefn bare t) c (some t.name) vs ∧
      t ∈ fs.types) ∨
    ∃ n a, d = .padding { name := n, order := .native } (some a) ∧ n ∈ fs.pads
  | .nil, h => by rw [openVFieldDefns] at h; cases h
  | .cons n c vs t fs, h => by
    rw [openVFieldDefns, List.mem_cons] at h
    rw [VFields.types, VFields.pads]
    rcases h with rfl | h
    · exact .inl ⟨n, _, _, t, rfl, List.mem_cons_self ..⟩
    · rcases openVFieldDefns_mem h with ⟨n', c', vs', t', he, ht⟩ | ⟨n', a, he, ht⟩
      · exact .inl ⟨n', c', vs', t', he, List.mem_cons_of_mem _ ht⟩
      · exact .inr ⟨n', a, he, ht⟩
  | .padding n a fs, h => by
    rw [openVFieldDefns, List.mem_cons] at h
    rw [VFields.types, VFields.pads]
    rcases h with rfl | h
    · exact .inr ⟨n, a, rfl, List.mem_cons_self ..⟩
    · rcases openVFieldDefns_mem h with ⟨n', c', vs', t', he, ht⟩ | ⟨n', a, he, ht⟩
      · exact .inl ⟨n', c', vs', t', he, ht⟩
      · exact .inr ⟨n', a, he, List.mem_cons_of_mem _ ht⟩

theorem openRecord_orderly {E : Env} {bare : List String} {big : Bool} {n : String} {fs : Fields}
    (hok : TyOk E (.record n big fs)) (hev : Even bare big fs.scalars) :
    Orderly (.struct { name := n, order := orderOf big } (openFieldDefns bare fs)) := by
  rw [TyOk] at hok
  obtain ⟨-, -, -, -, hdist, hfs⟩ := hok
  refine ⟨⟨?_, ?_⟩, fun _ => ⟨?_, ?_⟩⟩
  · intro x hx y hy he
    obtain ⟨_, t, rfl, ht⟩ := openFieldDefns_mem hx
    obtain ⟨_, u, rfl, hu⟩ := openFieldDefns_mem hy
    simp only [Defn.target, openTyDefn_name] at he ⊢
    rw [hdist t ht u hu he]
  · intro x hx
    obtain ⟨_, t, rfl, ht⟩ := openFieldDefns_mem hx
    simp only [Defn.target, openTyDefn_name]
    exact fieldsOk_names hfs ht
  · intro x hx h ms he
    obtain ⟨_, t, rfl, ht⟩ := openFieldDefns_mem hx
    exact openTyDefn_struct he
  · intro hp hx
    obtain ⟨l, hl, ho⟩ := fields_scalars hp
    exact even_orders ho (hl ▸ hev) hx

theorem openVRecord_orderly {E : Env} {bare : List String} {big : Bool} {n : String} {fs : VFields}
    (hok : VTyOk E (.record n big fs)) (hev : Even bare big fs.scalars) :
    Orderly (.struct { name := n, order := orderOf big } (openVFieldDefns bare fs)) := by
  rw [VTyOk] at hok
  obtain ⟨-, hv, -, -, hdist, hpads, hfs⟩ := hok
  have hnd : fs.names.Nodup := hv.distinct
  refine ⟨⟨?_, ?_⟩, fun _ => ⟨?_, ?_⟩⟩
  · intro x hx y hy he
    have hin : ∀ {a b : Defn}, a ∈ openVFieldDefns bare fs → b ∈ openVFieldDefns bare fs → a.name = b.name → a = b := by
      intro a b ha hb hab
      have h := hnd
      rw [← openVFieldDefns_names bare fs] at h
      clear hx hy he x y hdist hpads hfs
      generalize openVFieldDefns bare fs = l at ha hb h
      induction l with
      | nil => cases ha
      | cons z l ih =>
        rw [List.map_cons, List.nodup_cons] at h
        rcases List.mem_cons.mp ha with rfl | ha' <;> rcases List.mem_cons.mp hb with rfl | hb'
        · rfl
        · exact absurd (List.mem_map.mpr ⟨b, hb', hab.symm⟩) h.1
        · exact absurd (List.mem_map.mpr ⟨a, ha', hab⟩) h.1
        · exact ih ha' hb' h.2
    rcases openVFieldDefns_mem hx with ⟨_, _, _, t, rfl, ht⟩ | ⟨p, a, rfl, hp⟩ <;>
      rcases openVFieldDefns_mem hy with ⟨_, _, _, u, rfl, hu⟩ | ⟨q, b, rfl, hq⟩
    · simp only [Defn.target, openDefn_name] at he ⊢
      rw [hdist t ht u hu he]
    · simp only [Defn.target, openDefn_name] at he
      exact absurd he.symm ((hpads q hq).2 t ht)
    · simp only [Defn.target, openDefn_name] at he
      exact absurd he ((hpads p hp).2 u hu)
    · rw [hin hx hy he]
  · intro x hx
    rcases openVFieldDefns_mem hx with ⟨_, _, _, t, rfl, ht⟩ | ⟨p, a, rfl, hp⟩
    · simp only [Defn.target, openDefn_name]
      exact (vtyOk_nameable (vfieldsOk_mem hfs ht)).1
    · exact (hpads p hp).1
  · intro x hx h ms he
    rcases openVFieldDefns_mem hx with ⟨_, _, _, t, rfl, ht⟩ | ⟨p, a, rfl, hp⟩
    · exact openDefn_struct he
    · cases he
  · intro hp hx
    obtain ⟨l, hl, ho⟩ := vfields_scalars hp
    exact even_orders ho (hl ▸ hev) hx

mutual
theorem openTy_orderly {E : Env} (bare : List String) : ∀ t : Ty, TyOk E t → t.EvenAll bare →
    (openTyDefn bare t).Every Orderly
  | .scalar _ _ _ _, _, _ => trivial
  | .uuid _ _, _, _ => trivial
  | .stream n e s, h, hv => by
    rw [TyOk] at h
    rw [Ty.EvenAll] at hv
    rw [openTyDefn, Defn.Every]
    exact ⟨trivial, openTy_orderly bare e h.2.2.2 hv⟩
  | .sequence n e k, h, hv => by
    rw [TyOk] at h
    rw [Ty.EvenAll] at hv
    rw [openTyDefn, Defn.Every]
    exact ⟨trivial, openTy_orderly bare e h.2.2 hv⟩
  | .record n b fs, h, hv => by
    have h' := h
    rw [TyOk] at h'
    rw [Ty.EvenAll] at hv
    rw [openTyDefn, Defn.Every]
    exact ⟨openRecord_orderly h hv.1, openFields_orderly bare fs h'.2.2.2.2.2 hv.2⟩
theorem openFields_orderly {E : Env} (bare : List String) : ∀ fs : Fields, FieldsOk E fs → fs.EvenAll bare →
    everyDefn Orderly (openFieldDefns bare fs)
  | .nil, _, _ => trivial
  | .cons n t fs, h, hv => by
    rw [FieldsOk] at h
    rw [Fields.EvenAll] at hv
    rw [openFieldDefns, everyDefn, Defn.Every]
    exact ⟨⟨trivial, openTy_orderly bare t h.1 hv.1⟩, openFields_orderly bare fs h.2 hv.2⟩
end

mutual
theorem open_orderly {E : Env} (bare : List String) : ∀ t : VTy, VTyOk E t → t.EvenAll bare →
    (openDefn bare t).Every Orderly
  | .fixed t, h, hv => by
    rw [VTyOk] at h
    rw [VTy.EvenAll] at hv
    rw [openDefn]
    exact openTy_orderly bare t h hv
  | .block n e len, h, _ => by
    rw [VTyOk] at h
    obtain ⟨-, ⟨en, eb, k, z, rfl⟩, h, -⟩ := h
    rw [openDefn, Defn.Every]
    exact ⟨trivial, openTy_orderly bare _ h (by rw [Ty.EvenAll]; trivial)⟩
  | .text n enc e len, h, _ => by
    rw [VTyOk] at h
    obtain ⟨-, ⟨en, eb, k, z, rfl⟩, h, -⟩ := h
    rw [openDefn, Defn.Every]
    exact ⟨trivial, openTy_orderly bare _ h (by rw [Ty.EvenAll]; trivial)⟩
  | .array n e x, h, hv => by
    rw [VTyOk] at h
    rw [VTy.EvenAll] at hv
    rw [openDefn, Defn.Every]
    exact ⟨trivial, open_orderly bare e h.2.2.2 hv⟩
  | .list n e x, h, hv => by
    rw [VTyOk] at h
    rw [VTy.EvenAll] at hv
    rw [openDefn, Defn.Every]
    exact ⟨trivial, open_orderly bare e h.2.2.2 hv⟩
  | .record n b fs, h, hv => by
    have h' := h
    rw [VTyOk] at h'
    rw [VTy.EvenAll] at hv
    rw [openDefn, Defn.Every]
    exact ⟨openVRecord_orderly h hv.1, openVFields_orderly bare fs h'.2.2.2.2.2.2 hv.2⟩
  | .group n base ident ms, h, hv => by
    rw [VTyOk] at h
    rw [VTy.EvenAll] at hv
    rw [openDefn, Defn.Every]
    obtain ⟨h1, h2⟩ := openMembers_orderly (ident := ident) bare ms h.2.2.2.2.2 hv.2
    exact ⟨trivial, open_orderly bare base h.2.2.1 hv.1, h1, h2⟩
theorem openVFields_orderly {E : Env} (bare : List String) : ∀ fs : VFields, VFieldsOk E fs → fs.EvenAll bare →
    everyDefn Orderly (openVFieldDefns bare fs)
  | .nil, _, _ => trivial
  | .cons n c vs t fs, h, hv => by
    rw [VFieldsOk] at h
    rw [VFields.EvenAll] at hv
    rw [openVFieldDefns, everyDefn, Defn.Every]
    exact ⟨⟨trivial, open_orderly bare t h.2.2.1 hv.1⟩, openVFields_orderly bare fs h.2.2.2 hv.2⟩
  | .padding n a fs, h, hv => by
    rw [VFieldsOk] at h
    rw [VFields.EvenAll] at hv
    rw [openVFieldDefns, everyDefn, Defn.Every]
    exact ⟨trivial, openVFields_orderly bare fs h.2 hv⟩
theorem openMembers_orderly {E : Env} {ident : String} (bare : List String) : ∀ ms : VMembers,
    VMembersOk E ident ms → ms.EvenAll bare →
    everyOptDefn Orderly (openDefaultDefn bare ms) ∧ everyDefn Orderly (openMemberDefns bare ms)
  | .nil, _, _ => ⟨trivial, trivial⟩
  | .default t, h, hv => by
    rw [VMembersOk] at h
    rw [VMembers.EvenAll] at hv
    rw [openDefaultDefn, openMemberDefns, everyOptDefn]
    exact ⟨open_orderly bare t h hv, trivial⟩
  | .cons t ms, h, hv => by
    rw [VMembersOk] at h
    rw [VMembers.EvenAll] at hv
    rw [openDefaultDefn, openMemberDefns, everyDefn]
    obtain ⟨h1, h2⟩ := openMembers_orderly bare ms h.2.2 hv.2
    exact ⟨h1, open_orderly bare t h.2.1 hv.1, h2⟩
end

/-! ### Nothing left open -/

theorem bareOrder_nil (big : Bool) (n : String) : bareOrder [] big n = orderOf big := rfl

theorem tyOrder_nil : ∀ t : Ty, tyOrder [] t = orderOf t.big
  | .scalar _ _ _ _ => rfl
  | .uuid _ _ => rfl
  | .stream _ e _ => tyOrder_nil e
  | .sequence _ e _ => tyOrder_nil e
  | .record _ _ _ => rfl

theorem vtyOrder_nil : ∀ t : VTy, vtyOrder [] t = orderOf t.big
  | .fixed t => tyOrder_nil t
  | .block _ e _ => tyOrder_nil e
  | .text _ _ e _ => tyOrder_nil e
  | .array _ e _ => vtyOrder_nil e
  | .list _ e _ => vtyOrder_nil e
  | .record _ _ _ => rfl
  | .group _ base _ _ => vtyOrder_nil base

mutual
theorem openTyDefn_nil : ∀ t : Ty, openTyDefn [] t = tyDefn t
  | .scalar n b k s => by rw [openTyDefn, tyDefn, bareOrder_nil]
  | .uuid n b => by rw [openTyDefn, tyDefn, bareOrder_nil]
  | .stream n e s => by rw [openTyDefn, tyDefn, tyOrder_nil, openTyDefn_nil e]
  | .sequence n e k => by rw [openTyDefn, tyDefn, tyOrder_nil, openTyDefn_nil e]
  | .record n b fs => by rw [openTyDefn, tyDefn, openFieldDefns_nil fs]
theorem openFieldDefns_nil : ∀ fs : Fields, openFieldDefns [] fs = fieldDefns fs
  | .nil => by rw [openFieldDefns, fieldDefns]
  | .cons n t fs => by rw [openFieldDefns, fieldDefns, tyOrder_nil, openTyDefn_nil t, openFieldDefns_nil fs]
end

mutual
theorem openDefn_nil : ∀ t : VTy, openDefn [] t = vtyDefn t
  | .fixed t => by rw [openDefn, vtyDefn, openTyDefn_nil]
  | .block n e len => by rw [openDefn, vtyDefn, openTyDefn_nil, tyOrder_nil]
  | .text n enc e len => by rw [openDefn, vtyDefn, openTyDefn_nil, tyOrder_nil]
  | .array n e x => by rw [openDefn, vtyDefn, openDefn_nil e, vtyOrder_nil]
  | .list n e x => by rw [openDefn, vtyDefn, openDefn_nil e, vtyOrder_nil]
  | .record n b fs => by rw [openDefn, vtyDefn, openVFieldDefns_nil fs]
  | .group n base ident ms => by
    rw [openDefn, vtyDefn, openDefn_nil base, vtyOrder_nil, (openMembers_nil ms).1, (openMembers_nil ms).2]
theorem openVFieldDefns_nil : ∀ fs : VFields, openVFieldDefns [] fs = vfieldDefns fs
  | .nil => by rw [openVFieldDefns, vfieldDefns]
  | .cons n c vs t fs => by
    rw [openVFieldDefns, vfieldDefns, vtyOrder_nil, openDefn_nil t, openVFieldDefns_nil fs]
  | .padding n a fs => by rw [openVFieldDefns, vfieldDefns, openVFieldDefns_nil fs]
theorem openMembers_nil : ∀ ms : VMembers,
    openDefaultDefn [] ms = vdefaultDefn ms ∧ openMemberDefns [] ms = vmemberDefns ms
  | .nil => by rw [openDefaultDefn, vdefaultDefn, openMemberDefns, vmemberDefns]; exact ⟨rfl, rfl⟩
  | .default t => by
    rw [openDefaultDefn, vdefaultDefn, openMemberDefns, vmemberDefns, openDefn_nil t]; exact ⟨rfl, rfl⟩
  | .cons t ms => by
    rw [openDefaultDefn, vdefaultDefn, openMemberDefns, vmemberDefns, openDefn_nil t, (openMembers_nil ms).1,
      (openMembers_nil ms).2]
    exact ⟨rfl, rfl⟩
end

mutual
theorem ty_settled_nil : ∀ t : Ty, t.Settled []
  | .scalar _ _ _ _ => by rw [Ty.Settled]; simp
  | .uuid _ _ => by rw [Ty.Settled]; simp
  | .stream _ _ _ => trivial
  | .sequence _ e _ => ty_settled_nil e
  | .record _ _ fs => ⟨fun _ _ ⟨_, _, h⟩ => (nomatch h), fields_settled_nil fs⟩
theorem fields_settled_nil : ∀ fs : Fields, fs.Settled []
  | .nil => trivial
  | .cons _ t fs => ⟨.inr (ty_settled_nil t), fields_settled_nil fs⟩
end

mutual
/-- Where every scalar and UUID has a byte order, all types are settled. -/
theorem settled_nil : ∀ t : VTy, t.Settled []
  | .fixed t => ty_settled_nil t
  | .block _ _ _ => trivial
  | .text _ _ _ _ => trivial
  | .array _ e _ => settled_nil e
  | .list _ e _ => settled_nil e
  | .record _ _ fs => ⟨fun _ _ ⟨_, _, h⟩ => (nomatch h), vfields_settled_nil fs⟩
  | .group _ base _ ms => ⟨settled_nil base, vmembers_settled_nil ms⟩
theorem vfields_settled_nil : ∀ fs : VFields, fs.Settled []
  | .nil => trivial
  | .cons _ _ _ t fs => ⟨.inr (settled_nil t), vfields_settled_nil fs⟩
  | .padding _ _ fs => vfields_settled_nil fs
theorem vmembers_settled_nil : ∀ ms : VMembers, ms.Settled []
  | .nil => trivial
  | .default t => settled_nil t
  | .cons t ms => ⟨settled_nil t, vmembers_settled_nil ms⟩
end

/-! ### The maps -/

/-- The map of a settled type cannot be told from that of the type with all byte orders. -/
theorem open_map {E : Env} (bare : List String) {t : VTy} (hok : VTyOk E t) (hl : t.Filled bare) (hs : t.Settled bare) :
    SameOutcome (createMap E (openDefn bare t)) (createMap E (vtyDefn t)) :=
  createMap_settled E (open_orderly bare t hok (vty_even t hok hs))
    (by rw [← openDefn_nil]; exact open_orderly [] t hok (vty_even t hok (settled_nil t))) (vty_settled bare t hok hl hs _)

end Dtf
