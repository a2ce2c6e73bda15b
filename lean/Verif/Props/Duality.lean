import Verif.Props.Primitive
import Verif.Fold
/-!
# Property C07: byte-order duality, of folding
-/
namespace Dtf

theorem bytesOf_reverse (n u : Nat) : bytesOf true n u = (bytesOf false n u).reverse := by simp [bytesOf]

theorem packInt_reverse (n : Nat) (s : Bool) (i : Int) :
    packInt true n s i = (packInt false n s i).map List.reverse := by
  simp only [packInt, bytesOf_reverse]
  split <;> split <;> rfl

theorem packOne_reverse (E : Env) (c : Code) (v : Val) :
    packOne E .little c v = (packOne E .big c v).map List.reverse := by
  simp only [packOne, Env.isLittle]
  split
  · cases (v.toFloat E).bind E.f64to32 <;> simp [bytesOf_reverse]
  · cases v.toFloat E <;> simp [bytesOf_reverse]
  · cases v.toIndex <;> simp [packInt_reverse]

theorem packOne_native (E : Env) (c : Code) (v : Val) :
    packOne E .native c v = packOne E (if E.nativeLittle then .little else .big) c v := by
  cases h : E.nativeLittle <;> simp [packOne, Env.isLittle, h]

/-- **C07** For any primitive definition and value, folding in little-endian order gives the reversed bytes of
folding in big-endian order, or both fail, and native order is the one of the two the platform uses. -/
theorem C07_fold (E : Env) (h : Hdr) (k : PrimKind) (s : Size) (u : String) (ml mb mn : DMap)
    (hl : createMap E (.prim { h with order := .little } k s u) = .ok ml)
    (hb : createMap E (.prim { h with order := .big } k s u) = .ok mb)
    (hn : createMap E (.prim { h with order := .native } k s u) = .ok mn) (v : Val) (ns : Namespace) :
    ((∃ e, fold E ml v ns = .error e ∧ fold E mb v ns = .error e) ∨
      ∃ b : Bytes, fold E mb v ns = .ok (.bytes b) ∧ fold E ml v ns = .ok (.bytes b.reverse)) ∧
    fold E mn v ns = fold E (if E.nativeLittle then ml else mb) v ns := by
  obtain rfl := createMap_prim _ _ _ _ _ _ hl
  obtain rfl := createMap_prim _ _ _ _ _ _ hb
  obtain rfl := createMap_prim _ _ _ _ _ _ hn
  constructor
  · simp only [fold, primFold]
    cases foldValue k v with
    | none => exact .inl ⟨_, rfl, rfl⟩
    | some x =>
      cases primCode k s with
      | none => exact .inl ⟨_, rfl, rfl⟩
      | some c =>
        simp only [packOne_reverse]
        cases packOne E .big c x with
        | none => exact .inl ⟨_, rfl, rfl⟩
        | some b => exact .inr ⟨b, rfl, rfl⟩
  · cases hE : E.nativeLittle <;> simp [fold, primFold, packOne_native, hE]

/-- A two byte integer in both orders. -/
example : ∃ ml mb, createMap exEnv (.prim { name := "t", order := .little } (.integer true) (.bytes 2)
      "bytes") = .ok ml ∧
    createMap exEnv (.prim { name := "t", order := .big } (.integer true) (.bytes 2) "bytes") = .ok mb ∧
    fold exEnv ml (.int 513) [] = .ok (.bytes [1, 2]) ∧
    fold exEnv mb (.int 513) [] = .ok (.bytes [2, 1]) := ⟨_, _, rfl, rfl, rfl, rfl⟩

end Dtf
