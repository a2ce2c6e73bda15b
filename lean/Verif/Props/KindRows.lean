import Verif.Props.Kinds
import Verif.Props.Complete
/-!
# Property C127 for sequences: sequences of characters, booleans and floating-point numbers are what the sequences of
integers at their place say
-/
namespace Dtf

namespace Spec

/-- The value of a boolean with the values `f` for false and `t` for true, read from the number `i`. -/
inductive Truth (f t : Option Int) (i : Int) : Bool → Prop
  | no (h : f = some i) : Truth f t i false
  | yes (h : f ≠ some i) (h' : t = some i) : Truth f t i true
  | otherNo (h : f = none) (h' : t ≠ some i) : Truth f t i false
  | otherYes (h : f ≠ some i) (h' : f ≠ none) (h'' : t = none) : Truth f t i true

/-- The character with a number. -/
def IsChar (w v : Val) : Prop := ∃ c : Nat, c ≤ 0x10FFFF ∧ w = .int c ∧ v = .str [c]

/-- The boolean read from a number. -/
def IsBool (f t : Option Int) (w v : Val) : Prop := ∃ (i : Int) (b : Bool), Truth f t i b ∧ w = .int i ∧ v = .bool b

/-- The floating-point number of `n` bytes with the bits of a number. -/
def IsFloat (E : Env) (n : Nat) (w v : Val) : Prop :=
  ∃ i : Nat, w = .int i ∧ v = .float (if n = 4 then E.f32to64 i else i)

/-- The signed integer of `n` bytes with the bytes of an unsigned one. -/
def IsSigned (n : Nat) (w v : Val) : Prop :=
  ∃ i : Int, w = .int i ∧ v = .int (if 2 * i < 256 ^ n then i else i - 256 ^ n)

end Spec
open Spec

/-- A primitive that is mapped has its bytes. -/
theorem prim_inside {E : Env} {h : Hdr} {k : PrimKind} {n : Nat} {c : Code} (hc : primCode k (.bytes n) = some c) {m : DMap}
    (hm : createMap E (.prim h k (.bytes n) "bytes") = .ok m) {bs : Bytes} {p d : Nat} {v : Val}
    (hv : (mapStream E m bs p d {}).1 = .ok v) : p + n ≤ bs.length ∧ (mapStream E m bs p d {}).2.byteSize = some n := by
  obtain rfl := createMap_prim _ _ _ _ _ _ hm
  have hle : p + n ≤ bs.length := by
    obtain ⟨k, hk, -⟩ := mapStream_ok (c := {}) rfl hv
    simp only [parse, primParse, fixedByteSize, beq_self_eq_true, if_true] at hk
    split at hk
    · cases hk
    · rename_i hts; simp [tooSmall] at hts; omega
  refine ⟨hle, ?_⟩
  rw [prim_map_eq E h k n c hc bs p d {} hle] at hv ⊢
  split at hv
  · cases hv
  · rfl

theorem createMap_named {E : Env} {en : String} {o : Order} {h : Hdr} {k : PrimKind} {n : Nat} {m : DMap}
    (hm : createAs E en o (.prim h k (.bytes n) "bytes") = .ok m) :
    createMap E (.prim { h with name := en, order := o } k (.bytes n) "bytes") = .ok m := by
  rw [← hm]
  simp [createMap, createAs, Defn.orderOrNative, Defn.order?, Defn.name, Defn.hdr]

/-- Values that are read where other values are read, each of which determines one. -/
theorem readable_kin {E : Env} {em em' : DMap} {bs : Bytes} {depth : Nat} {R : Val → Val → Prop}
    (hs : ∀ p v k, ((mapStream E em bs p depth {}).1 = .ok v ∧ (mapStream E em bs p depth {}).2.byteSize = some k) ↔
      ∃ w, R w v ∧ (mapStream E em' bs p depth {}).1 = .ok w ∧ (mapStream E em' bs p depth {}).2.byteSize = some k)
    {stop p q : Nat} {vs : List Val} :
    Readable E em bs depth stop p vs q ↔ ∃ ws, All2 R ws vs ∧ Readable E em' bs depth stop p ws q := by
  constructor
  · intro h
    induction h with
    | nil p => exact ⟨[], .nil, .nil p⟩
    | cons hp hv hk t ih =>
      obtain ⟨w, hr, h1, h2⟩ := (hs _ _ _).mp ⟨hv, hk⟩
      obtain ⟨ws, h3, h4⟩ := ih
      exact ⟨w :: ws, .cons hr h3, .cons hp h1 h2 h4⟩
  · rintro ⟨ws, h1, h2⟩
    induction h1 generalizing p with
    | nil => cases h2; exact .nil _
    | cons hr h3 ih =>
      cases h2 with
      | cons hp hv hk t =>
        obtain ⟨h4, h5⟩ := (hs _ _ _).mpr ⟨_, hr, hv, hk⟩
        exact .cons hp h4 h5 (ih t)

section
variable {E : Env} {nm nm' : String} {o : Order} {h h' eh eh' : Hdr} {info info' : SeqInfo} {m m' : DMap}

theorem seq_kin {k k' : PrimKind} {n : Nat} {R : Val → Val → Prop}
    (hm : createAs E nm o (.seq h info (.prim eh k (.bytes n) "bytes")) = .ok m)
    (hm' : createAs E nm' o (.seq h' info' (.prim eh' k' (.bytes n) "bytes")) = .ok m')
    (hk : info.kind = .sequence) (hk' : info'.kind = .sequence) (ho : eh'.order = eh.order)
    (hR : ∀ (g g' : Hdr), g'.order = g.order → ∀ em em' : DMap,
      createMap E (.prim g k (.bytes n) "bytes") = .ok em → createMap E (.prim g' k' (.bytes n) "bytes") = .ok em' →
      ∀ bs p d v s, ((mapStream E em bs p d {}).1 = .ok v ∧ (mapStream E em bs p d {}).2.byteSize = some s) ↔
        ∃ w, R w v ∧ (mapStream E em' bs p d {}).1 = .ok w ∧ (mapStream E em' bs p d {}).2.byteSize = some s)
    (bs : Bytes) (off depth : Nat) (hd : depth ≤ 10) (c : Ctx) (hc : c.Clean)
    (h1 : info.dataSize = none) (h2 : info.dataSizeExpr = none) (h3 : info.terminator = none)
    (h1' : info'.dataSize = none) (h2' : info'.dataSizeExpr = none) (h3' : info'.terminator = none)
    (l : Nat) (hn : Amounts E info.numElements info.numElementsExpr c.values l)
    (hn' : Amounts E info'.numElements info'.numElementsExpr c.values l) (v : Val) (s : Nat) :
    ((mapStream E m bs off depth c).1 = .ok v ∧ (mapStream E m bs off depth c).2.byteSize = some s) ↔
      ∃ ws vs, v = .tuple vs ∧ All2 R ws vs ∧
        (mapStream E m' bs off depth c).1 = .ok (.tuple ws) ∧ (mapStream E m' bs off depth c).2.byteSize = some s := by
  obtain ⟨en, em, -, hem, hiff⟩ := C85_number E nm o h info hk _ m hm (fun _ _ _ _ _ => nofun) bs off depth hd c hc h1 h2 h3 l hn
  obtain ⟨en', em', -, hem', hiff'⟩ :=
    C85_number E nm' o h' info' hk' _ m' hm' (fun _ _ _ _ _ => nofun) bs off depth hd c hc h1' h2' h3' l hn'
  have hord : elementOrder o (.prim eh' k' (.bytes n) "bytes") = elementOrder o (.prim eh k (.bytes n) "bytes") := by
    simp only [elementOrder, Defn.order?, Defn.isComposite, ho]
    cases eh.order <;> rfl
  rw [hord] at hem'
  have hs := fun vs => readable_kin (vs := vs) (stop := bs.length) (p := off) (q := off + s)
    (fun p v r => hR { eh with name := en, order := _ } { eh' with name := en', order := _ } rfl em em' (createMap_named hem)
      (createMap_named hem') bs p (depth + 1) v r)
  rw [hiff]
  constructor
  · rintro ⟨vs, rfl, hl, hr⟩
    obtain ⟨ws, hw, hr'⟩ := (hs _).mp hr
    exact ⟨ws, vs, rfl, hw, (hiff' _ _).mpr ⟨ws, rfl, by rw [← hl, hw.length_eq], hr'⟩⟩
  · rintro ⟨ws, vs, rfl, hw, hr⟩
    obtain ⟨ws', heq, hl, hr'⟩ := (hiff' _ _).mp hr
    cases heq
    exact ⟨vs, rfl, by rw [← hl, hw.length_eq], (hs _).mpr ⟨ws, hw, hr'⟩⟩

/-- **C127** A sequence of characters is mapped exactly if the sequence of that number of signed integers is mapped to numbers
of characters, and gives the characters with these numbers. -/
theorem C127_characters {n : Nat} (hsz : n = 1 ∨ n = 2 ∨ n = 4)
    (hm : createAs E nm o (.seq h info (.prim eh .character (.bytes n) "bytes")) = .ok m)
    (hm' : createAs E nm' o (.seq h' info' (.prim eh' (.integer false) (.bytes n) "bytes")) = .ok m')
    (hk : info.kind = .sequence) (hk' : info'.kind = .sequence) (ho : eh'.order = eh.order)
    (bs : Bytes) (off depth : Nat) (hd : depth ≤ 10) (c : Ctx) (hc : c.Clean)
    (h1 : info.dataSize = none) (h2 : info.dataSizeExpr = none) (h3 : info.terminator = none)
    (h1' : info'.dataSize = none) (h2' : info'.dataSizeExpr = none) (h3' : info'.terminator = none)
    (l : Nat) (hn : Amounts E info.numElements info.numElementsExpr c.values l)
    (hn' : Amounts E info'.numElements info'.numElementsExpr c.values l) (v : Val) (s : Nat) :
    ((mapStream E m bs off depth c).1 = .ok v ∧ (mapStream E m bs off depth c).2.byteSize = some s) ↔
      ∃ ws vs, v = .tuple vs ∧ All2 IsChar ws vs ∧
        (mapStream E m' bs off depth c).1 = .ok (.tuple ws) ∧ (mapStream E m' bs off depth c).2.byteSize = some s := by
  refine seq_kin hm hm' hk hk' ho ?_ bs off depth hd c hc h1 h2 h3 h1' h2' h3' l hn hn' v s
  intro g g' hg em em' hem hem' bs p d v s
  obtain ⟨x, hx⟩ : ∃ x, primCode .character (.bytes n) = some x := by rcases hsz with rfl | rfl | rfl <;> exact ⟨_, rfl⟩
  obtain ⟨y, hy, -⟩ := intCode_some (u := false) (n := n) (by omega)
  constructor
  · rintro ⟨hv, hsz'⟩
    obtain ⟨hle, hb⟩ := prim_inside hx hem hv
    obtain ⟨i, h1, h2⟩ := C127_character E g g' hg n hsz em em' hem hem' bs p d {} hle
    rw [hb] at hsz'
    rw [hv] at h2
    split at h2
    · rename_i hi
      cases h2
      refine ⟨.int i, ⟨i.toNat, by omega, by rw [Int.toNat_of_nonneg hi.1], rfl⟩, h1, ?_⟩
      rw [(prim_inside hy hem' h1).2, hsz']
    · cases h2
  · rintro ⟨w, ⟨k, hk, rfl, rfl⟩, hw, hsz'⟩
    obtain ⟨hle, hb⟩ := prim_inside hy hem' hw
    obtain ⟨i, h1, h2⟩ := C127_character E g g' hg n hsz em em' hem hem' bs p d {} hle
    rw [hb] at hsz'
    rw [hw] at h1
    cases h1
    rw [if_pos ⟨Int.natCast_nonneg k, by omega⟩] at h2
    refine ⟨h2, ?_⟩
    rw [(prim_inside hx hem h2).2, hsz']

/-- **C127** A sequence of booleans is mapped exactly if the sequence of that number of unsigned integers is mapped to numbers
that have truth values, and gives these. -/
theorem C127_booleans {f t : Option Int} {n : Nat} (hsz : n = 1 ∨ n = 2 ∨ n = 4)
    (hm : createAs E nm o (.seq h info (.prim eh (.boolean f t) (.bytes n) "bytes")) = .ok m)
    (hm' : createAs E nm' o (.seq h' info' (.prim eh' (.integer true) (.bytes n) "bytes")) = .ok m')
    (hk : info.kind = .sequence) (hk' : info'.kind = .sequence) (ho : eh'.order = eh.order)
    (bs : Bytes) (off depth : Nat) (hd : depth ≤ 10) (c : Ctx) (hc : c.Clean)
    (h1 : info.dataSize = none) (h2 : info.dataSizeExpr = none) (h3 : info.terminator = none)
    (h1' : info'.dataSize = none) (h2' : info'.dataSizeExpr = none) (h3' : info'.terminator = none)
    (l : Nat) (hn : Amounts E info.numElements info.numElementsExpr c.values l)
    (hn' : Amounts E info'.numElements info'.numElementsExpr c.values l) (v : Val) (s : Nat) :
    ((mapStream E m bs off depth c).1 = .ok v ∧ (mapStream E m bs off depth c).2.byteSize = some s) ↔
      ∃ ws vs, v = .tuple vs ∧ All2 (IsBool f t) ws vs ∧
        (mapStream E m' bs off depth c).1 = .ok (.tuple ws) ∧ (mapStream E m' bs off depth c).2.byteSize = some s := by
  refine seq_kin hm hm' hk hk' ho ?_ bs off depth hd c hc h1 h2 h3 h1' h2' h3' l hn hn' v s
  intro g g' hg em em' hem hem' bs p d v s
  obtain ⟨x, hx⟩ : ∃ x, primCode (.boolean f t) (.bytes n) = some x := by
    rcases hsz with rfl | rfl | rfl <;> exact ⟨_, rfl⟩
  obtain ⟨y, hy, -⟩ := intCode_some (u := true) (n := n) (by omega)
  constructor
  · rintro ⟨hv, hsz'⟩
    obtain ⟨hle, hb⟩ := prim_inside hx hem hv
    obtain ⟨i, h1, h2⟩ := C127_boolean E g g' hg f t n hsz em em' hem hem' bs p d {} hle
    rw [hb] at hsz'
    rw [hv] at h2
    have : ∃ b, Truth f t i b ∧ v = .bool b := by
      split at h2
      · cases h2; exact ⟨_, .no ‹_›, rfl⟩
      split at h2
      · cases h2; exact ⟨_, .yes ‹_› ‹_›, rfl⟩
      split at h2
      · cases h2; exact ⟨_, .otherNo ‹_› ‹_›, rfl⟩
      split at h2
      · cases h2; exact ⟨_, .otherYes ‹_› ‹_› ‹_›, rfl⟩
      · cases h2
    obtain ⟨b, hb', rfl⟩ := this
    refine ⟨.int i, ⟨i, b, hb', rfl, rfl⟩, h1, ?_⟩
    rw [(prim_inside hy hem' h1).2, hsz']
  · rintro ⟨w, ⟨i', b, hb', rfl, rfl⟩, hw, hsz'⟩
    obtain ⟨hle, hb⟩ := prim_inside hy hem' hw
    obtain ⟨i, h1, h2⟩ := C127_boolean E g g' hg f t n hsz em em' hem hem' bs p d {} hle
    rw [hb] at hsz'
    rw [hw] at h1
    cases h1
    have hv : (mapStream E em bs p d {}).1 = .ok (.bool b) := by
      rw [h2]
      cases hb' with
      | no h => rw [if_pos h]
      | yes h h' => rw [if_neg h, if_pos h']
      | otherNo h h' => rw [if_neg (by rw [h]; simp), if_neg h', if_pos h]
      | otherYes h h' h'' => rw [if_neg h, if_neg (by rw [h'']; simp), if_neg h', if_pos h'']
    refine ⟨hv, ?_⟩
    rw [(prim_inside hx hem hv).2, hsz']

/-- **C127** A sequence of floating-point numbers is mapped exactly if the sequence of that number of unsigned integers is, and
gives the numbers with these bits. -/
theorem C127_floats {n : Nat} (hsz : n = 4 ∨ n = 8)
    (hm : createAs E nm o (.seq h info (.prim eh .floatingPoint (.bytes n) "bytes")) = .ok m)
    (hm' : createAs E nm' o (.seq h' info' (.prim eh' (.integer true) (.bytes n) "bytes")) = .ok m')
    (hk : info.kind = .sequence) (hk' : info'.kind = .sequence) (ho : eh'.order = eh.order)
    (bs : Bytes) (off depth : Nat) (hd : depth ≤ 10) (c : Ctx) (hc : c.Clean)
    (h1 : info.dataSize = none) (h2 : info.dataSizeExpr = none) (h3 : info.terminator = none)
    (h1' : info'.dataSize = none) (h2' : info'.dataSizeExpr = none) (h3' : info'.terminator = none)
    (l : Nat) (hn : Amounts E info.numElements info.numElementsExpr c.values l)
    (hn' : Amounts E info'.numElements info'.numElementsExpr c.values l) (v : Val) (s : Nat) :
    ((mapStream E m bs off depth c).1 = .ok v ∧ (mapStream E m bs off depth c).2.byteSize = some s) ↔
      ∃ ws vs, v = .tuple vs ∧ All2 (IsFloat E n) ws vs ∧
        (mapStream E m' bs off depth c).1 = .ok (.tuple ws) ∧ (mapStream E m' bs off depth c).2.byteSize = some s := by
  refine seq_kin hm hm' hk hk' ho ?_ bs off depth hd c hc h1 h2 h3 h1' h2' h3' l hn hn' v s
  intro g g' hg em em' hem hem' bs p d v s
  obtain ⟨x, hx⟩ : ∃ x, primCode .floatingPoint (.bytes n) = some x := by rcases hsz with rfl | rfl <;> exact ⟨_, rfl⟩
  obtain ⟨y, hy, -⟩ := intCode_some (u := true) (n := n) (by omega)
  constructor
  · rintro ⟨hv, hsz'⟩
    obtain ⟨hle, hb⟩ := prim_inside hx hem hv
    obtain ⟨i, h1, h2⟩ := C127_float E g g' hg n hsz em em' hem hem' bs p d {} hle
    rw [hb] at hsz'
    rw [hv] at h2
    cases h2
    refine ⟨.int i, ⟨i, rfl, rfl⟩, h1, ?_⟩
    rw [(prim_inside hy hem' h1).2, hsz']
  · rintro ⟨w, ⟨j, rfl, rfl⟩, hw, hsz'⟩
    obtain ⟨hle, hb⟩ := prim_inside hy hem' hw
    obtain ⟨i, h1, h2⟩ := C127_float E g g' hg n hsz em em' hem hem' bs p d {} hle
    rw [hb] at hsz'
    rw [hw] at h1
    have hij : (j : Int) = i := by simpa using h1
    have hij : j = i := by omega
    subst hij
    refine ⟨h2, ?_⟩
    rw [(prim_inside hx hem h2).2, hsz']

/-- **C124** A sequence of signed integers is mapped exactly if the sequence of that number of unsigned integers is, and gives
the same numbers, except that `256^n` is subtracted from those of at least half of it. -/
theorem C124_sequence {n : Nat} (hsz : n = 1 ∨ n = 2 ∨ n = 4 ∨ n = 8)
    (hm : createAs E nm o (.seq h info (.prim eh (.integer false) (.bytes n) "bytes")) = .ok m)
    (hm' : createAs E nm' o (.seq h' info' (.prim eh' (.integer true) (.bytes n) "bytes")) = .ok m')
    (hk : info.kind = .sequence) (hk' : info'.kind = .sequence) (ho : eh'.order = eh.order)
    (bs : Bytes) (off depth : Nat) (hd : depth ≤ 10) (c : Ctx) (hc : c.Clean)
    (h1 : info.dataSize = none) (h2 : info.dataSizeExpr = none) (h3 : info.terminator = none)
    (h1' : info'.dataSize = none) (h2' : info'.dataSizeExpr = none) (h3' : info'.terminator = none)
    (l : Nat) (hn : Amounts E info.numElements info.numElementsExpr c.values l)
    (hn' : Amounts E info'.numElements info'.numElementsExpr c.values l) (v : Val) (s : Nat) :
    ((mapStream E m bs off depth c).1 = .ok v ∧ (mapStream E m bs off depth c).2.byteSize = some s) ↔
      ∃ ws vs, v = .tuple vs ∧ All2 (IsSigned n) ws vs ∧
        (mapStream E m' bs off depth c).1 = .ok (.tuple ws) ∧ (mapStream E m' bs off depth c).2.byteSize = some s := by
  refine seq_kin hm hm' hk hk' ho ?_ bs off depth hd c hc h1 h2 h3 h1' h2' h3' l hn hn' v s
  intro g g' hg em em' hem hem' bs p d v s
  obtain ⟨x, hx, -⟩ := intCode_some (u := false) hsz
  obtain ⟨y, hy, -⟩ := intCode_some (u := true) hsz
  constructor
  · rintro ⟨hv, hsz'⟩
    obtain ⟨hle, hb⟩ := prim_inside hx hem hv
    obtain ⟨i, j, h1, h2, h3, -⟩ := C124_signs E g' g hg.symm n hsz em' em hem' hem bs p d {} hle
    rw [hb] at hsz'
    rw [hv] at h2
    cases h2
    refine ⟨.int i, ⟨i, rfl, by rw [h3]⟩, h1, ?_⟩
    rw [(prim_inside hy hem' h1).2, hsz']
  · rintro ⟨w, ⟨i', rfl, rfl⟩, hw, hsz'⟩
    obtain ⟨hle, hb⟩ := prim_inside hy hem' hw
    obtain ⟨i, j, h1, h2, h3, -⟩ := C124_signs E g' g hg.symm n hsz em' em hem' hem bs p d {} hle
    rw [hb] at hsz'
    rw [hw] at h1
    cases h1
    rw [h3] at h2
    refine ⟨h2, ?_⟩
    rw [(prim_inside hx hem h2).2, hsz']

end

/-- Two characters and two integers. -/
example : ∃ m m', createAs exEnv "s" .big (.seq { name := "s" }
      { kind := .sequence, elementDataType := some "c", numElements := some 2 }
      (.prim { name := "c" } .character (.bytes 2) "bytes")) = .ok m ∧
    createAs exEnv "r" .big (.seq { name := "r" }
      { kind := .sequence, elementDataType := some "i", numElements := some 2 }
      (.prim { name := "i" } (.integer false) (.bytes 2) "bytes")) = .ok m' ∧
    (mapStream exEnv m [9, 0, 65, 1, 2] 1 0 {}).1 = .ok (.tuple [.str [65], .str [258]]) ∧
    (mapStream exEnv m' [9, 0, 65, 1, 2] 1 0 {}).1 = .ok (.tuple [.int 65, .int 258]) :=
  ⟨_, _, rfl, rfl, rfl, rfl⟩

/-- Two signed and two unsigned integers. -/
example : ∃ m m', createAs exEnv "s" .big (.seq { name := "s" }
      { kind := .sequence, elementDataType := some "i", numElements := some 2 }
      (.prim { name := "i" } (.integer false) (.bytes 1) "bytes")) = .ok m ∧
    createAs exEnv "r" .big (.seq { name := "r" }
      { kind := .sequence, elementDataType := some "u", numElements := some 2 }
      (.prim { name := "u" } (.integer true) (.bytes 1) "bytes")) = .ok m' ∧
    (mapStream exEnv m [9, 0xff, 65] 1 0 {}).1 = .ok (.tuple [.int (-1), .int 65]) ∧
    (mapStream exEnv m' [9, 0xff, 65] 1 0 {}).1 = .ok (.tuple [.int 255, .int 65]) :=
  ⟨_, _, rfl, rfl, rfl, rfl⟩

end Dtf
