import Verif.Fold
import Verif.Props.Classes
import Verif.Props.Expressions
/-!
Folding what was mapped gives the bytes back.
-/
namespace Dtf

namespace Spec

/-- The floating-point number `f` (its 64 bits) occurs in a value. -/
inductive FloatIn (f : Nat) : Val → Prop
  | here : FloatIn f (.float f)
  | tuple {x vs} : x ∈ vs → FloatIn f x → FloatIn f (.tuple vs)
  | struct {c n x attrs} : (n, x) ∈ attrs → FloatIn f x → FloatIn f (.struct c attrs)

/-- The floating-point numbers in a value that stand for a single precision number
convert back to it. (In Python these are all but some NaN values.) -/
def Kept (E : Env) (v : Val) : Prop :=
  ∀ f, FloatIn f v → ∀ u, u < 256 ^ 4 → E.f32to64 u = f → E.f64to32 f = some u

/-- Integers and floating-point numbers. -/
def Number (k : PrimKind) : Prop :=
  match k with
  | .integer _ | .floatingPoint => True
  | _ => False

/-- The value of the expression depends on nothing but the given members of the
structure `cls`. -/
def ReadsOnly (E : Env) (text cls : String) (names : List String) : Prop :=
  ∀ ns ns' t t', nsGet ns cls = some t → nsGet ns' cls = some t' →
    (∀ n ∈ names, getAttr t n = getAttr t' n) → E.evalExpr text ns = E.evalExpr text ns'

/-- The size expressions of a member read nothing but the given members. -/
def SizedBy (E : Env) (cls : String) (names : List String) (m : DMap) : Prop :=
  match m with
  | .seq _ info _ _ _ => ∀ text, info.dataSizeExpr = some text ∨ info.numElementsExpr = some text →
      ReadsOnly E text cls names
  | _ => True

/-- Decoding loses nothing. -/
def Lossless (E : Env) (enc : String) : Prop :=
  ∀ b cs, E.decode enc b = some cs → E.encode enc cs = some b

/-- The members of a structure have different types only under different names. -/
def TypesDistinct (d : Defn) : Prop :=
  match d with
  | .struct _ ms => DistinctTypes ms
  | _ => True

/-- The maps for which folding undoes mapping. `outer` are the names already taken
by the values of the context and by the enclosing structures. -/
inductive Foldable (E : Env) : List String → DMap → Prop
  | number {outer h k s u} : Number k → Foldable E outer (.prim h k s u)
  | boolean {outer h f t s u} : Foldable E outer (.prim h (.boolean (some f) (some t)) s u)
  | character {outer h s u} : Foldable E outer (.prim h .character s u)
  | uuid {outer h u} : h.order ≠ .native → Foldable E outer (.uuid h (.bytes 16) u)
  | padding {outer h a} : Foldable E outer (.padding h a)
  | stream {outer h info ei bsz e} : info.kind = .stream → (∀ es, ei.byteSize = some es → 0 ≤ es) →
      Foldable E outer (.seq h info ei bsz e)
  | text {outer h info ei bsz e enc} : info.kind = .string enc → Lossless E enc →
      (∀ es, ei.byteSize = some es → 0 ≤ es) → info.terminator = none →
      Foldable E outer (.seq h info ei bsz e)
  | terminatedText {outer h info ei bsz e enc t} : info.kind = .string enc → Lossless E enc →
      info.terminator = some (.bytes t) → t ≠ [] → ei.byteSize = some (t.length : Int) →
      info.hasDataSize = false → info.hasNumElements = false →
      Foldable E outer (.seq h info ei bsz e)
  | numbers {outer h info ei bsz eh k s u} : info.kind = .sequence → seqLinear info ei = true →
      Number k →
      (∀ d n : Int, truthyInt info.dataSize = true → info.dataSize = some d →
        fixedByteSize s u = some n → n ∣ d) →
      Foldable E outer (.seq h info ei bsz (.prim eh k s u))
  | linear {outer h bsz io infos maps} :
      (∀ m ∈ maps, ∀ h k s u, m = .prim h k s u → Number k) →
      Foldable E outer (.struct h bsz true io infos maps)
  | composite {outer h bsz io infos maps} : h.name ∉ outer → h.name ≠ "__builtins__" →
      (∀ m ∈ maps, Foldable E (h.name :: outer) m) →
      (∀ (i : Nat) m, maps[i]? = some m → SizedBy E h.name ((infos.map (·.name)).take i) m) →
      Foldable E outer (.struct h bsz false io infos maps)

end Spec
open Spec

/-! ### Numbers -/

theorem packInt_signed (l : Bool) (n : Nat) (b : Bytes) (hb : b.length = n) :
    packInt l n true (toSigned n (unsignedOf l b)) = some b := by
  have hlt := unsignedOf_lt l b
  have hback := bytesOf_unsignedOf l b
  rw [hb] at hlt hback
  unfold packInt
  rw [if_pos rfl, if_pos (toSigned_bounds _ _ hlt), toSigned_emod _ _ hlt, Int.toNat_natCast, hback]

theorem packInt_unsigned (l : Bool) (n : Nat) (b : Bytes) (hb : b.length = n) :
    packInt l n false (unsignedOf l b : Int) = some b := by
  have hlt := unsignedOf_lt l b
  have hback := bytesOf_unsignedOf l b
  rw [hb] at hlt hback
  have hlt' := Int.ofNat_lt.mpr hlt
  rw [pow256] at hlt'
  unfold packInt
  rw [if_neg (by simp), if_pos ⟨Int.natCast_nonneg _, hlt'⟩, Int.toNat_natCast, hback]

theorem packOne_int (E : Env) (o : Order) (c : Code) (hc : c ≠ .f ∧ c ≠ .d) (i : Int) :
    packOne E o c (.int i) = packInt (E.isLittle o) c.size c.signed i := by
  have h2 : ∀ v, packOne E o c v = v.toIndex.bind (packInt (E.isLittle o) c.size c.signed) := by
    intro v
    cases c <;> first | rfl | simp at hc
  rw [h2, Val.toIndex, Option.bind_some]

theorem unpackOne_int (E : Env) (o : Order) (c : Code) (hc : c ≠ .f ∧ c ≠ .d) (b : Bytes) :
    unpackOne E o c b = .int (if c.signed then toSigned c.size (unsignedOf (E.isLittle o) b)
      else (unsignedOf (E.isLittle o) b : Int)) := by
  cases c <;> first | rfl | simp at hc

theorem packOne_unpackOne (E : Env) (o : Order) (c : Code) (b : Bytes) (hb : b.length = c.size)
    (hf : Kept E (unpackOne E o c b)) : packOne E o c (unpackOne E o c b) = some b := by
  by_cases hc : c ≠ .f ∧ c ≠ .d
  · rw [unpackOne_int E o c hc, packOne_int E o c hc]
    cases c.signed
    · exact packInt_unsigned _ _ b hb
    · exact packInt_signed _ _ b hb
  have hlt := unsignedOf_lt (E.isLittle o) b
  have hback := bytesOf_unsignedOf (E.isLittle o) b
  rw [hb] at hlt hback
  cases c <;> simp at hc <;> simp only [Code.size] at hlt hback <;>
    simp only [unpackOne, packOne, Val.toFloat, Option.bind_some, Option.map_some]
  · rw [hf _ .here _ hlt rfl, Option.map_some, hback]
  · rw [hback]

theorem Number.values {k : PrimKind} (h : Number k) : (∀ v, mapValue k v = some v) ∧
    ∀ v, foldValue k v = some v := by
  cases k with
  | boolean => cases h
  | character => cases h
  | floatingPoint => exact ⟨fun _ => rfl, fun _ => rfl⟩
  | integer u => exact ⟨fun _ => rfl, fun _ => rfl⟩

theorem kept_int (E : Env) (i : Int) : Kept E (.int i) := by
  intro f hf; cases hf

theorem Spec.Kept.tuple {E : Env} {vs : List Val} (h : Kept E (.tuple vs)) : ∀ v ∈ vs, Kept E v :=
  fun _ hv f hf => h f (.tuple hv hf)

theorem Spec.Kept.struct {E : Env} {c : String} {attrs : List (String × Val)} (h : Kept E (.struct c attrs)) {n : String}
    {v : Val} (hv : getAttr (.struct c attrs) n = v) (hne : v ≠ .pyNone) : Kept E v := by
  intro f hf
  refine h f (.struct (n := n) ?_ hf)
  simp only [getAttr, nsGet] at hv
  cases hx : attrs.find? (·.1 == n) with
  | none => simp [hx] at hv; exact absurd hv.symm hne
  | some p =>
    simp only [hx, Option.map_some, Option.getD_some] at hv
    have h1 := List.mem_of_find?_eq_some hx
    have h2 : p.1 = n := by simpa using List.find?_some hx
    rw [← hv, ← h2]
    exact h1

theorem unpackOne_ne (E : Env) (o : Order) (c : Code) (b : Bytes) :
    unpackOne E o c b ≠ .pyNone := by
  cases c <;> simp [unpackOne]

theorem packAll_unpackAll (E : Env) (o : Order) (cs : List Code) (b : Bytes)
    (hb : codesSize cs ≤ b.length) (hf : ∀ v ∈ unpackAll E o cs b, Kept E v) :
    packAll E o cs (unpackAll E o cs b) = some (b.take (codesSize cs)) := by
  induction cs generalizing b with
  | nil => simp [unpackAll, packAll, codesSize]
  | cons c cs ih =>
    simp only [codesSize] at hb
    simp only [unpackAll, packAll, codesSize]
    rw [packOne_unpackOne E o c _ (by rw [List.length_take]; omega) (hf _ List.mem_cons_self),
      Option.bind_some, ih (b.drop c.size) (by rw [List.length_drop]; omega)
        (fun v hv => hf v (List.mem_cons_of_mem _ hv))]
    simp [List.take_add]

/-! ### Single maps -/

/-- Folding `v` with the map `m` gives the `n` bytes at `off`. -/
def FoldsBack (E : Env) (m : DMap) (ns : Namespace) (bs : Bytes) (off : Nat) (v : Val) (n : Nat) : Prop :=
  v ≠ .pyNone ∧ fold E m v ns = .ok (.bytes (window bs off n))

theorem prim_back {E : Env} {h : Hdr} {k : PrimKind} {s : Size} {u : String} {bs : Bytes} {off : Nat}
    {v : Val} {n : Nat} (hp : primParse E h k s u bs off = .ok (v, n)) (hkept : Kept E v)
    (hk : ∀ c b x, primCode k s = some c → b.length = c.size →
      mapValue k (unpackOne E h.order c b) = some x → Kept E x →
      x ≠ .pyNone ∧ ∃ y, foldValue k x = some y ∧ packOne E h.order c y = some b) (ns : Namespace) :
    FoldsBack E (.prim h k s u) ns bs off v n := by
  unfold primParse at hp
  split at hp
  · cases hp
  rename_i sz hsz
  split at hp
  · cases hp
  split at hp
  · cases hp
  rename_i x hx
  cases hp
  unfold primRead at hx
  split at hx
  · cases hx
  rename_i c hc
  split at hx
  · cases hx
  rename_i hlen
  have hn : sz.toNat = c.size := by
    cases s with
    | native => simp [fixedByteSize] at hsz
    | bytes m =>
      have := primCode_size hc
      unfold fixedByteSize at hsz
      simp only at hsz
      split at hsz
      · cases hsz; simp [this]
      · cases hsz
  obtain ⟨h1, y, h2, h3⟩ := hk c _ _ hc (by rw [List.length_take]; omega) hx hkept
  refine ⟨h1, ?_⟩
  rw [prim_fold_eq E h k s u c hc, h2, Option.bind_some, h3, hn]
  rfl

theorem number_back {E : Env} {k : PrimKind} {s : Size} (hn : Number k) (o : Order) (c : Code) (b : Bytes)
    (x : Val) (_ : primCode k s = some c) (hb : b.length = c.size)
    (hx : mapValue k (unpackOne E o c b) = some x) (hkept : Kept E x) :
    x ≠ .pyNone ∧ ∃ y, foldValue k x = some y ∧ packOne E o c y = some b := by
  obtain ⟨h2, h3⟩ := Number.values hn
  rw [h2] at hx
  cases hx
  exact ⟨unpackOne_ne _ _ _ _, _, h3 _, packOne_unpackOne E o c b hb hkept⟩

theorem boolean_back {E : Env} {f t : Int} {s : Size} (o : Order) (c : Code) (b : Bytes)
    (x : Val) (hc : primCode (.boolean (some f) (some t)) s = some c) (hb : b.length = c.size)
    (hx : mapValue (.boolean (some f) (some t)) (unpackOne E o c b) = some x) :
    x ≠ .pyNone ∧ ∃ y, foldValue (.boolean (some f) (some t)) x = some y ∧ packOne E o c y = some b := by
  have hu : c = .B ∨ c = .H ∨ c = .I := by
    unfold primCode at hc
    split at hc <;> simp_all
  have hval : ∃ i, unpackOne E o c b = .int i := by
    rcases hu with rfl | rfl | rfl <;> exact ⟨_, rfl⟩
  obtain ⟨i, hi⟩ := hval
  have hback := packOne_unpackOne E o c b hb (by rw [hi]; exact kept_int E i)
  rw [hi] at hx hback
  simp only [mapValue, pyEq, Val.num?, Lit.num?] at hx
  by_cases hf : i = f
  · subst hf
    simp [Num.eq] at hx
    subst hx
    exact ⟨by simp, _, rfl, hback⟩
  by_cases ht : i = t
  · subst ht
    simp [Num.eq, hf] at hx
    subst hx
    exact ⟨by simp, _, rfl, hback⟩
  · simp [Num.eq, hf, ht] at hx

theorem character_back {E : Env} {s : Size} (o : Order) (c : Code) (b : Bytes)
    (x : Val) (hc : primCode .character s = some c) (hb : b.length = c.size)
    (hx : mapValue .character (unpackOne E o c b) = some x) :
    x ≠ .pyNone ∧ ∃ y, foldValue .character x = some y ∧ packOne E o c y = some b := by
  have hcs : c ≠ .f ∧ c ≠ .d := by
    unfold primCode at hc
    split at hc <;> simp_all <;> subst hc <;> simp
  have hback := packOne_unpackOne E o c b hb (by rw [unpackOne_int E o c hcs]; exact kept_int E _)
  unfold mapValue at hx
  simp only at hx
  split at hx
  · rename_i i hi
    split at hx
    · rename_i hr
      cases hx
      refine ⟨by simp, _, rfl, ?_⟩
      rw [hi] at hback
      rw [show ((i.toNat : Int)) = i by omega]
      exact hback
    · cases hx
  · cases hx

theorem uuidSwap_twice (b : Bytes) (hb : b.length = 16) : uuidSwap (uuidSwap b) = b := by
  match b, hb with
  | [_, _, _, _, _, _, _, _, _, _, _, _, _, _, _, _], _ => rfl

theorem uuid_back {E : Env} {h : Hdr} {u : String} {bs : Bytes} {off : Nat} {v : Val} {n : Nat}
    (ho : h.order ≠ .native) (hp : uuidParse h (.bytes 16) u bs off = .ok (v, n)) (ns : Namespace) :
    FoldsBack E (.uuid h (.bytes 16) u) ns bs off v n := by
  unfold uuidParse at hp
  split at hp
  · cases hp
  rename_i sz hsz
  have hsz16 : sz = 16 := by
    unfold fixedByteSize at hsz; simp only at hsz; split at hsz
    · cases hsz; rfl
    · cases hsz
  subst hsz16
  split at hp
  · cases hp
  simp only at hp
  split at hp
  · rename_i hn; exact absurd hn ho
  all_goals
    rename_i hn
    split at hp
    · rename_i hl
      cases hp
      refine ⟨by simp, ?_⟩
      simp only [fold, uuidFold, hn, uuidAttr]
      first
        | rw [uuidSwap_twice _ hl]; simp [slice, window]
        | simp [slice, window]
    · cases hp

theorem padding_back {E : Env} {h : Hdr} {a : Option Nat} {bs : Bytes} {off : Nat} {v : Val} {n : Nat}
    (hp : paddingParse a bs off = .ok (v, n)) (ns : Namespace) :
    FoldsBack E (.padding h a) ns bs off v n := by
  unfold paddingParse at hp
  split at hp
  · cases hp
  split at hp
  · cases hp
  cases hp
  exact ⟨by simp, by simp [fold, slice, window]⟩

/-! ### Streams and strings -/

theorem streamSize_nonneg {E : Env} {info : SeqInfo} {ei : ElemInfo} {ns : Namespace} {n : Int}
    (hei : ∀ es, ei.byteSize = some es → 0 ≤ es)
    (h : streamSize E info ei ns = .ok (some n)) : 0 ≤ n := by
  have he : ∀ kd x n, evalSize E kd x ns = .ok n → 0 ≤ n := by
    intro kd x n h
    unfold evalSize at h
    split at h
    · split at h
      · cases h
      · split at h
        · cases h
        · exact checkSize_nonneg h
    · cases h
  unfold streamSize at h
  split at h
  · split at h
    · cases h
    · rename_i k hk
      cases h
      unfold evalDataSize at hk
      split at hk
      · exact checkSize_nonneg hk
      · exact he _ _ _ hk
  split at h
  · split at h
    · cases h
    rename_i es hes
    split at h
    · cases h
    · rename_i k hk
      cases h
      have h1 := hei _ hes
      have : 0 ≤ k := by
        unfold evalNumElements at hk
        split at hk
        · exact checkSize_nonneg hk
        · exact he _ _ _ hk
      exact Int.mul_nonneg this h1
  · cases h

theorem scanTerm_ends (bs : Bytes) (es : Nat) (t : Bytes) (fuel cur next n : Nat) (hcn : cur ≤ next)
    (h : scanTerm bs es (.bytes t) fuel cur next = .found n) :
    ∃ c, c ≤ n ∧ c < bs.length ∧ slice bs c n = t := by
  induction fuel generalizing cur next with
  | zero => simp [scanTerm] at h
  | succ fuel ih =>
    rw [scanTerm] at h
    split at h
    · rename_i hlt
      split at h
      · rename_i ht
        cases h
        exact ⟨cur, hcn, hlt, (isTerm_iff _ _).mp ht⟩
      · exact ih next (next + es) (by omega) h
    · split at h <;> cases h

theorem lastN_of_slice (b t : Bytes) (c n : Nat) (hcn : c ≤ n) (hc : c < b.length)
    (h : slice b c n = t) : (if lastN t.length (b.take n) == t then b.take n else b.take n ++ t) = b.take n := by
  by_cases ht : t = []
  · simp [ht]
  have hl : t.length = min n b.length - c := by
    rw [← h]; simp [slice]; omega
  have : lastN t.length (b.take n) = t := by
    unfold lastN
    have hpos : 0 < t.length := List.length_pos_iff.mpr ht
    rw [if_neg (by omega)]
    have : (b.take n).length - t.length = c := by rw [List.length_take]; omega
    rw [this, ← h, slice, List.drop_take]
  simp [this]

theorem stream_back {E : Env} {info : SeqInfo} {ei : ElemInfo} {bs b : Bytes} {off n : Nat}
    {ns ns' : Namespace} (hei : ∀ es, ei.byteSize = some es → 0 ≤ es)
    (hs : streamSize E info ei ns' = streamSize E info ei ns)
    (h : streamParse E info ei bs off ns = .ok (b, n)) :
    b = window bs off n ∧ streamFold E info ei (.bytes b) ns' = .ok (.bytes b) := by
  have hcl : (calcDataSize E info ei { values := ns' }).1 = streamSize E info ei ns' :=
    (calcDataSize_clean E info ei { values := ns' } (Ctx.clean_fresh _)).1
  unfold streamFold
  rw [hcl, hs]
  unfold streamParse at h
  split at h
  · cases h
  · rename_i k hk
    simp only [hk]
    split at h
    · cases h
    rename_i hts
    cases h
    refine ⟨by simp [slice, window], ?_⟩
    have h0 := streamSize_nonneg hei hk
    simp only [Val.len]
    rw [if_neg]
    have hle : off + k.toNat ≤ bs.length ∨ k = 0 := by
      simp [tooSmall] at hts
      omega
    simp only [slice, List.length_take, List.length_drop]
    omega
  · rename_i hk
    rw [hk]
    split at h
    · cases h
    rename_i t ht
    rw [ht]
    split at h
    · cases h
    rename_i es hes
    split at h
    · rename_i k hscan
      cases h
      cases t with
      | bytes t =>
        simp only
        obtain ⟨c, h1, h2, h3⟩ := scanTerm_ends _ _ _ _ _ _ _ (by omega) hscan
        refine ⟨by simp [slice, window], ?_⟩
        have := lastN_of_slice (bs.drop off) t c n h1 h2 h3
        simp only [slice, Nat.add_sub_cancel_left]
        rw [this]
      | _ => exact absurd hscan (scanTerm_lit _ _ _ (by simp) _ _ _ _).1
    all_goals cases h

theorem terminated_back {E : Env} {enc : String} {info : SeqInfo} {ei : ElemInfo} {bs t : Bytes} {off n : Nat}
    {v : Val} {ns ns' : Namespace} (hd : Lossless E enc)
    (ht : info.terminator = some (.bytes t)) (hne : t ≠ []) (hei : ei.byteSize = some (t.length : Int))
    (h1 : info.hasDataSize = false) (h2 : info.hasNumElements = false)
    (h : stringParse E enc info ei bs off ns = .ok (v, n)) :
    v ≠ .pyNone ∧ stringFold E enc info ei v ns' = .ok (.bytes (window bs off n)) := by
  have hpos : 0 < t.length := List.length_pos_iff.mpr hne
  have hsz : ∀ ns, streamSize E info ei ns = .ok none := by intro ns; simp [streamSize, h1, h2]
  unfold stringParse at h
  split at h
  · cases h
  rename_i b k hb
  split at h
  · cases h
  rename_i b' hcut
  split at h
  · cases h
  rename_i cs hdec
  cases h
  refine ⟨by simp, ?_⟩
  unfold stringFold
  simp only [hd _ _ hdec]
  unfold streamFold
  rw [(calcDataSize_clean E info ei { values := ns' } (Ctx.clean_fresh _)).1]
  simp only [hsz, ht]
  unfold streamParse at hb
  simp only [hsz, ht, hei, Int.toNat_natCast] at hb
  unfold cutString at hcut
  simp only [ht] at hcut
  rcases scanTerm_spec (bs.drop off) t hne (bs.length - off + 2) 0 (by simp) with
    ⟨j, hj, hs⟩ | ⟨-, j, hs⟩
  · simp only [Nat.zero_add] at hs
    rw [hs] at hb
    simp only [Except.ok.injEq, Prod.mk.injEq] at hb
    obtain ⟨rfl, rfl⟩ := hb
    have hbw : slice bs off (off + (j + 1) * t.length) = (bs.drop off).take ((j + 1) * t.length) := by
      simp [slice]
    rw [hbw] at hcut
    generalize hB : bs.drop off = B at *
    have hfull : (j + 1) * t.length ≤ B.length := by
      have := window_full hne hj.1
      simp only [Nat.add_mul, Nat.one_mul]; omega
    -- the first terminator of the cut stream is the same
    have hat : ∀ i, i ≤ j → (TerminatorAt (B.take ((j + 1) * t.length)) 0 t i ↔ TerminatorAt B 0 t i) := by
      intro i hi
      have : i * t.length + t.length ≤ (j + 1) * t.length := by
        have := Nat.mul_le_mul_right t.length (Nat.succ_le_succ hi)
        simp only [Nat.succ_eq_add_one, Nat.add_mul, Nat.one_mul] at this ⊢; omega
      unfold TerminatorAt window
      rw [List.drop_take, List.take_take, Nat.min_eq_left (by omega)]
    rcases cutOffset_spec (B.take ((j + 1) * t.length)) t hne (B.take ((j + 1) * t.length)).length 0
      (by omega) with ⟨i, hi, hc⟩ | ⟨hno, -⟩
    · have hij : i = j := by
        have hi0 := window_full hne hi.1
        rw [List.length_take] at hi0
        have hle : i ≤ j := by
          have h3 : i * t.length + t.length ≤ (j + 1) * t.length := by omega
          have h4 : (i + 1) * t.length ≤ (j + 1) * t.length := by simp only [Nat.add_mul, Nat.one_mul] at h3 ⊢; omega
          have := Nat.le_of_mul_le_mul_right h4 hpos
          omega
        rcases Nat.lt_or_ge i j with hlt | hge
        · exact absurd ((hat i hle).mp hi.1) (hj.2 i hlt)
        · omega
      subst hij
      rw [hc] at hcut
      simp only [Nat.zero_add, Except.ok.injEq] at hcut
      subst hcut
      have hmin : (B.take ((i + 1) * t.length)).take (i * t.length) = B.take (i * t.length) := by
        rw [List.take_take, Nat.min_eq_left]
        exact Nat.mul_le_mul_right _ (by omega)
      rw [hmin]
      have hnot : (lastN t.length (B.take (i * t.length)) == t) = false := by
        apply Bool.eq_false_iff.mpr
        simp only [ne_eq, beq_iff_eq]
        intro heq
        have hlen : (B.take (i * t.length)).length = i * t.length := by
          rw [List.length_take]
          simp only [Nat.add_mul, Nat.one_mul] at hfull
          omega
        cases i with
        | zero =>
          simp [lastN, show t.length ≠ 0 by omega] at heq
          exact hne (by simpa using heq)
        | succ i =>
          refine hj.2 i (by omega) ?_
          unfold lastN at heq
          rw [if_neg (by omega), hlen] at heq
          have hsub : (i + 1) * t.length - t.length = i * t.length := by
            simp only [Nat.add_mul, Nat.one_mul, Nat.add_sub_cancel]
          rw [hsub, List.drop_take] at heq
          have hsub' : (i + 1) * t.length - i * t.length = t.length := by
            simp only [Nat.add_mul, Nat.one_mul, Nat.add_sub_cancel_left]
          rw [hsub'] at heq
          unfold TerminatorAt window
          rw [Nat.zero_add]
          exact heq
      rw [hnot]
      simp only [Bool.false_eq_true, if_false]
      have htw := hj.1
      unfold TerminatorAt window at htw
      simp only [Nat.zero_add] at htw
      congr 2
      unfold window
      rw [hB, Nat.add_mul, Nat.one_mul, List.take_add, htw]
    · exact absurd ((hat j (Nat.le_refl _)).mpr hj.1) (hno j)
  · simp only [Nat.zero_add] at hs
    rw [hs] at hb
    cases hb

/-! ### What creation guarantees -/

/-- Facts about a created map that follow from how it was created. -/
def NodeOk (m : DMap) : Prop :=
  match m with
  | .seq h info ei bsz e => info.kind = .sequence → seqLinear info ei = true →
      ∀ op, (DMap.seq h info ei bsz e).op = some op → ∃ ec k sz u c, ∃ n : Nat,
        e = .prim ec k (.bytes sz) u ∧ primCode k (.bytes sz) = some c ∧
        op.codes = List.replicate n c ∧
        ∀ b, bsz = some b → (∀ d s : Int, truthyInt info.dataSize = true → info.dataSize = some d →
          fixedByteSize (.bytes sz) u = some s → s ∣ d) → b = n * sz
  | .struct h bsz linear io infos maps => (infos.map (·.name)).Nodup ∧ infos.length = maps.length ∧
      (linear = true → ∀ op n, (DMap.struct h bsz linear io infos maps).op = some op → bsz = some n →
        All2 IsPrim maps op.codes ∧ (codesSize op.codes : Int) = n)
  | _ => True

theorem nodeOk_of_create {E : Env} (d : Defn) (nm : String) (o : Order) (m : DMap)
    (hm : createAs E nm o d = .ok m) (hd : Spec.TypesDistinct d) : NodeOk m := by
  cases d with
  | seq h info e =>
    have hm0 := hm
    obtain ⟨n', eo, em, -, -, rfl, -⟩ := createAs_seq hm
    intro hk hlin op hop
    have hc : e.isComposite = false := by
      simp only [seqLinear, Bool.not_eq_true', Bool.or_eq_false_iff] at hlin
      exact hlin.1.1.1
    obtain ⟨h', k, sz, u, c, n, ec, he, heq, ho, hpc, hcs, hcodes, hn, h1, h2⟩ := seq_op hk hm0 hc op hop
    simp only [DMap.seq.injEq] at heq
    refine ⟨ec, k, sz, u, c, n, heq.2.2.2.2, hpc, hcodes, ?_⟩
    intro b hb hdiv
    simp only [Defn.byteSize] at hb
    subst he
    by_cases ht : truthyInt info.dataSize = true
    · rw [if_pos ht] at hb
      obtain ⟨hu, hf⟩ := h1 ht
      rw [hb] at hf
      simp only [Option.map_some, Option.some.injEq] at hf
      have := hdiv b sz ht hb (by simp [fixedByteSize, hu])
      have hpos : (sz : Int) ≠ 0 := by
        have : 0 < sz := by rw [← hcs]; cases c <;> simp [Code.size]
        omega
      obtain ⟨q, rfl⟩ := this
      rw [Int.mul_fdiv_cancel_left _ hpos] at hf
      rw [hf, Int.mul_comm]
    · have ht : truthyInt info.dataSize = false := by simpa using ht
      rw [if_neg (by simp [ht])] at hb
      rw [h2 ht] at hb
      have : truthyInt (some (n : Int)) = true := by simp [truthyInt]; omega
      rw [if_pos this] at hb
      simp only [Defn.byteSize] at hb
      split at hb
      · rename_i s hs
        split at hb
        · cases hb
        · unfold fixedByteSize at hs
          simp only at hs
          split at hs
          · cases hs
            simp only [Option.map_some, Option.some.injEq] at hb
            rw [← hb, Int.mul_comm]
          · cases hs
      · cases hb
  | struct h ms =>
    have hm0 := hm
    obtain ⟨io, infos, maps, l, hcls, hmem, hlin, rfl, -⟩ := createAs_struct hm
    have hall := createMembers_all E nm o (fun _ => True) ms (fun _ _ _ _ _ _ => trivial) [] (by simp) _ _ hmem
    refine ⟨?_, by rw [hall.1, List.length_map, hall.2.1], ?_⟩
    · rw [createMembers_names hmem]
      exact (createClass_nodup hcls).1
    · rintro rfl op n hop hb
      have h1 := (struct_op hm0 op hop).2
      refine ⟨h1, ?_⟩
      rw [hb] at hm0 hop
      exact struct_op_size hd hm0 op hop
  | prim h k s u =>
    simp only [createAs] at hm
    split at hm
    · cases hm
    · cases hm; trivial
  | group h base ident dflt ms =>
    obtain ⟨_, _, _, _, _, _, _, _, rfl⟩ := createAs_group hm
    trivial
  | _ =>
    simp [createAs] at hm
    try (subst hm; trivial)

theorem getAttr_struct (cls : String) (attrs : List (String × Val)) (n : String) :
    getAttr (.struct cls attrs) n = (nsGet attrs n).getD .pyNone := rfl

/-! ### Numbers in one operation -/

theorem mapValues_number {k : PrimKind} (hk : ∀ v, mapValue k v = some v) (vs : List Val) :
    mapValues k vs = .ok vs := by
  induction vs with
  | nil => rfl
  | cons v vs ih => simp [mapValues, hk, ih]

theorem linearSeq_back {E : Env} {h : Hdr} {info : SeqInfo} {ei : ElemInfo} {bsz : Option Int} {eh : Hdr}
    {k : PrimKind} {s : Size} {u : String} {bs : Bytes} {off n : Nat} {v : Val}
    (hk : info.kind = .sequence) (hl : seqLinear info ei = true) (hnum : Number k)
    (hdiv : ∀ d n : Int, truthyInt info.dataSize = true → info.dataSize = some d →
        fixedByteSize s u = some n → n ∣ d)
    (hok : NodeOk (.seq h info ei bsz (.prim eh k s u)))
    (hp : linearSeqParse E bsz (DMap.seq h info ei bsz (.prim eh k s u)).op (.prim eh k s u) bs off =
      .ok (v, n)) (hkept : Kept E v) (ns : Namespace) :
    FoldsBack E (.seq h info ei bsz (.prim eh k s u)) ns bs off v n := by
  unfold linearSeqParse at hp
  split at hp
  · cases hp
  rename_i sz
  split at hp
  · cases hp
  rename_i hts
  split at hp
  · cases hp
  rename_i vs hvs
  cases hop : (DMap.seq h info ei (some sz) (.prim eh k s u)).op with
  | none => rw [hop] at hvs; simp at hvs
  | some op =>
    rw [hop] at hvs
    simp only [Option.bind_some] at hvs
    obtain ⟨ec, k', sz', u', c, cnt, he, hpc, hcodes, hsize⟩ := hok hk hl op hop
    cases he
    have hsz := hsize sz rfl hdiv
    obtain ⟨c2, c3⟩ := Number.values hnum
    simp only [mapValues_number c2] at hp
    cases hp
    refine ⟨by simp, ?_⟩
    simp only [fold, hk, hl, if_true, hop, linearSeqFold, Val.iter]
    unfold Op.readFrom at hvs
    split at hvs
    · cases hvs
    rename_i hlen
    cases hvs
    have hcs : codesSize op.codes = sz.toNat := by
      rw [hcodes, codesSize_replicate, primCode_size hpc, hsz]
      rw [← Int.natCast_mul, Int.toNat_natCast]
    rw [Op.writeTo, packAll_unpackAll E op.order op.codes (bs.drop off) (by omega)
      hkept.tuple, hcs]
    rfl

theorem linearValues_numbers {infos : List MemInfo} {maps : List DMap} {cs : List Code}
    {vs xs : List Val} (hp : All2 IsPrim maps cs)
    (hn : ∀ m ∈ maps, ∀ h k s u, m = .prim h k s u → Number k)
    (h : linearValues infos maps vs = some xs) : xs = vs ∧ vs.length ≤ infos.length := by
  induction vs generalizing infos maps cs xs with
  | nil =>
    simp [linearValues] at h
    exact ⟨h, by simp⟩
  | cons v vs ih =>
    cases hp with
    | nil => cases infos <;> simp [linearValues] at h
    | @cons m c maps cs hm hp =>
      cases infos with
      | nil => simp [linearValues] at h
      | cons i infos =>
        obtain ⟨h', k, s, u, rfl, hpc⟩ := hm
        obtain ⟨c2, c3⟩ := Number.values (hn _ List.mem_cons_self _ _ _ _ rfl)
        simp only [linearValues, c2] at h
        split at h
        · rw [Option.map_eq_some_iff] at h
          obtain ⟨ys, hys, rfl⟩ := h
          obtain ⟨rfl, h2⟩ := ih hp (fun m hm => hn m (List.mem_cons_of_mem _ hm)) hys
          exact ⟨rfl, by simp; omega⟩
        · cases h

theorem presentValues_fill (cls : String) (pre names : List String) (vpre vs : List Val)
    (hl : vs.length = names.length) (hlp : vpre.length = pre.length) (hnd : (pre ++ names).Nodup)
    (hne : ∀ v ∈ vs, v ≠ .pyNone) :
    presentValues (.struct cls (fill (pre ++ names) (vpre ++ vs))) names = vs := by
  induction names generalizing pre vpre vs with
  | nil => cases vs <;> simp at hl; rfl
  | cons n names ih =>
    cases vs with
    | nil => simp at hl
    | cons v vs =>
      have hg : getAttr (.struct cls (fill (pre ++ n :: names) (vpre ++ v :: vs))) n = v := by
        rw [getAttr_struct, fill_get pre n names vpre v vs hlp hnd]; rfl
      rw [presentValues_cons (by rw [hg]; exact hne v List.mem_cons_self), hg]
      have := ih (pre ++ [n]) (vpre ++ [v]) vs (by simpa using hl) (by simp [hlp]) (by simpa using hnd)
        (fun v hv => hne v (List.mem_cons_of_mem _ hv))
      simp only [List.append_assoc, List.cons_append, List.nil_append] at this
      rw [this]

theorem unpackAll_ne (E : Env) (o : Order) (cs : List Code) (b : Bytes) :
    ∀ v ∈ unpackAll E o cs b, v ≠ .pyNone := by
  induction cs generalizing b with
  | nil => simp [unpackAll]
  | cons c cs ih =>
    intro v hv
    simp only [unpackAll, List.mem_cons] at hv
    rcases hv with rfl | hv
    · exact unpackOne_ne _ _ _ _
    · exact ih _ _ hv

theorem presentValues_mem {t v : Val} {names : List String} (h : v ∈ presentValues t names) :
    ∃ n ∈ names, getAttr t n = v ∧ v ≠ .pyNone := by
  induction names with
  | nil => simp [presentValues] at h
  | cons n names ih =>
    rw [presentValues] at h
    split at h
    · obtain ⟨k, hk, h⟩ := ih h; exact ⟨k, List.mem_cons_of_mem _ hk, h⟩
    · rename_i hne
      rw [List.mem_cons] at h
      rcases h with rfl | h
      · exact ⟨n, List.mem_cons_self, rfl, fun h => hne h⟩
      · obtain ⟨k, hk, h⟩ := ih h; exact ⟨k, List.mem_cons_of_mem _ hk, h⟩

theorem linearStruct_back {E : Env} {h : Hdr} {bsz : Option Int} {io : Bool} {infos : List MemInfo}
    {maps : List DMap} {bs : Bytes} {off n : Nat} {v : Val}
    (hn : ∀ m ∈ maps, ∀ h k s u, m = .prim h k s u → Number k)
    (hok : NodeOk (.struct h bsz true io infos maps))
    (hp : linearStructParse E h bsz (DMap.struct h bsz true io infos maps).op io infos maps bs off =
      .ok (v, n)) (hkept : Kept E v) (ns : Namespace) :
    FoldsBack E (.struct h bsz true io infos maps) ns bs off v n := by
  obtain ⟨hnd, hlen, hop'⟩ := hok
  unfold linearStructParse at hp
  split at hp
  · cases hp
  rename_i sz
  split at hp
  · cases hp
  split at hp
  · cases hp
  rename_i vs hvs
  split at hp
  · cases hp
  rename_i xs hxs
  split at hp
  · cases hp
  rename_i attrs hattrs
  split at hp
  · cases hp
    refine ⟨by simp, ?_⟩
    cases hop : (DMap.struct h (some sz) true io infos maps).op with
    | none => rw [hop] at hvs; simp at hvs
    | some op =>
      rw [hop] at hvs
      simp only [Option.bind_some] at hvs
      obtain ⟨hprims, hsize⟩ := hop' rfl op sz hop rfl
      unfold Op.readFrom at hvs
      split at hvs
      · cases hvs
      rename_i hbl
      cases hvs
      obtain ⟨rfl, h1⟩ := linearValues_numbers hprims hn hxs
      rw [unpackAll_length] at h1
      have hfull : (unpackAll E op.order op.codes (bs.drop off)).length = (infos.map (·.name)).length := by
        rw [unpackAll_length, List.length_map, hlen, hprims.length_eq]
      rw [newInstanceArgs_fill _ _ (by omega)] at hattrs
      cases hattrs
      simp only [fold, if_true, hop, linearStructFold]
      have := presentValues_fill h.name [] (infos.map (·.name)) []
        (unpackAll E op.order op.codes (bs.drop off)) hfull rfl (by simpa using hnd) (unpackAll_ne _ _ _ _)
      simp only [List.nil_append] at this
      have h2 : ∀ v ∈ unpackAll E op.order op.codes (bs.drop off), Kept E v := by
        intro v hv
        rw [← this] at hv
        obtain ⟨n, -, hn, hne⟩ := presentValues_mem hv
        exact hkept.struct hn hne
      rw [this, Op.writeTo, packAll_unpackAll E op.order op.codes (bs.drop off) (by omega) h2]
      have : codesSize op.codes = sz.toNat := by omega
      rw [this]
      rfl
  · cases hp
/-! ### Members one by one -/

theorem fill_get_pre (cls : String) (pre post : List String) (vpre rest : List Val)
    (hl : vpre.length = pre.length) (hnd : (pre ++ post).Nodup) (n : String) (hn : n ∈ pre) :
    getAttr (.struct cls (fill (pre ++ post) vpre)) n =
      getAttr (.struct cls (fill (pre ++ post) (vpre ++ rest))) n := by
  obtain ⟨p1, p2, rfl⟩ := List.append_of_mem hn
  obtain ⟨w1, x, w2, rfl, hw⟩ : ∃ w1 x w2, vpre = w1 ++ x :: w2 ∧ w1.length = p1.length := by
    simp only [List.length_append, List.length_cons] at hl
    refine ⟨vpre.take p1.length, vpre[p1.length], vpre.drop (p1.length + 1), ?_, ?_⟩
    · rw [List.getElem_cons_drop, List.take_append_drop]
    · rw [List.length_take]; omega
  simp only [List.append_assoc, List.cons_append] at hnd ⊢
  rw [getAttr_struct, getAttr_struct, fill_get _ _ _ _ _ _ hw hnd, fill_get _ _ _ _ _ _ hw hnd]

/-- The size of a stream does not change with the values. -/
def SizeAgree (E : Env) (m : DMap) (ns ns' : Namespace) : Prop :=
  match m with
  | .seq _ info ei _ _ => streamSize E info ei ns' = streamSize E info ei ns
  | _ => True

theorem sizeAgree_of {E : Env} {m : DMap} {cls : String} {names : List String} {ns ns' : Namespace}
    {t t' : Val} (hm : SizedBy E cls names m) (hb : cls ≠ "__builtins__")
    (h1 : nsGet ns cls = some t) (h2 : nsGet ns' cls = some t')
    (h3 : ∀ n ∈ names, getAttr t n = getAttr t' n) : SizeAgree E m ns ns' := by
  cases m with
  | seq h info ei bsz e =>
    simp only [SizeAgree]
    simp only [SizedBy] at hm
    have hev : ∀ x, (x = info.dataSizeExpr ∨ x = info.numElementsExpr) → evalSize E info.kind x ns' = evalSize E info.kind x ns := by
      intro x hx
      unfold evalSize
      cases x with
      | none => rfl
      | some s =>
        simp only
        have : E.evalExpr s (withBuiltins ns') = E.evalExpr s (withBuiltins ns) := by
          refine (hm s (by rcases hx with hx | hx <;> simp [← hx]) _ _ t t' ?_ ?_ h3).symm
          · rw [withBuiltins, nsGet_nsSet_ne hb]; exact h1
          · rw [withBuiltins, nsGet_nsSet_ne hb]; exact h2
        rw [this]
    have hd : evalDataSize E info ns' = evalDataSize E info ns := by
      simp only [evalDataSize, hev _ (.inl rfl)]
    have hn : evalNumElements E info ns' = evalNumElements E info ns := by
      simp only [evalNumElements, hev _ (.inr rfl)]
    simp only [streamSize, hd, hn]
  | _ => trivial

theorem structNs_keys {cls : String} {attrs : List (String × Val)} {ns : Namespace} {outer : List String}
    (h : ∀ k, nsGet ns k ≠ none → k ∈ outer) :
    ∀ k, nsGet (structNs cls attrs ns) k ≠ none → k ∈ cls :: outer := by
  intro k hk
  rw [List.mem_cons]
  by_cases hn : nsGet ns k = none
  · left
    unfold structNs at hk
    rw [nsGet_nsUpdate_ne hn] at hk
    by_cases hc : k = cls
    · exact hc
    · have : (cls == k) = false := by simpa using fun h => hc h.symm
      simp [nsGet, this] at hk
  · exact .inr (h k hn)

theorem foldMembers_none {E : Env} {v : Val} {info : MemInfo} {infos : List MemInfo} {m : DMap}
    {maps : List DMap} (h : getAttr v info.name = .pyNone) :
    foldMembers E v (info :: infos) (m :: maps) = foldMembers E v infos maps := by
  rw [foldMembers.eq_def]
  simp only
  split
  · rfl
  · rw [h]

theorem foldMembers_some {E : Env} {v : Val} {info : MemInfo} {infos : List MemInfo} {m : DMap}
    {maps : List DMap} {b : Bytes} {parts : List Val} (hm : m ≠ .missing) (h : getAttr v info.name ≠ .pyNone)
    (hf : fold E m (getAttr v info.name) [(v.typeName, v)] = .ok (.bytes b))
    (hr : foldMembers E v infos maps = .ok (some parts)) :
    foldMembers E v (info :: infos) (m :: maps) = .ok (some (.bytes b :: parts)) := by
  rw [foldMembers.eq_def]
  simp only [hf, hr]

theorem window_join (bs : Bytes) (off a b : Nat) :
    window bs off a ++ window bs (off + a) b = window bs off (a + b) := by
  simp only [window]
  rw [List.take_add, List.drop_drop]

theorem members_back {E : Env} {cls : String} {outer : List String} {ns : Namespace} {bs : Bytes} {depth : Nat}
    (hcls : cls ∉ outer) (hb : cls ≠ "__builtins__") (hns : ∀ k, nsGet ns k ≠ none → k ∈ outer)
    (maps : List DMap)
    (hm : ∀ m ∈ maps, ∀ off ns ns' v n, (∀ k, nsGet ns k ≠ none → k ∈ cls :: outer) →
      SizeAgree E m ns ns' → parse E m bs off (depth + 1) ns = .ok (v, n) → Kept E v →
      FoldsBack E m ns' bs off v n)
    (infos : List MemInfo) (hl : infos.length = maps.length) (pre : List String) (vpre : List Val)
    (hlp : vpre.length = pre.length) (hnd : (pre ++ infos.map (·.name)).Nodup)
    (hsb : ∀ (i : Nat) m, maps[i]? = some m →
      SizedBy E cls ((pre ++ infos.map (·.name)).take (pre.length + i)) m)
    (off used k : Nat) (attrs : List (String × Val))
    (hp : parseMembers E cls bs depth ns infos maps off used (fill (pre ++ infos.map (·.name)) vpre) =
      .ok (attrs, k)) (hkept : Kept E (.struct cls attrs)) :
    ∃ rest j parts, attrs = fill (pre ++ infos.map (·.name)) (vpre ++ rest) ∧ k = used + j ∧
      foldMembers E (.struct cls attrs) infos maps = .ok (some parts) ∧
      joinBytes parts = some (window bs off j) := by
  induction maps generalizing infos pre vpre off used with
  | nil =>
    cases infos with
    | cons => simp at hl
    | nil =>
      rw [parseMembers] at hp
      cases hp
      exact ⟨[], 0, [], by simp, by simp, by rw [foldMembers], by simp [joinBytes, window]⟩
  | cons m maps ih =>
    cases infos with
    | nil => simp at hl
    | cons info infos =>
      have hstep : ∀ x off used, parseMembers E cls bs depth ns infos maps off used
          (fill (pre ++ info.name :: infos.map (·.name)) (vpre ++ [x])) = .ok (attrs, k) →
          ∃ rest j parts, attrs = fill (pre ++ (info :: infos).map (·.name)) (vpre ++ x :: rest) ∧
            k = used + j ∧ foldMembers E (.struct cls attrs) infos maps = .ok (some parts) ∧
            joinBytes parts = some (window bs off j) := by
        intro x off used h
        have := ih (fun m hm' => hm m (List.mem_cons_of_mem _ hm')) infos (by simpa using hl)
          (pre ++ [info.name]) (vpre ++ [x]) (by simp [hlp]) (by simpa using hnd)
          (by
            intro i m' hm'
            have := hsb (i + 1) m' (by simpa using hm')
            simpa [Nat.add_assoc, Nat.add_comm 1 i] using this)
          off used (by simpa using h)
        simpa using this
      rw [parseMembers] at hp
      have hgetx : ∀ x rest, getAttr (.struct cls (fill (pre ++ (info :: infos).map (·.name))
          (vpre ++ x :: rest))) info.name = x := by
        intro x rest
        rw [getAttr_struct, List.map_cons, fill_get _ _ _ _ _ _ hlp (by simpa using hnd)]
        rfl
      split at hp
      · cases hp
      · -- the condition is false: the member stays `None`
        have hfn := fill_none (pre ++ info.name :: infos.map (·.name)) vpre (by simp; omega)
        rw [List.map_cons, ← hfn] at hp
        obtain ⟨rest, j, parts, ha, hk, hf, hj⟩ := hstep .pyNone _ _ hp
        refine ⟨.pyNone :: rest, j, parts, ha, hk, ?_, hj⟩
        rw [foldMembers_none (by rw [ha]; exact hgetx _ _)]
        exact hf
      · split at hp
        · cases hp
        rename_i v n hv
        split at hp
        · cases hp
        rw [List.map_cons, fill_set pre info.name (infos.map (·.name)) vpre hlp (by simpa using hnd)] at hp
        obtain ⟨rest, j, parts, ha, hk, hf, hj⟩ := hstep v _ _ hp
        refine ⟨v :: rest, n + j, .bytes (window bs off n) :: parts, ha, by omega, ?_, ?_⟩
        · have hsa : SizeAgree E m (structNs cls (fill (pre ++ (info :: infos).map (·.name)) vpre) ns)
              [(cls, .struct cls attrs)] := by
            have hsm := hsb 0 m rfl
            rw [Nat.add_zero, List.take_left] at hsm
            refine sizeAgree_of hsm hb (t := .struct cls (fill (pre ++ (info :: infos).map (·.name)) vpre))
              (t' := .struct cls attrs) ?_ (by simp [nsGet]) ?_
            · unfold structNs
              rw [nsGet_nsUpdate_ne]
              · simp [nsGet]
              · cases hg : nsGet ns cls with
                | none => rfl
                | some x => exact absurd (hns cls (by simp [hg])) hcls
            · intro a ha'
              rw [ha]
              exact fill_get_pre cls pre _ vpre _ hlp hnd a ha'
          have hgv := hgetx v rest
          rw [← ha] at hgv
          have hkv : Kept E v := by
            by_cases hvn : v = .pyNone
            · subst hvn; intro f hf; cases hf
            · exact hkept.struct hgv hvn
          have hback := hm m List.mem_cons_self off _ [(cls, .struct cls attrs)] v n
            (structNs_keys hns) hsa hv hkv
          refine foldMembers_some ?_ (by rw [hgv]; exact hback.1) (by rw [hgv]; exact hback.2) hf
          rintro rfl
          rw [parse] at hv
          cases hv
        · rw [joinBytes_cons]
          exact ⟨_, _, rfl, hj, (window_join ..).symm⟩

/-- Folding what a foldable map read gives the bytes back. -/
theorem fold_back {E : Env} {outer : List String} {m : DMap} (hf : Foldable E outer m) (hok : m.Every NodeOk)
    (bs : Bytes) (off depth : Nat) (ns ns' : Namespace) (v : Val) (n : Nat)
    (hns : ∀ k, nsGet ns k ≠ none → k ∈ outer) (hsz : SizeAgree E m ns ns')
    (hp : parse E m bs off depth ns = .ok (v, n)) (hkept : Kept E v) : FoldsBack E m ns' bs off v n := by
  induction hf generalizing off depth ns ns' v n with
  | number hk =>
    rw [parse] at hp
    exact prim_back hp hkept (fun c b x h1 h2 h3 h4 => number_back hk _ c b x h1 h2 h3 h4) ns'
  | boolean =>
    rw [parse] at hp
    exact prim_back hp hkept (fun c b x h1 h2 h3 _ => boolean_back _ c b x h1 h2 h3) ns'
  | character =>
    rw [parse] at hp
    exact prim_back hp hkept (fun c b x h1 h2 h3 _ => character_back _ c b x h1 h2 h3) ns'
  | uuid ho => rw [parse] at hp; exact uuid_back ho hp ns'
  | padding => rw [parse] at hp; exact padding_back hp ns'
  | stream hk hei =>
    rw [parse] at hp
    simp only [hk] at hp
    split at hp
    · cases hp
    rename_i b k hb
    cases hp
    obtain ⟨rfl, h2⟩ := stream_back hei hsz hb
    exact ⟨by simp, by rw [fold]; simp only [hk]; exact h2⟩
  | text hk hd hei ht =>
    rw [parse] at hp
    simp only [hk] at hp
    unfold stringParse at hp
    split at hp
    · cases hp
    rename_i b k hb
    obtain ⟨rfl, h2⟩ := stream_back hei hsz hb
    simp only [cutString, ht] at hp
    split at hp
    · cases hp
    rename_i cs hdec
    cases hp
    refine ⟨by simp, ?_⟩
    rw [fold]
    simp only [hk, stringFold, hd _ _ hdec]
    exact h2
  | terminatedText hk hd ht hne hei h1 h2 =>
    rw [parse] at hp
    simp only [hk] at hp
    have := terminated_back (ns' := ns') hd ht hne hei h1 h2 hp
    exact ⟨this.1, by rw [fold]; simp only [hk]; exact this.2⟩
  | numbers hk hl hnum hdiv =>
    rw [parse] at hp
    simp only [hk, hl, if_true] at hp
    exact linearSeq_back hk hl hnum hdiv hok.self hp hkept ns'
  | linear hn =>
    rw [parse] at hp
    simp only [if_true] at hp
    exact linearStruct_back hn hok.self hp hkept ns'
  | @composite outer h bsz io infos maps hcls hb _ hsb ih =>
    obtain ⟨hnd, hlen, -⟩ := hok.self
    simp only [DMap.Every, everyMap_iff] at hok
    rw [parse] at hp
    simp only [Bool.false_eq_true, if_false] at hp
    split at hp
    · cases hp
    split at hp
    · cases hp
    split at hp
    · cases hp
    split at hp
    · cases hp
    rename_i attrs k hpm
    cases hp
    rw [← fill_nil] at hpm
    obtain ⟨rest, j, parts, ha, hk, hfm, hj⟩ := members_back hcls hb hns maps
      (fun m hm off ns ns' v n hns hsz hp hk => ih m hm (hok.2 m hm) off _ ns ns' v n hns hsz hp hk)
      infos hlen [] [] rfl (by simpa using hnd) (by simpa using hsb) off 0 n attrs (by simpa using hpm) hkept
    refine ⟨by simp, ?_⟩
    rw [fold]
    simp only [Bool.false_eq_true, if_false, hfm, hj]
    rw [hk, Nat.zero_add]

end Dtf
