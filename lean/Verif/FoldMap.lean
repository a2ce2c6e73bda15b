import Verif.Props.FoldStreams
/-!
Mapping what was folded gives the value back.
-/
namespace Dtf

namespace Spec

/-- A double that a single precision number stands for, and that converts back to it. -/
def Single (E : Env) (f : Nat) : Prop := ∃ u, u < 256 ^ 4 ∧ f = E.f32to64 u ∧ E.f64to32 f = some u

/-- The values of a primitive type, whatever its range: numbers for number types, `True`
and `False` for a boolean type that tells them apart, a character for a character type. -/
def ValueOf (E : Env) (k : PrimKind) (s : Size) (v : Val) : Prop :=
  match k with
  | .integer _ => ∃ i, v = .int i
  | .floatingPoint => ∃ f, v = .float f ∧ f < 256 ^ 8 ∧ (s = .bytes 4 → Single E f)
  | .boolean f t => f ≠ t ∧ ∃ b, v = .bool b
  | .character => ∃ c, c ≤ 0x10FFFF ∧ v = .str [c]

/-- The values of a primitive type that is read together with others. -/
def ValueTogether (E : Env) (k : PrimKind) (s : Size) (v : Val) : Prop :=
  match k with
  | .boolean f t => f = some 0 ∧ (t = none ∨ t = some 1) ∧ ∃ b, v = .bool b
  | .character => False
  | k => ValueOf E k s v

/-- Whether a member is present, given the names its condition can use. -/
inductive Given (E : Env) (ns : Namespace) (i : MemInfo) : Bool → Prop
  | always (h : i.condition = none ∨ i.condition = some "") : Given E ns i true
  | cond {c : String} {b : Bool} (h : i.condition = some c) (hc : c ≠ "")
      (he : E.evalExpr c (withBuiltins ns) = some (.bool b)) : Given E ns i b

/-- The value is one of the supported values, if any are declared. -/
def Allowed (i : MemInfo) (v : Val) : Prop :=
  ∀ vs, i.values = some vs → vs ≠ [] → ∃ x ∈ vs, pyEq v x = true

/-- The values of members that are read together. -/
inductive FitsTogether (E : Env) : List MemInfo → List DMap → List Val → Prop
  | nil : FitsTogether E [] [] []
  | cons {i is h k s u ms v vs} : ValueTogether E k s v → Allowed i v → FitsTogether E is ms vs →
      FitsTogether E (i :: is) (.prim h k s u :: ms) (v :: vs)

mutual
/-- `Fits E m off depth ns v n`: the value `v` agrees with the type of the map `m`, taking
`n` bytes at offset `off` when expressions can use the names `ns`. -/
def Fits (E : Env) (m : DMap) (off depth : Nat) (ns : Namespace) (v : Val) (n : Nat) : Prop :=
  match m with
  | .prim _ k s u => fixedByteSize s u = some (n : Int) ∧ ValueOf E k s v
  | .uuid h s u => fixedByteSize s u = some 16 ∧ n = 16 ∧ h.order ≠ .native ∧
      ∃ b, b.length = 16 ∧ v = .uuid b
  | .padding _ a => ∃ k p, a = some k ∧ n < k ∧ k ∣ off + n ∧ v = .bytes p ∧ p.length = n
  | .seq _ info ei bsz e =>
    match info.kind with
    | .stream => ∃ b, v = .bytes b ∧ n = b.length ∧
        (Sized E info ei.byteSize ns n ∨
          ∃ b' t, OnlyTerminator info t ∧ ei.byteSize = some (t.length : Int) ∧ NoTerminatorIn t b' ∧ b = b' ++ t)
    | .string enc => ∃ cs b, v = .str cs ∧ E.encode enc cs = some b ∧ E.decode enc b = some cs ∧
        ((info.terminator = none ∧ Sized E info ei.byteSize ns n ∧ n = b.length) ∨
          ∃ t, OnlyTerminator info t ∧ ei.byteSize = some (t.length : Int) ∧ NoTerminatorIn t b ∧
            n = b.length + t.length)
    | .sequence => seqLinear info ei = true ∧ bsz = some (n : Int) ∧
        ∃ h k s u vs, e = .prim h k s u ∧ v = .tuple vs ∧ (∀ x ∈ vs, ValueTogether E k s x) ∧
          ∀ d z : Int, truthyInt info.dataSize = true → info.dataSize = some d →
            fixedByteSize s u = some z → z ∣ d
  | .struct h bsz linear io infos maps => io = true ∧
      ∃ vs, v = .struct h.name (fill (infos.map (·.name)) vs) ∧
        if linear then bsz = some (n : Int) ∧ FitsTogether E infos maps vs
        else depth ≤ 10 ∧ infos ≠ [] ∧
          FitsMembers E h.name depth ns (infos.map (·.name)) infos maps [] vs off n
  | _ => False
termination_by structural m
/-- After the members with the values `read`, the values `vs` of the members that follow
agree with their types, conditions and supported values; they take `n` bytes. -/
def FitsMembers (E : Env) (cls : String) (depth : Nat) (outer : Namespace) (names : List String)
    (infos : List MemInfo) (maps : List DMap) (read vs : List Val) (off n : Nat) : Prop :=
  match maps with
  | [] => infos = [] ∧ vs = [] ∧ n = 0
  | m :: maps =>
    match infos, vs with
    | i :: infos, v :: vs =>
      (Given E (scope cls names read outer) i false ∧ v = .pyNone ∧
        FitsMembers E cls depth outer names infos maps (read ++ [v]) vs off n) ∨
      (Given E (scope cls names read outer) i true ∧ v ≠ .pyNone ∧ Allowed i v ∧
        ∃ k r, n = k + r ∧ Fits E m off (depth + 1) (scope cls names read outer) v k ∧
          FitsMembers E cls depth outer names infos maps (read ++ [v]) vs (off + k) r)
    | _, _ => False
termination_by structural maps
end

end Spec
open Spec

/-! ### Numbers -/

theorem unpackOne_packOne_int {E : Env} {o : Order} {c : Code} (hc : c ≠ .f ∧ c ≠ .d) {i : Int} {b : Bytes}
    (h : packInt (E.isLittle o) c.size c.signed i = some b) :
    b.length = c.size ∧ unpackOne E o c b = .int i := by
  have hbl := packInt_length h
  refine ⟨hbl, ?_⟩
  rw [unpackOne_int E o c hc]
  have hpow := pow256 c.size
  have hpos : 0 < 256 ^ c.size := Nat.pow_pos (by decide)
  unfold packInt at h
  cases hs : c.signed
  · simp only [hs, Bool.false_eq_true, if_false] at h ⊢
    split at h
    · rename_i h2
      cases h
      rw [unsignedOf_bytesOf, Nat.mod_eq_of_lt (by omega), Int.toNat_of_nonneg h2.1]
    · cases h
  · simp only [hs, if_true] at h ⊢
    split at h
    · rename_i h2
      cases h
      rw [unsignedOf_bytesOf]
      have h3 := Int.emod_lt_of_pos i (b := 256 ^ c.size) (by omega)
      have h4 := Int.emod_nonneg i (b := 256 ^ c.size) (by omega)
      rw [Nat.mod_eq_of_lt (by omega), toSigned_mod _ i h2.1 h2.2]
    · cases h

theorem packOne_index {E : Env} {o : Order} {c : Code} (hc : c ≠ .f ∧ c ≠ .d) (v : Val) :
    packOne E o c v = v.toIndex.bind (packInt (E.isLittle o) c.size c.signed) := by
  cases c <;> first | rfl | simp at hc

/-- Reading back a number that was written. -/
theorem number_unpack {E : Env} {o : Order} {k : PrimKind} {s : Size} {c : Code} {v : Val} {b : Bytes}
    (hk : k = .floatingPoint ∨ ∃ u, k = .integer u) (hv : ValueOf E k s v) (hc : primCode k s = some c)
    (h : packOne E o c v = some b) : b.length = c.size ∧ unpackOne E o c b = v := by
  rcases hk with rfl | ⟨u, rfl⟩
  · obtain ⟨f, rfl, hf, hs⟩ := hv
    have hcs : (c = .f ∧ s = .bytes 4) ∨ c = .d := by
      unfold primCode at hc
      split at hc <;> simp_all
    rcases hcs with ⟨rfl, rfl⟩ | rfl
    · obtain ⟨u, hu, rfl, hb⟩ := hs rfl
      simp only [packOne, Val.toFloat, Option.bind_some, hb, Option.map_some, Option.some.injEq] at h
      subst h
      simp only [Code.size, bytesOf_length, unpackOne, unsignedOf_bytesOf, true_and]
      rw [Nat.mod_eq_of_lt hu]
    · simp only [packOne, Val.toFloat, Option.map_some, Option.some.injEq] at h
      subst h
      simp only [Code.size, bytesOf_length, unpackOne, unsignedOf_bytesOf, true_and]
      rw [Nat.mod_eq_of_lt hf]
  · obtain ⟨i, rfl⟩ := hv
    have hcs : c ≠ .f ∧ c ≠ .d := by
      unfold primCode at hc
      split at hc <;> simp_all <;> subst hc <;> simp
    rw [packOne_index hcs, Val.toIndex, Option.bind_some] at h
    exact unpackOne_packOne_int hcs h

theorem boolean_code {f t : Option Int} {s : Size} {c : Code} (hc : primCode (.boolean f t) s = some c) :
    c ≠ .f ∧ c ≠ .d := by
  unfold primCode at hc
  split at hc <;> simp_all <;> subst hc <;> simp

theorem together_unpack {E : Env} {o : Order} {k : PrimKind} {s : Size} {c : Code} {v : Val} {b : Bytes}
    (hv : ValueTogether E k s v) (hc : primCode k s = some c)
    (h : packOne E o c v = some b) : b.length = c.size ∧ mapValue k (unpackOne E o c b) = some v := by
  cases k with
  | floatingPoint =>
    obtain ⟨h1, h2⟩ := number_unpack (.inl rfl) hv hc h
    exact ⟨h1, by rw [h2]; rfl⟩
  | integer u =>
    obtain ⟨h1, h2⟩ := number_unpack (.inr ⟨u, rfl⟩) hv hc h
    exact ⟨h1, by rw [h2]; rfl⟩
  | character => exact hv.elim
  | boolean f t =>
    obtain ⟨rfl, ht, x, rfl⟩ := hv
    rw [packOne_index (boolean_code hc), Val.toIndex, Option.bind_some] at h
    obtain ⟨h1, h2⟩ := unpackOne_packOne_int (boolean_code hc) h
    refine ⟨h1, ?_⟩
    rw [h2]
    rcases ht with rfl | rfl <;> cases x <;> rfl

theorem value_unpack {E : Env} {o : Order} {k : PrimKind} {s : Size} {c : Code} {v w : Val} {b : Bytes}
    (hv : ValueOf E k s v) (hc : primCode k s = some c) (hf : foldValue k v = some w)
    (h : packOne E o c w = some b) : b.length = c.size ∧ mapValue k (unpackOne E o c b) = some v := by
  cases k with
  | floatingPoint =>
    cases hf
    obtain ⟨h1, h2⟩ := number_unpack (.inl rfl) hv hc h
    exact ⟨h1, by rw [h2]; rfl⟩
  | integer u =>
    cases hf
    obtain ⟨h1, h2⟩ := number_unpack (.inr ⟨u, rfl⟩) hv hc h
    exact ⟨h1, by rw [h2]; rfl⟩
  | character =>
    obtain ⟨x, hx, rfl⟩ := hv
    cases hf
    have hcs : c ≠ .f ∧ c ≠ .d := by
      unfold primCode at hc
      split at hc <;> simp_all <;> subst hc <;> simp
    rw [packOne_index hcs, Val.toIndex, Option.bind_some] at h
    obtain ⟨h1, h2⟩ := unpackOne_packOne_int hcs h
    refine ⟨h1, ?_⟩
    rw [h2]
    simp only [mapValue]
    rw [if_pos (by omega)]
    simp
  | boolean f t =>
    obtain ⟨hne, x, rfl⟩ := hv
    have hw : ∃ i, w = .int i ∧ (if x then t else f) = some i := by
      cases x <;> simp only [foldValue, Option.map_eq_some_iff] at hf <;> obtain ⟨i, hi, rfl⟩ := hf <;>
        exact ⟨i, rfl, hi⟩
    obtain ⟨i, rfl, hi⟩ := hw
    rw [packOne_index (boolean_code hc), Val.toIndex, Option.bind_some] at h
    obtain ⟨h1, h2⟩ := unpackOne_packOne_int (boolean_code hc) h
    refine ⟨h1, ?_⟩
    rw [h2]
    have e : ∀ y : Int, pyEq (.int i) (.int y) = (i == y) := fun _ => rfl
    cases x <;> simp only [Bool.false_eq_true, if_false, if_true] at hi <;> subst hi
    · simp [mapValue, e]
    · cases f with
      | none => simp [mapValue, e]
      | some f =>
        have : (i == f) = false := by simp; rintro rfl; exact hne rfl
        simp [mapValue, e, this]

theorem drop_mid (pre b post : Bytes) (k : Nat) (h : pre.length = k) : (pre ++ b ++ post).drop k = b ++ post := by
  subst h; simp

theorem prim_forth {E : Env} {h : Hdr} {k : PrimKind} {s : Size} {u : String} {v : Val} {n : Nat} {b : Bytes}
    {ns : Namespace} (hs : fixedByteSize s u = some (n : Int)) (hv : ValueOf E k s v)
    (hf : fold E (.prim h k s u) v ns = .ok (.bytes b)) (pre post : Bytes) :
    b.length = n ∧ primParse E h k s u (pre ++ b ++ post) pre.length = .ok (v, n) := by
  rw [fold] at hf
  unfold primFold at hf
  split at hf
  · rename_i w c hw hc
    split at hf
    · rename_i b' hb
      cases hf
      obtain ⟨h1, h2⟩ := value_unpack hv hc hw hb
      have hn : c.size = n := by
        cases s with
        | native => simp [fixedByteSize] at hs
        | bytes m =>
          have := primCode_size hc
          unfold fixedByteSize at hs
          simp only at hs
          split at hs
          · cases hs; exact this
          · cases hs
      refine ⟨by omega, ?_⟩
      unfold primParse
      simp only [hs]
      rw [if_neg (by simp [tooSmall_eq]; omega)]
      unfold primRead
      rw [drop_mid _ _ _ _ rfl, hc]
      simp only
      rw [if_neg (by simp; omega), List.take_append_of_le_length (by omega), List.take_of_length_le (by omega), h2]
      simp
    · cases hf
  · cases hf

theorem uuid_forth {E : Env} {h : Hdr} {s : Size} {u : String} {b : Bytes} {x : Bytes}
    {ns : Namespace} (hs : fixedByteSize s u = some 16) (ho : h.order ≠ .native) (hx : x.length = 16)
    (hf : fold E (.uuid h s u) (.uuid x) ns = .ok (.bytes b)) (pre post : Bytes) :
    b.length = 16 ∧ uuidParse h s u (pre ++ b ++ post) pre.length = .ok (.uuid x, 16) := by
  have hsl : slice (pre ++ b ++ post) pre.length (pre.length + 16) = (b ++ post).take 16 := by
    unfold slice; rw [drop_mid _ _ _ _ rfl]; simp
  rw [fold] at hf
  unfold uuidFold at hf
  cases hh : h.order with
  | native => exact absurd hh ho
  | big =>
    simp only [hh, uuidAttr, id] at hf
    cases hf
    refine ⟨hx, ?_⟩
    unfold uuidParse
    simp only [hs, hh]
    rw [if_neg (by simp [tooSmall]; omega), hsl, List.take_append_of_le_length (by omega),
      List.take_of_length_le (by omega), if_pos hx]
    rfl
  | little =>
    simp only [hh, uuidAttr] at hf
    cases hf
    have hl : (uuidSwap x).length = 16 := by
      match x, hx with
      | [_, _, _, _, _, _, _, _, _, _, _, _, _, _, _, _], _ => rfl
    refine ⟨hl, ?_⟩
    unfold uuidParse
    simp only [hs, hh]
    rw [if_neg (by simp [tooSmall]; omega), hsl, List.take_append_of_le_length (by omega),
      List.take_of_length_le (by omega), if_pos hl, uuidSwap_twice x hx]
    rfl

theorem padding_forth {E : Env} {h : Hdr} {a off n depth : Nat} {ns : Namespace} (hn : n < a) (hd : a ∣ off + n)
    {p : Bytes} (hp : p.length = n) (pre post : Bytes) (ho : pre.length = off) :
    parse E (.padding h (some a)) (pre ++ p ++ post) off depth ns = .ok (.bytes p, n) := by
  subst ho
  have hm : createAs E h.name h.order (.padding h (some a)) = .ok (.padding h (some a)) := by
    simp only [createAs]
  obtain ⟨q, hq, hdq, hmin, hres, -⟩ := C23_padding E h.name h.order h a (by omega) _ hm (pre ++ p ++ post)
    pre.length depth { values := ns } (Ctx.clean_fresh _)
  have hle := hmin n hd
  have hqn : q = n := by
    have hsub : a ∣ (pre.length + n) - (pre.length + q) := Nat.dvd_sub hd hdq
    have heq : pre.length + n - (pre.length + q) = n - q := by omega
    rw [heq] at hsub
    rcases Nat.eq_zero_or_pos (n - q) with h0 | h0
    · omega
    · have := Nat.le_of_dvd h0 hsub
      omega
  subst hqn
  obtain ⟨h1, h2⟩ := hres (by simp; omega)
  obtain ⟨k, h3, h4⟩ := mapStream_ok (Ctx.clean_fresh _) h1
  rw [h2] at h4
  cases h4
  rw [← hp, window_mid] at h3
  rw [hp] at h3
  exact h3

theorem closed_parse {E : Env} {info : SeqInfo} {ei : ElemInfo} {ns : Namespace} {t b : Bytes}
    (ht : OnlyTerminator info t) (hes : ei.byteSize = some (t.length : Int)) (hb : NoTerminatorIn t b)
    (pre post : Bytes) :
    streamParse E info ei (pre ++ (b ++ t) ++ post) pre.length ns = .ok (b ++ t, (b ++ t).length) := by
  have hsize := onlyTerminator_size (E := E) (ei := ei) (ns := ns) ht
  obtain ⟨-, -, -, -, h5, h6⟩ := ht
  obtain ⟨⟨k, hk⟩, hno⟩ := hb
  have hlen : b.length = k * t.length := by rw [hk, Nat.mul_comm]
  have hfirst := firstTerminator_mid hlen hno pre post
  unfold streamParse
  simp only [hsize, h5, hes, Int.toNat_natCast]
  have hsc := scanTerm_spec ((pre ++ (b ++ t) ++ post).drop pre.length) t h6
    ((pre ++ (b ++ t) ++ post).length - pre.length + 2) 0 (by simp)
  simp only [Nat.zero_add, terminatorAt_drop, firstTerminator_drop] at hsc
  rcases hsc with ⟨j, hj, hs⟩ | ⟨hn, -⟩
  · have hjk : j = k := by
      rcases Nat.lt_trichotomy j k with h | h | h
      · exact absurd hj.1 (hfirst.2 j h)
      · exact h
      · exact absurd hfirst.1 (hj.2 k h)
    subst hjk
    rw [hs]
    have hl : (j + 1) * t.length = (b ++ t).length := by
      rw [List.length_append, hlen, Nat.add_mul, Nat.one_mul]
    have := window_mid pre (b ++ t) post
    unfold window at this
    simp only [hl, slice, Nat.add_sub_cancel_left]
    rw [this]
  · exact absurd hfirst.1 (hn k)

theorem sized_parse {E : Env} {info : SeqInfo} {ei : ElemInfo} {ns : Namespace} {b : Bytes}
    (h : Sized E info ei.byteSize ns b.length) (pre post : Bytes) :
    streamParse E info ei (pre ++ b ++ post) pre.length ns = .ok (b, b.length) := by
  unfold streamParse
  simp only [streamSize_of h]
  rw [if_neg (by rw [tooSmall_eq]; simp)]
  have := window_mid pre b post
  unfold window at this
  simp only [Int.toNat_natCast, slice, Nat.add_sub_cancel_left]
  rw [this]

/-- What a stream with a terminator folds to is what was folded if it ends with it. -/
theorem fold_closed {E : Env} {info : SeqInfo} {ei : ElemInfo} {ns : Namespace} {t b r : Bytes}
    (ht : OnlyTerminator info t) (hf : streamFold E info ei (.bytes b) ns = .ok (.bytes r)) : Closed t b r := by
  obtain ⟨r', hr, h⟩ := streamFold_closed (E := E) (ei := ei) (ns := ns) b ht
  rw [hf] at h
  cases h
  exact hr

theorem not_suffix {t b : Bytes} (ht : t ≠ []) (hb : NoTerminatorIn t b) : ¬ t <:+ b := by
  rintro ⟨p, rfl⟩
  have hpos : 0 < t.length := List.length_pos_iff.mpr ht
  obtain ⟨⟨k, hk⟩, hno⟩ := hb
  rw [List.length_append] at hk
  cases k with
  | zero => omega
  | succ k =>
    refine hno k ?_
    unfold TerminatorAt window
    have : p.length = k * t.length := by rw [Nat.mul_add, Nat.mul_comm] at hk; omega
    rw [Nat.zero_add, ← this]; simp

/-- What a stream of some size folds to is what was folded. -/
theorem fold_sized {E : Env} {info : SeqInfo} {ei : ElemInfo} {ns ns' : Namespace} {b r : Bytes} {n : Int}
    (hn : Sized E info ei.byteSize ns n) (hf : streamFold E info ei (.bytes b) ns' = .ok (.bytes r)) : r = b := by
  have hz : info.hasDataSize = true ∨ (info.hasDataSize = false ∧ info.hasNumElements = true ∧ ei.byteSize ≠ none) := by
    rcases hn with hs | ⟨h1, h2, k, s, h3, h4, rfl⟩
    · exact .inl (evalData_of hs).2
    · exact .inr ⟨by simp [SeqInfo.hasDataSize, h1, h2], (evalNum_of h3).2, by simp [h4]⟩
  unfold streamFold at hf
  rw [streamFold_size] at hf
  split at hf
  · cases hf
  · simp only [Val.len] at hf
    split at hf
    · cases hf
    · cases hf; rfl
  · rename_i hnone
    exfalso
    unfold streamSize at hnone
    rcases hz with hz | ⟨hz, hz2, hz3⟩
    · rw [if_pos hz] at hnone
      split at hnone <;> cases hnone
    · rw [if_neg (by simp [hz]), if_pos hz2] at hnone
      split at hnone
      · exact absurd (by assumption) hz3
      · split at hnone <;> cases hnone

/-! ### Numbers in one operation -/

theorem take_left {b r : Bytes} {n : Nat} (h : b.length = n) : (b ++ r).take n = b := by
  subst h; simp

theorem drop_left {b r : Bytes} {n : Nat} (h : b.length = n) : (b ++ r).drop n = r := by
  subst h; simp

theorem seq_unpack {E : Env} {o : Order} {k : PrimKind} {s : Size} {c : Code} (hc : primCode k s = some c)
    (vs : List Val) (hv : ∀ x ∈ vs, ValueTogether E k s x) (cnt : Nat) (b post : Bytes)
    (h : packAll E o (List.replicate cnt c) vs = some b) :
    mapValues k (unpackAll E o (List.replicate cnt c) (b ++ post)) = .ok vs := by
  induction cnt generalizing vs b with
  | zero =>
    cases vs with
    | nil => rfl
    | cons => simp [packAll] at h
  | succ cnt ih =>
    rw [List.replicate_succ] at h ⊢
    cases vs with
    | nil => simp [packAll] at h
    | cons v vs =>
      simp only [packAll, Option.bind_eq_some_iff, Option.map_eq_some_iff] at h
      obtain ⟨b1, h1, b2, h2, rfl⟩ := h
      obtain ⟨h3, h4⟩ := together_unpack (hv v List.mem_cons_self) hc h1
      simp only [unpackAll, List.append_assoc, take_left h3, drop_left h3, mapValues, h4]
      rw [ih vs (fun x hx => hv x (List.mem_cons_of_mem _ hx)) b2 h2]

theorem struct_unpack {E : Env} {o : Order} {infos : List MemInfo} {maps : List DMap} {vs : List Val}
    (hf : FitsTogether E infos maps vs) (cs : List Code) (hp : All2 IsPrim maps cs) (b post : Bytes)
    (h : packAll E o cs vs = some b) :
    linearValues infos maps (unpackAll E o cs (b ++ post)) = some vs := by
  induction hf generalizing cs b with
  | nil => cases hp; rfl
  | @cons i is hh k s u ms v vs hv ha _ ih =>
    cases hp with
    | @cons _ c _ cs hm hp =>
      obtain ⟨h', k', s', u', he, hpc⟩ := hm
      cases he
      simp only [packAll, Option.bind_eq_some_iff, Option.map_eq_some_iff] at h
      obtain ⟨b1, h1, b2, h2, rfl⟩ := h
      obtain ⟨h3, h4⟩ := together_unpack hv hpc h1
      simp only [unpackAll, List.append_assoc, take_left h3, drop_left h3, linearValues, h4]
      rw [if_pos, ih cs hp b2 h2]
      · rfl
      · unfold valueOk
        split
        · rfl
        · rfl
        · rename_i ws hne hws
          obtain ⟨x, hx, he⟩ := ha ws hws (by rintro rfl; exact hne rfl)
          unfold pyIn
          rw [List.any_eq_true]
          exact ⟨x, hx, he⟩

theorem together_facts {E : Env} {infos : List MemInfo} {maps : List DMap} {vs : List Val}
    (hf : FitsTogether E infos maps vs) : vs.length = infos.length ∧ ∀ v ∈ vs, v ≠ .pyNone := by
  induction hf with
  | nil => simp
  | @cons i is hh k s u ms v vs hv _ _ ih =>
    refine ⟨by simp [ih.1], ?_⟩
    intro x hx
    rw [List.mem_cons] at hx
    rcases hx with rfl | hx
    · rintro rfl
      cases k <;> simp [ValueTogether, ValueOf] at hv
    · exact ih.2 x hx

theorem linearSeq_forth {E : Env} {h : Hdr} {info : SeqInfo} {ei : ElemInfo} {eh : Hdr}
    {k : PrimKind} {s : Size} {u : String} {n : Nat} {vs : List Val} {b : Bytes} {ns : Namespace}
    (hk : info.kind = .sequence) (hl : seqLinear info ei = true) (hv : ∀ x ∈ vs, ValueTogether E k s x)
    (hdiv : ∀ d z : Int, truthyInt info.dataSize = true → info.dataSize = some d →
        fixedByteSize s u = some z → z ∣ d)
    (hok : NodeOk (.seq h info ei (some (n : Int)) (.prim eh k s u)))
    (hf : fold E (.seq h info ei (some (n : Int)) (.prim eh k s u)) (.tuple vs) ns = .ok (.bytes b))
    (pre post : Bytes) :
    b.length = n ∧ linearSeqParse E (some (n : Int)) (DMap.seq h info ei (some (n : Int)) (.prim eh k s u)).op
      (.prim eh k s u) (pre ++ b ++ post) pre.length = .ok (.tuple vs, n) := by
  simp only [fold, hk, hl, if_true, linearSeqFold, Val.iter] at hf
  cases hop : (DMap.seq h info ei (some (n : Int)) (.prim eh k s u)).op with
  | none => rw [hop] at hf; cases hf
  | some op =>
    rw [hop] at hf
    simp only at hf
    split at hf
    · rename_i b' hb
      cases hf
      obtain ⟨ec, k', sz', u', c, cnt, he, hpc, hcodes, hsize⟩ := hok hk hl op hop
      cases he
      have hsz := hsize n rfl hdiv
      unfold Op.writeTo at hb
      have hlen := packAll_length _ _ _ _ _ hb
      have hbn : b.length = n := by
        rw [hlen, hcodes, codesSize_replicate, primCode_size hpc]
        rw [← Int.natCast_mul] at hsz
        exact (Int.ofNat.inj hsz).symm
      refine ⟨hbn, ?_⟩
      unfold linearSeqParse
      simp only
      rw [if_neg (by rw [tooSmall_eq]; simp; omega), drop_mid _ _ _ _ rfl]
      simp only [Option.bind_some, Op.readFrom]
      rw [if_neg (by rw [List.length_append]; omega)]
      rw [hcodes] at hb
      simp only [hcodes, seq_unpack hpc vs hv cnt b post hb, Int.toNat_natCast]
    · cases hf

theorem linearStruct_forth {E : Env} {h : Hdr} {infos : List MemInfo}
    {maps : List DMap} {n : Nat} {vs : List Val} {b : Bytes} {ns : Namespace}
    (hv : FitsTogether E infos maps vs)
    (hok : NodeOk (.struct h (some (n : Int)) true true infos maps))
    (hf : fold E (.struct h (some (n : Int)) true true infos maps)
      (.struct h.name (fill (infos.map (·.name)) vs)) ns = .ok (.bytes b)) (pre post : Bytes) :
    b.length = n ∧ linearStructParse E h (some (n : Int)) (DMap.struct h (some (n : Int)) true true infos maps).op
      true infos maps (pre ++ b ++ post) pre.length =
        .ok (.struct h.name (fill (infos.map (·.name)) vs), n) := by
  obtain ⟨hnd, hlen, hop'⟩ := hok
  obtain ⟨hvl, hne⟩ := together_facts hv
  have hpv := presentValues_fill h.name [] (infos.map (·.name)) [] vs (by simpa using hvl) rfl
    (by simpa using hnd) hne
  simp only [List.nil_append] at hpv
  simp only [fold, if_true, linearStructFold, hpv] at hf
  cases hop : (DMap.struct h (some (n : Int)) true true infos maps).op with
  | none => rw [hop] at hf; cases hf
  | some op =>
    rw [hop] at hf
    simp only at hf
    split at hf
    · rename_i b' hb
      cases hf
      obtain ⟨hprims, hsize⟩ := hop' rfl op n hop rfl
      unfold Op.writeTo at hb
      have hl := packAll_length _ _ _ _ _ hb
      have hbn : b.length = n := by omega
      refine ⟨hbn, ?_⟩
      unfold linearStructParse
      simp only
      rw [if_neg (by rw [tooSmall_eq]; simp; omega), drop_mid _ _ _ _ rfl]
      simp only [Option.bind_some, Op.readFrom]
      rw [if_neg (by rw [List.length_append]; omega)]
      simp only [struct_unpack hv op.codes hprims b post hb, if_true, Int.toNat_natCast]
      rw [newInstanceArgs_fill _ _ (by simp; omega)]
    · cases hf

/-! ### Members one by one -/

theorem evalCondition_given {E : Env} {i : MemInfo} {ns : Namespace} {b : Bool} (h : Given E ns i b) :
    evalCondition E i ns = .ok b := by
  unfold evalCondition
  cases h with
  | always h =>
    have : truthyStr i.condition = false := by rcases h with h | h <;> simp [h, truthyStr]
    simp [this]
  | @cond c _ h hc he =>
    have : truthyStr (some c) = true := by simp [truthyStr, hc]
    simp [h, this, he]

theorem valueOk_allowed {i : MemInfo} {v : Val} (h : Allowed i v) : valueOk i v = true := by
  unfold valueOk
  split
  · rfl
  · rfl
  · rename_i ws hne hws
    obtain ⟨x, hx, he⟩ := h ws hws (by rintro rfl; exact hne rfl)
    unfold pyIn
    rw [List.any_eq_true]
    exact ⟨x, hx, he⟩

theorem fits_missing {E : Env} {off depth : Nat} {ns : Namespace} {v : Val} {n : Nat} :
    ¬ Fits E .missing off depth ns v n := by
  rw [Fits.eq_def]; exact id

/-- What a fitting value was folded to has its size and is mapped to the value. -/
def MapsBack (E : Env) (m : DMap) : Prop :=
  ∀ off depth ns fs v n b, Fits E m off depth ns v n → fold E m v fs = .ok (.bytes b) →
    ∀ pre post : Bytes, pre.length = off →
      b.length = n ∧ parse E m (pre ++ b ++ post) off depth ns = .ok (v, n)

theorem foldMembers_inv {E : Env} {v : Val} {i : MemInfo} {infos : List MemInfo} {m : DMap}
    {maps : List DMap} {parts : List Val} (hm : m ≠ .missing) (hx : getAttr v i.name ≠ .pyNone)
    (h : foldMembers E v (i :: infos) (m :: maps) = .ok (some parts)) :
    ∃ p ps, fold E m (getAttr v i.name) [(v.typeName, v)] = .ok p ∧
      foldMembers E v infos maps = .ok (some ps) ∧ parts = p :: ps := by
  rw [foldMembers.eq_def] at h
  simp only at h
  generalize hg : getAttr v i.name = x at h hx ⊢
  generalize hf : fold E m x [(v.typeName, v)] = r at h
  generalize foldMembers E v infos maps = q at h
  cases m with
  | missing => exact absurd rfl hm
  | _ =>
    split at h
    · cases h
    · cases h
    · split at h
      · cases h
      · cases h
      · cases h
        exact ⟨_, _, rfl, rfl, rfl⟩

theorem members_forth {E : Env} {cls : String} {outer : Namespace} {depth : Nat} (maps : List DMap)
    (hm : ∀ m ∈ maps, MapsBack E m) (infos : List MemInfo) (names : List String) (read vs : List Val)
    (hl : read.length = names.length) (hnd : (names ++ infos.map (·.name)).Nodup) (off n used : Nat)
    (hfit : FitsMembers E cls depth outer (names ++ infos.map (·.name)) infos maps read vs off n)
    (parts : List Val) (b : Bytes)
    (hfold : foldMembers E (.struct cls (fill (names ++ infos.map (·.name)) (read ++ vs))) infos maps =
      .ok (some parts)) (hj : joinBytes parts = some b) (pre post : Bytes) (ho : pre.length = off) :
    b.length = n ∧ parseMembers E cls (pre ++ b ++ post) depth outer infos maps off used
      (fill (names ++ infos.map (·.name)) read) =
        .ok (fill (names ++ infos.map (·.name)) (read ++ vs), used + n) := by
  induction maps generalizing infos names read vs off n used parts b pre with
  | nil =>
    rw [FitsMembers] at hfit
    obtain ⟨rfl, rfl, rfl⟩ := hfit
    rw [foldMembers] at hfold
    cases hfold
    simp only [joinBytes, Option.some.injEq] at hj
    subst hj
    exact ⟨rfl, by rw [parseMembers]; simp⟩
  | cons m maps ih =>
    rw [FitsMembers.eq_def] at hfit
    simp only at hfit
    split at hfit
    · rename_i _ i infos v vs
      have hget : getAttr (.struct cls (fill (names ++ (i :: infos).map (·.name)) (read ++ v :: vs))) i.name = v := by
        rw [getAttr_struct, List.map_cons, fill_get _ _ _ _ _ _ hl (by simpa using hnd)]
        rfl
      have hns : scope cls (names ++ (i :: infos).map (·.name)) read outer =
          structNs cls (fill (names ++ (i :: infos).map (·.name)) read) outer := rfl
      rcases hfit with ⟨hc, rfl, hr⟩ | ⟨hc, hv, ha, k, r, rfl, hf, hr⟩
      · rw [foldMembers_none (by exact hget)] at hfold
        have hres := ih (fun m hm' => hm m (List.mem_cons_of_mem _ hm')) infos (names ++ [i.name])
          (read ++ [.pyNone]) vs (by simp [hl]) (by simpa using hnd) off n used (by simpa using hr) parts b
          (by simpa using hfold) hj pre ho
        refine ⟨hres.1, ?_⟩
        rw [parseMembers]
        rw [← hns, evalCondition_given hc]
        have h2 := hres.2
        simp only [List.append_assoc, List.singleton_append] at h2
        have hfn := fill_none (names ++ i.name :: infos.map (·.name)) read (by simp; omega)
        rw [hfn] at h2
        rw [List.append_assoc]
        exact h2
      · have hmm : m ≠ .missing := by rintro rfl; exact fits_missing hf
        obtain ⟨p, ps, hp, hps, rfl⟩ := foldMembers_inv hmm (by rw [hget]; exact hv) hfold
        obtain ⟨b1, b2, rfl, hj2, rfl⟩ := joinBytes_cons.1 hj
        rw [hget] at hp
        obtain ⟨h1, h2⟩ := hm m List.mem_cons_self off _ _ _ v k b1 hf hp pre (b2 ++ post) ho
        have hres := ih (fun m hm' => hm m (List.mem_cons_of_mem _ hm')) infos (names ++ [i.name])
          (read ++ [v]) vs (by simp [hl]) (by simpa using hnd) (off + k) r (used + k) (by simpa using hr) ps b2
          (by simpa using hps) hj2 (pre ++ b1) (by simp; omega)
        refine ⟨by rw [List.length_append]; omega, ?_⟩
        have he : pre ++ (b1 ++ b2) ++ post = pre ++ b1 ++ (b2 ++ post) := by simp
        rw [he, parseMembers]
        rw [← hns, evalCondition_given hc]
        simp only [h2]
        rw [if_neg (by rw [valueOk_allowed ha]; simp)]
        rw [List.map_cons, fill_set names i.name (infos.map (·.name)) read hl (by simpa using hnd)]
        have h3 := hres.2
        simp only [List.append_assoc, List.singleton_append] at h3 ⊢
        rw [h3, Nat.add_assoc]
    · exact hfit.elim

theorem fold_forth {E : Env} (m : DMap) (hok : m.Every NodeOk) : MapsBack E m := by
  induction m using DMap.ind with
  | prim h k s u =>
    intro off depth ns fs v n b hfit hf pre post ho
    rw [Fits] at hfit
    subst ho
    rw [parse]
    exact prim_forth hfit.1 hfit.2 hf pre post
  | uuid h s u =>
    intro off depth ns fs v n b hfit hf pre post ho
    rw [Fits] at hfit
    obtain ⟨hs, rfl, hno, x, hx, rfl⟩ := hfit
    subst ho
    rw [parse]
    exact uuid_forth hs hno hx hf pre post
  | padding h a =>
    intro off depth ns fs v n b hfit hf pre post ho
    rw [Fits] at hfit
    obtain ⟨k, p, rfl, hn, hd, rfl, hp⟩ := hfit
    rw [fold] at hf
    cases hf
    exact ⟨hp, padding_forth hn hd hp pre post ho⟩
  | seq h info ei bsz e _ =>
    intro off depth ns fs v n b hfit hf pre post ho
    subst ho
    have hnode := hok.self
    rw [Fits] at hfit
    rw [parse]
    have hf0 := hf
    rw [fold] at hf
    split at hfit
    · rename_i hk
      obtain ⟨x, rfl, rfl, hs⟩ := hfit
      simp only [hk] at hf ⊢
      rcases hs with hs | ⟨b', t, ht, hes, hno, rfl⟩
      · obtain rfl := fold_sized hs hf
        rw [sized_parse hs]
        exact ⟨rfl, rfl⟩
      · rcases fold_closed ht hf with ⟨-, rfl⟩ | ⟨hn, -⟩
        · rw [closed_parse ht hes hno]
          exact ⟨rfl, rfl⟩
        · exact absurd (List.suffix_append _ _) hn
    · rename_i enc hk
      obtain ⟨cs, x, rfl, henc, hdec, hs⟩ := hfit
      simp only [hk, stringFold, henc] at hf ⊢
      unfold stringParse
      rcases hs with ⟨ht, hs, rfl⟩ | ⟨t, ht, hes, hno, rfl⟩
      · obtain rfl := fold_sized hs hf
        rw [sized_parse hs]
        simp only [cutString, ht, hdec]
        exact ⟨trivial, trivial⟩
      · have hne : t ≠ [] := ht.2.2.2.2.2
        rcases fold_closed ht hf with ⟨hsuf, -⟩ | ⟨-, rfl⟩
        · exact absurd hsuf (not_suffix hne hno)
        · rw [closed_parse ht hes hno]
          have hcut := cutAt_end hne hno (cutString_spec (x ++ t) t hne)
          simp only [cutString, ht.2.2.2.2.1]
          rw [hcut, hdec, List.length_append]
          exact ⟨rfl, rfl⟩
    · rename_i hk
      obtain ⟨hl, rfl, eh, k, s, u, vs, rfl, rfl, hv, hdiv⟩ := hfit
      simp only [hk, hl, if_true]
      exact linearSeq_forth hk hl hv hdiv hnode hf0 pre post
  | struct h bsz linear io infos maps ih =>
    intro off depth ns fs v n b hfit hf pre post ho
    have hnode := hok.self
    simp only [DMap.Every, everyMap_iff] at hok
    rw [Fits] at hfit
    obtain ⟨rfl, vs, rfl, hfit⟩ := hfit
    rw [parse]
    split at hfit
    · rename_i hl
      obtain ⟨rfl, hfit⟩ := hfit
      subst hl ho
      simp only [if_true]
      exact linearStruct_forth hfit hnode hf pre post
    · rename_i hl
      have hl : linear = false := by simpa using hl
      subst hl
      obtain ⟨hd, hne, hfit⟩ := hfit
      obtain ⟨hnd, -, -⟩ := hnode
      rw [fold] at hf
      simp only [Bool.false_eq_true, if_false] at hf ⊢
      split at hf
      · cases hf
      · cases hf
      rename_i parts hparts
      split at hf
      · cases hf
      rename_i b' hj
      cases hf
      have hres := members_forth maps (fun m hm => ih m hm (hok.2 m hm)) infos [] [] vs rfl (by simpa using hnd)
        off n 0 (by simpa using hfit) parts b (by simpa using hparts) hj pre post ho
      refine ⟨hres.1, ?_⟩
      rw [if_neg (by omega), if_neg (by simp), if_neg (by cases infos <;> simp at hne ⊢)]
      have h2 := hres.2
      simp only [List.nil_append, fill_nil, Nat.zero_add] at h2
      rw [h2]
  | _ =>
    intro off depth ns fs v n b hfit
    rw [Fits.eq_def] at hfit
    exact hfit.elim

end Dtf
