import Verif.ParseFacts
/-!
Facts about the context-free parser: a byte offset means slicing, and the entry
`__builtins__` that `eval` adds to the context values is invisible.
-/
namespace Dtf

/-- The alignment size of a padding map divides `k`. -/
def alignDvd (k : Nat) : DMap → Prop
  | .padding _ (some a) => a ∣ k
  | _ => True

theorem tooSmall_drop (bs : Bytes) (k off : Nat) (n : Int) (hk : k ≤ bs.length) :
    tooSmall (bs.drop k) off n = tooSmall bs (k + off) n := by
  unfold tooSmall
  rw [List.length_drop]
  congr 1
  simp only [eq_iff_iff]
  omega

theorem slice_drop (bs : Bytes) (k off n : Nat) :
    slice (bs.drop k) off (off + n) = slice bs (k + off) (k + off + n) := by
  unfold slice
  rw [List.drop_drop]
  congr 1
  omega

theorem paddingSize_shift (a k off : Nat) (h : a ∣ k) :
    paddingSize ((k + off : Nat) : Int) a = paddingSize (off : Int) a := by
  obtain ⟨c, rfl⟩ := h
  unfold paddingSize
  have : ((a * c + off : Nat) : Int) % (a : Int) = (off : Int) % a := by
    rw [Int.natCast_add, Int.natCast_mul, Int.add_comm, Int.add_mul_emod_self_left]
  simp only [this]

theorem seqParse_shift (step step' : Nat → PRes) (len k : Nat) (num dataSize : Option Int)
    (term : Option Lit) (hk : k ≤ len) (hstep : ∀ off, step' off = step (k + off))
    (fuel off used index : Nat) (last : Val) :
    seqParse step' (len - k) num dataSize term fuel off used index last =
      seqParse step len num dataSize term fuel (k + off) used index last := by
  induction fuel generalizing off used index last with
  | zero => rfl
  | succ fuel ih =>
    rw [seqParse, seqParse, hstep]
    have : (decide (len - k ≤ off)) = decide (len ≤ k + off) := by
      congr 1; simp only [eq_iff_iff]; omega
    simp only [this, ih, Nat.add_assoc]

theorem parseMembers_shift (E : Env) (cls : String) (bs : Bytes) (k depth : Nat)
    (outer : Namespace) (maps : List DMap)
    (hm : ∀ m ∈ maps, ∀ off depth ns,
      parse E m (bs.drop k) off depth ns = parse E m bs (k + off) depth ns)
    (infos : List MemInfo) (off used : Nat) (attrs : List (String × Val)) :
    parseMembers E cls (bs.drop k) depth outer infos maps off used attrs =
      parseMembers E cls bs depth outer infos maps (k + off) used attrs := by
  induction maps generalizing infos off used attrs with
  | nil => simp [parseMembers]
  | cons m maps ih =>
    have ih := ih (fun m hm' => hm m (List.mem_cons_of_mem _ hm'))
    cases infos with
    | nil => simp [parseMembers]
    | cons info infos =>
      rw [parseMembers, parseMembers, hm m List.mem_cons_self]
      simp only [ih, Nat.add_assoc]

/-- Parsing at `k + off` is parsing the bytes after the first `k` at `off`. -/
theorem parse_shift (E : Env) (m : DMap) (bs : Bytes) (k : Nat) (hk : k ≤ bs.length)
    (hf : m.Every (alignDvd k)) :
    ∀ off depth ns, parse E m (bs.drop k) off depth ns = parse E m bs (k + off) depth ns := by
  induction m using DMap.ind with
  | missing => intros; simp [parse]
  | prim h kd s u =>
    intro off depth ns
    simp only [parse, primParse, tooSmall_drop bs k off _ hk, List.drop_drop]
  | uuid h s u =>
    intro off depth ns
    simp only [parse, uuidParse, tooSmall_drop bs k off _ hk, slice_drop]
  | padding h a =>
    intro off depth ns
    have hc : calcPadding a off = calcPadding a ((k + off : Nat) : Int) := by
      rcases a with _ | _ | a
      · rfl
      · rfl
      · have := paddingSize_shift (a + 1) k off hf.self
        simp only [calcPadding]
        exact congrArg _ this.symm
    simp only [parse, paddingParse, tooSmall_drop bs k off _ hk, slice_drop, hc]
  | seq h info ei bsz e ih =>
    intro off depth ns
    simp only [DMap.Every] at hf
    have hst : streamParse E info ei (bs.drop k) off ns = streamParse E info ei bs (k + off) ns := by
      simp only [streamParse, tooSmall_drop bs k off _ hk, slice_drop, List.drop_drop,
        List.length_drop, Nat.sub_sub]
    simp only [parse, stringParse, hst, linearSeqParse, tooSmall_drop bs k off _ hk,
      List.drop_drop, compositeSeqParse, List.length_drop]
    have hfu : ∀ num, seqFuel (bs.length - k) off num 0 = seqFuel bs.length (k + off) num 0 := by
      intro num; unfold seqFuel; rw [Nat.sub_sub]
    simp only [hfu]
    simp only [seqParse_shift (fun off => parse E e bs off (depth + 1) [])
        (fun off => parse E e (bs.drop k) off (depth + 1) []) bs.length k _ _ _ hk
        (fun off => ih hf.2 off _ _)]
  | struct h b l io infos maps ih =>
    intro off depth ns
    simp only [DMap.Every, everyMap_iff] at hf
    simp only [parse, linearStructParse, tooSmall_drop bs k off _ hk, List.drop_drop,
      parseMembers_shift E _ bs k _ _ maps (fun m hm => ih m hm (hf.2 m hm))]
  | constant h => intros; simp [parse]
  | enumeration h vs => intros; simp [parse]
  | format h l => intros; simp [parse]
  | group h ident base dflt keys maps ih1 ih2 ih3 =>
    intro off depth ns
    simp only [DMap.Every, everyMap_iff, everyOptMap_iff] at hf
    have h2 : parseOpt E dflt (bs.drop k) off depth = parseOpt E dflt bs (k + off) depth := by
      cases dflt with
      | none => rfl
      | some d => simp only [parseOpt]; exact ih2 d rfl (hf.2.2.1 d rfl) _ _ _
    have h3 : ∀ i, parseNth E maps i (bs.drop k) off depth = parseNth E maps i bs (k + off) depth := by
      intro i
      rw [parseNth_eq, parseNth_eq]
      cases hmi : maps[i]? with
      | none => rfl
      | some m =>
        have hmem := List.mem_of_getElem? hmi
        exact ih3 m hmem (hf.2.2.2 m hmem) _ _ _
    simp only [parse, ih1 hf.2.1, h2, h3]

/-! ### The entry `__builtins__` -/

/-- Two namespaces that `eval` cannot tell apart: it sets `__builtins__` itself. -/
def SameNs (a b : Namespace) : Prop := withBuiltins a = withBuiltins b

/-- Set the value of `__builtins__` where it occurs. -/
def blank (p : String × Val) : String × Val :=
  if p.1 == "__builtins__" then ("__builtins__", .other 0) else p

theorem blank_fst (p : String × Val) : (blank p).1 = p.1 := by
  unfold blank; split
  · rename_i h; exact (beq_iff_eq.mp h).symm
  · rfl

theorem any_of_blank {a b : Namespace} (h : a.map blank = b.map blank) (k : String) :
    a.any (·.1 == k) = b.any (·.1 == k) := by
  have : ∀ l : Namespace, l.any (·.1 == k) = (l.map blank).any (·.1 == k) := by
    intro l; simp only [List.any_map, Function.comp_def, blank_fst]
  rw [this a, this b, h]

theorem nsSet_blank {a b : Namespace} (h : a.map blank = b.map blank) (k : String) (v v' : Val)
    (hv : blank (k, v) = blank (k, v')) : (nsSet a k v).map blank = (nsSet b k v').map blank := by
  unfold nsSet
  rw [any_of_blank h k]
  split
  · rw [List.map_map, List.map_map]
    have key : ∀ (v : Val) (l : Namespace), l.map (blank ∘ fun p => if p.1 == k then (k, v) else p) =
        (l.map blank).map fun p => if p.1 == k then blank (k, v) else p := by
      intro v l
      rw [List.map_map]
      apply List.map_congr_left
      intro p _
      simp only [Function.comp_def, blank_fst]
      split <;> rfl
    rw [key, key, h, hv]
  · rw [List.map_append, List.map_append, h]
    simp [hv]

theorem nsUpdate_blank (other : Namespace) : ∀ a b : Namespace, a.map blank = b.map blank →
    (nsUpdate a other).map blank = (nsUpdate b (other.map blank)).map blank := by
  induction other with
  | nil => intro a b h; exact h
  | cons p other ih =>
    intro a b h
    have hcons : ∀ (q : String × Val) (a l : Namespace), nsUpdate a (q :: l) = nsUpdate (nsSet a q.1 q.2) l :=
      fun _ _ _ => rfl
    rw [List.map_cons, hcons, hcons]
    apply ih
    rw [blank_fst]
    apply nsSet_blank h
    show blank p = blank (p.1, (blank p).2)
    unfold blank
    split <;> simp_all

theorem withBuiltins_blank {a b : Namespace} (h : a.map blank = b.map blank) :
    withBuiltins a = withBuiltins b := by
  have key : ∀ l : Namespace, withBuiltins l =
      if l.any (·.1 == "__builtins__") then l.map blank else l.map blank ++ [("__builtins__", .other 0)] := by
    intro l
    unfold withBuiltins nsSet
    split
    · rfl
    · rename_i hn
      congr 1
      simp only [List.any_eq_true, not_exists, not_and] at hn
      conv => lhs; rw [← List.map_id l]
      apply List.map_congr_left
      intro p hp
      simp [blank, hn p hp]
  rw [key, key, any_of_blank h, h]

theorem structNs_builtins (cls : String) (attrs : List (String × Val)) (ns : Namespace) :
    SameNs (structNs cls attrs (withBuiltins ns)) (structNs cls attrs ns) := by
  unfold SameNs structNs
  by_cases h : ns.any (·.1 == "__builtins__") = true
  · have hw : withBuiltins ns = ns.map blank := by
      unfold withBuiltins nsSet; rw [if_pos h]; rfl
    rw [hw]
    exact (withBuiltins_blank (nsUpdate_blank ns _ _ rfl)).symm
  · have hw : withBuiltins ns = ns ++ [("__builtins__", .other 0)] := by
      unfold withBuiltins nsSet; rw [if_neg h]
    rw [hw]
    have : nsUpdate [(cls, .struct cls attrs)] (ns ++ [("__builtins__", .other 0)]) =
        withBuiltins (nsUpdate [(cls, .struct cls attrs)] ns) := by
      unfold nsUpdate; rw [List.foldl_append]; rfl
    rw [this, withBuiltins_idem]

theorem evalCondition_same {E : Env} {info : MemInfo} {a b : Namespace} (h : SameNs a b) :
    evalCondition E info a = evalCondition E info b := by
  unfold evalCondition; rw [h]

theorem parseMembers_builtins (E : Env) (cls : String) (bs : Bytes) (depth : Nat)
    (outer : Namespace) (maps : List DMap)
    (hm : ∀ m ∈ maps, ∀ bs off depth ns, parse E m bs off depth (withBuiltins ns) =
      parse E m bs off depth ns)
    (infos : List MemInfo) (off used : Nat) (attrs : List (String × Val)) :
    parseMembers E cls bs depth (withBuiltins outer) infos maps off used attrs =
      parseMembers E cls bs depth outer infos maps off used attrs := by
  induction maps generalizing infos off used attrs with
  | nil => simp [parseMembers]
  | cons m maps ih =>
    have ih := ih (fun m hm' => hm m (List.mem_cons_of_mem _ hm'))
    cases infos with
    | nil => simp [parseMembers]
    | cons info infos =>
      have hs := structNs_builtins cls attrs outer
      have hp : ∀ off, parse E m bs off (depth + 1) (structNs cls attrs (withBuiltins outer)) =
          parse E m bs off (depth + 1) (structNs cls attrs outer) := by
        intro off
        rw [← hm m List.mem_cons_self _ _ _ (structNs cls attrs outer),
          ← hm m List.mem_cons_self _ _ _ (structNs cls attrs (withBuiltins outer)), hs]
      rw [parseMembers, parseMembers]
      simp only [evalCondition_same hs, hp, ih]

/-- `__builtins__` in the context values does not matter. -/
theorem parse_builtins_all (E : Env) (m : DMap) : ∀ bs off depth ns,
    parse E m bs off depth (withBuiltins ns) = parse E m bs off depth ns := by
  induction m using DMap.ind with
  | missing => intros; simp [parse]
  | prim h kd s u => intros; simp [parse]
  | uuid h s u => intros; simp [parse]
  | padding h a => intros; simp [parse]
  | seq h info ei bsz e ih => intro bs off depth ns; exact parse_builtins E _ rfl bs off depth ns
  | struct h b l io infos maps ih =>
    intro bs off depth ns
    simp only [parse, parseMembers_builtins E _ bs _ ns maps ih]
  | constant h => intros; simp [parse]
  | enumeration h vs => intros; simp [parse]
  | format h l => intros; simp [parse]
  | group h ident base dflt keys maps ih1 ih2 ih3 => intros; simp only [parse]

end Dtf
