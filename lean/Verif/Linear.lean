import Verif.Every
import Verif.PrimLemmas
/-!
The operation of linear maps: what the generated struct format strings stand
for, and which definitions have one.
-/
namespace Dtf

/-! ### Format strings -/

theorem Code.ofChar_char (c : Code) : Code.ofChar c.char = some c := by cases c <;> decide

theorem digitVal_char (c : Code) : digitVal c.char = none := by cases c <;> decide

theorem parseCodes_code (num : Option Nat) (c : Code) (rest : List Char) :
    parseCodes num (c.char :: rest) =
      (parseCodes none rest).map (List.replicate (num.getD 1) c ++ ·) := by
  rw [parseCodes.eq_def]
  simp only [digitVal_char, Code.ofChar_char]

theorem digitVal_ofNat (d : Nat) (h : d < 10) : digitVal (Char.ofNat (48 + d)) = some d := by
  have : d = 0 ∨ d = 1 ∨ d = 2 ∨ d = 3 ∨ d = 4 ∨ d = 5 ∨ d = 6 ∨ d = 7 ∨ d = 8 ∨ d = 9 := by omega
  rcases this with rfl | rfl | rfl | rfl | rfl | rfl | rfl | rfl | rfl | rfl <;> decide

theorem parseCodes_digit (num : Option Nat) (d : Nat) (h : d < 10) (rest : List Char) :
    parseCodes num (Char.ofNat (48 + d) :: rest) =
      parseCodes (some (num.getD 0 * 10 + d)) rest := by
  rw [parseCodes.eq_def]
  simp only [digitVal_ofNat d h]

theorem parseCodes_dec (k n : Nat) (h : n < k) (rest : List Char) :
    parseCodes none (decFuel k n ++ rest) = parseCodes (some n) rest := by
  induction k generalizing n rest with
  | zero => omega
  | succ k ih =>
    rw [decFuel]
    split
    · rename_i hn
      rw [List.singleton_append, parseCodes_digit _ _ hn]
      simp
    · rename_i hn
      rw [List.append_assoc, ih (n / 10) (by omega), List.singleton_append,
        parseCodes_digit _ _ (by omega)]
      congr 2
      simp; omega

theorem parseCodes_count (n : Int) (c : Code) (rest : List Char) :
    parseCodes none (decStr n ++ c.char :: rest) =
      if 0 ≤ n then (parseCodes none rest).map (List.replicate n.toNat c ++ ·) else none := by
  cases n with
  | ofNat n =>
    rw [decStr, parseCodes_dec _ _ (by omega), parseCodes_code, if_pos (by simp)]
    rfl
  | negSucc n =>
    rw [decStr, if_neg (by omega), List.cons_append, parseCodes.eq_def]
    have h1 : digitVal '-' = none := by decide
    have h2 : Code.ofChar '-' = none := by decide
    simp only [h1, h2]

theorem codesSize_append (a b : List Code) : codesSize (a ++ b) = codesSize a + codesSize b := by
  induction a with
  | nil => simp [codesSize]
  | cons c a ih => simp [codesSize, ih, Nat.add_assoc]

theorem codesSize_replicate (n : Nat) (c : Code) : codesSize (List.replicate n c) = n * c.size := by
  induction n with
  | zero => simp [codesSize]
  | succ n ih => simp [List.replicate_succ, codesSize, ih, Nat.succ_mul, Nat.add_comm]

/-! ### Maps created from definitions that are not composite -/

/-- A primitive map whose values have struct code `c`. -/
def IsPrim (m : DMap) (c : Code) : Prop :=
  ∃ h k s u, m = .prim h k s u ∧ primCode k s = some c

theorem fmt_prim_iff {m : DMap} {c : Code} (h : IsPrim m c) : m.fmt = .ok (some [c.char]) := by
  obtain ⟨_, _, _, _, rfl, hc⟩ := h
  simp [DMap.fmt, hc]

/-- The map of a definition that is not composite has a format string only if it
is primitive. -/
theorem noncomposite_fmt {E : Env} {n : String} {o : Order} {d : Defn} {m : DMap}
    (hd : d.isComposite = false) (hm : createAs E n o d = .ok m) (f : List Char)
    (hf : m.fmt = .ok (some f)) : ∃ c, IsPrim m c ∧ f = [c.char] := by
  cases d <;> simp [Defn.isComposite] at hd
  case prim h k s u =>
    simp only [createAs] at hm
    split at hm
    · cases hm
    · cases hm
      simp only [DMap.fmt, Except.ok.injEq, Option.map_eq_some_iff] at hf
      obtain ⟨c, hc, rfl⟩ := hf
      exact ⟨c, ⟨_, _, _, _, rfl, hc⟩, rfl⟩
  all_goals
    simp only [createAs, Except.ok.injEq] at hm
    subst hm
    simp [DMap.fmt] at hf

theorem noncomposite_map {E : Env} {n : String} {o : Order} {d : Defn} {m : DMap}
    (hd : d.isComposite = false) (hm : createAs E n o d = .ok m) :
    (∃ h k s u, d = .prim h k s u ∧ m = .prim { h with name := n, order := o } k s u) ∨
      (∀ f, m.fmt ≠ .ok (some f)) := by
  cases d <;> simp [Defn.isComposite] at hd
  case prim h k s u =>
    simp only [createAs] at hm
    split at hm
    · cases hm
    · cases hm
      exact .inl ⟨_, _, _, _, rfl, rfl⟩
  all_goals
    simp only [createAs, Except.ok.injEq] at hm
    subst hm
    exact .inr (by simp [DMap.fmt])

theorem op_some {m : DMap} {op : Op} (h : m.op = some op) :
    ∃ f, m.orderStr = .ok (some op.order) ∧ m.fmt = .ok (some f) ∧ f ≠ [] ∧
      parseCodes none f = some op.codes := by
  unfold DMap.op at h
  split at h
  · rename_i o ho
    subst h
    unfold DMap.operation at ho
    split at ho
    · cases ho
    rename_i o ho'
    split at ho
    · cases ho
    · cases ho
    · cases ho
    rename_i c f hf
    split at ho
    · cases ho
    rename_i ord
    split at ho
    · cases ho
    · rename_i op' hop
      cases ho
      unfold mkOp at hop
      split at hop
      · rename_i cs hcs
        cases hop
        exact ⟨_, ho', hf, by simp, hcs⟩
      · cases hop
  · cases h

/-- The operation of a linear sequence. -/
theorem seq_op {E : Env} {nm : String} {o : Order} {h : Hdr} {info : SeqInfo} {e : Defn} {m : DMap}
    (hk : info.kind = .sequence) (hm : createAs E nm o (.seq h info e) = .ok m)
    (hlin : e.isComposite = false) (op : Op) (hop : m.op = some op) :
    ∃ h' k sz u c, ∃ n : Nat, ∃ ec : Hdr, e = .prim h' k (.bytes sz) u ∧
      m = .seq { h with name := nm, order := o } info ⟨e.byteSize, false, none⟩
        (Defn.seq h info e).byteSize (.prim ec k (.bytes sz) u) ∧
      ec.order = op.order ∧ primCode k (.bytes sz) = some c ∧ c.size = sz ∧
      op.codes = List.replicate n c ∧ 0 < n ∧
      (truthyInt info.dataSize = true → u = "bytes" ∧ info.dataSize.map (Int.fdiv · sz) = some (n : Int)) ∧
      (truthyInt info.dataSize = false → info.numElements = some (n : Int)) := by
  obtain ⟨n', eo, em, he, -, rfl, hfin⟩ := createAs_seq hm
  rcases noncomposite_map hlin he with ⟨h', k, s, u, rfl, rfl⟩ | hno
  · obtain ⟨f, ho, hf, hne, hp⟩ := op_some hop
    simp only [DMap.orderStr, Except.ok.injEq, Option.some.injEq] at ho
    simp only [DMap.fmt, hk] at hf
    have key : ∀ x, seqFmt x ((primCode k s).map fun c => [c.char]) = some f →
        ∃ (c : Code) (n sz : Nat), s = .bytes sz ∧ primCode k s = some c ∧ c.size = sz ∧ x = some (n : Int) ∧ 0 < n ∧
          op.codes = List.replicate n c := by
      intro x hx
      unfold seqFmt at hx
      split at hx
      · rename_i n f' hf'
        rw [Option.map_eq_some_iff] at hf'
        obtain ⟨c, hc, rfl⟩ := hf'
        split at hx
        · cases hx
        rename_i hn0
        cases hx
        rw [parseCodes_count] at hp
        split at hp
        · rename_i hn
          simp only [parseCodes, Option.map_some, List.append_nil, Option.some.injEq] at hp
          cases s with
          | native => cases k <;> simp [primCode] at hc
          | bytes sz =>
            refine ⟨c, n.toNat, sz, rfl, hc, primCode_size hc, ?_, ?_, hp.symm⟩
            · rw [Int.toNat_of_nonneg hn]
            · simp at hn0; omega
        · cases hp
      · cases hx
    cases hds : truthyInt info.dataSize
    · rw [if_neg (by simp [hds])] at hf
      simp only [Except.ok.injEq] at hf
      obtain ⟨c, n, sz, rfl, hc, hcs, hx, hn, hops⟩ := key _ hf
      exact ⟨h', k, sz, u, c, n, _, rfl, rfl, ho, hc, hcs, hops, hn, by simp, fun _ => hx⟩
    · rw [if_pos hds] at hf
      split at hf
      · cases hf
      · rename_i es ds hes hds'
        split at hf
        · cases hf
        rename_i hes0
        simp only [Except.ok.injEq] at hf
        obtain ⟨c, n, sz, rfl, hc, hcs, hx, hn, hops⟩ := key _ hf
        simp only [Defn.byteSize, fixedByteSize] at hes
        split at hes
        · rename_i hu
          simp only [Option.some.injEq] at hes
          subst hes
          refine ⟨h', k, sz, u, c, n, _, rfl, rfl, ho, hc, hcs, hops, hn, fun _ => ⟨by simpa using hu, ?_⟩,
            by simp⟩
          rw [hds', ← hx]; rfl
        · cases hes
      · cases hf
  · exfalso
    obtain ⟨f, ho, hf, hne, hp⟩ := op_some hop
    have hseq : ∀ x : Option Int, seqFmt x none ≠ some f := by
      intro x hx; unfold seqFmt at hx; split at hx <;> simp_all
    cases em with
    | missing => simp [DMap.fmt, hk] at hf
    | prim h k s u =>
      have : primCode k s = none := by
        cases hc : primCode k s with
        | none => rfl
        | some c => exact absurd (by simp [DMap.fmt, hc]) (hno [c.char])
      simp only [DMap.fmt, hk, this, Option.map_none] at hf
      split at hf
      · split at hf
        · cases hf
        · split at hf
          · cases hf
          · exact hseq _ (Except.ok.inj hf)
        · cases hf
      · exact hseq _ (Except.ok.inj hf)
    | padding h a => simp only [DMap.orderStr] at ho; cases ho
    | constant h => simp only [DMap.orderStr] at ho; cases ho
    | enumeration h vs => simp only [DMap.orderStr] at ho; cases ho
    | _ =>
      exfalso
      cases e <;> simp [Defn.isComposite] at hlin <;> unfold createAs at he <;>
        first | (cases he; done) | (split at he <;> cases he)

/-! ### Structures -/

/-- The condition under which the members of a structure get the map of their own
type (C37): types with the same name are the same, and no type name starts with an
underscore, as the names of copies do. -/
def Spec.DistinctTypes (ms : List Defn) : Prop :=
  (∀ x ∈ ms, ∀ y ∈ ms, x.target.name = y.target.name → x.target = y.target) ∧
  ∀ x ∈ ms, x.target.name.toList.head? ≠ some '_'

/-- The map of a structure member is the one created from its type, under the name
and byte order the structure gives it. -/
def MapOf (E : Env) (sname : String) (so : Order) (d : Defn) (m : DMap) : Prop :=
  ∃ n o, memberNameOrder sname so d.target = .ok (n, o) ∧ createAs E n o d.target = .ok m

theorem memberNameOrder_name {sname : String} {so : Order} {d : Defn} {n : String} {o : Order}
    (h : memberNameOrder sname so d = .ok (n, o)) :
    n = d.name ∨ n = "_" ++ sname ++ "_" ++ d.name := by
  unfold memberNameOrder at h
  split at h
  · cases h; exact .inl rfl
  · split at h
    · cases h
    · cases h; exact .inr rfl
    · cases h; exact .inl rfl

theorem head_copy (s n : String) : ("_" ++ s ++ "_" ++ n).toList.head? = some '_' := by
  simp [String.toList_append]

theorem createMembers_mapOf (E : Env) (sname : String) (so : Order) (all : List Defn)
    (hd : Spec.DistinctTypes all) (ds : List Defn) (hsub : ∀ d ∈ ds, d ∈ all)
    (cache : List (String × DMap))
    (hc : ∀ p ∈ cache, ∃ x ∈ all, ∃ o, memberNameOrder sname so x.target = .ok (p.1, o) ∧
      createAs E p.1 o x.target = .ok p.2)
    (infos : List MemInfo) (maps : List DMap)
    (h : createMembers E sname so cache ds = .ok (infos, maps)) :
    All2 (MapOf E sname so) ds maps := by
  induction ds generalizing cache infos maps with
  | nil => simp [createMembers] at h; obtain ⟨rfl, rfl⟩ := h; exact .nil
  | cons d ds ih =>
    rw [createMembers_cons] at h
    split at h
    · cases h
    rename_i n o hno
    split at h
    · cases h
    rename_i m hm
    split at h
    · cases h
    rename_i infos' maps' hr
    simp only [Except.ok.injEq, Prod.mk.injEq] at h
    obtain ⟨rfl, rfl⟩ := h
    have hdm : createAs E n o d.target = .ok m := by
      split at hm
      · rename_i p hp
        cases hm
        obtain ⟨x, hx, o', h1, h2⟩ := hc p (List.mem_of_find?_eq_some hp)
        have hpn : p.1 = n := by simpa using List.find?_some hp
        subst hpn
        have hda := hsub d List.mem_cons_self
        have hname : x.target = d.target := by
          rcases memberNameOrder_name h1 with e1 | e1 <;>
            rcases memberNameOrder_name hno with e2 | e2
          · exact hd.1 x hx d hda (e1.symm.trans e2)
          · have := hd.2 x hx
            rw [← e1, e2, head_copy] at this
            exact absurd rfl this
          · have := hd.2 d hda
            rw [← e2, e1, head_copy] at this
            exact absurd rfl this
          · have := e1.symm.trans e2
            exact hd.1 x hx d hda (String.append_right_inj _ |>.mp this)
        rw [hname] at h1 h2
        rw [hno] at h1
        cases h1
        exact h2
      · exact hm
    refine .cons ⟨n, o, hno, hdm⟩ (ih (fun d hd => hsub d (List.mem_cons_of_mem _ hd)) _ ?_ _ _ hr)
    intro p hp
    simp only [List.mem_cons] at hp
    rcases hp with rfl | hp
    · exact ⟨d, hsub d List.mem_cons_self, o, hno, hdm⟩
    · exact hc p hp

theorem checkLinear_true {o : Order} {ds : List Defn} (h : checkLinear o ds = .ok true) :
    ∀ d ∈ ds, d.isComposite = false ∧ d.target.isComposite = false ∧ d.memInfo.condition.all (· == "")
      ∧ ∀ hd a, d ≠ .padding hd a := by
  induction ds generalizing o with
  | nil => simp
  | cons d ds ih =>
    rw [checkLinear.eq_def] at h
    simp only at h
    split at h
    · simp at h
    rename_i hnp
    split at h
    · cases h
    rename_i hc
    split at h
    · cases h
    split at h
    · cases h
    simp only [Bool.or_false, Bool.not_eq_true] at hc
    have := ih h
    intro x hx
    simp only [List.mem_cons] at hx
    rcases hx with rfl | hx
    · refine ⟨hc, ?_, ?_, fun a b hab => hnp a b hab⟩
      · cases x <;> simp_all [Defn.isComposite, Defn.target]
      · revert hc; clear this ih hnp h; intro hc
        cases x <;> try rfl
        rename_i c _ _ _
        rcases c with _ | c
        · rfl
        · simp [Defn.isComposite, truthyStr] at hc
          simp [Defn.memInfo, hc.1]
    · exact this x hx

theorem fmts_prims (maps : List DMap)
    (hp : ∀ m ∈ maps, ∀ f, m.fmt = .ok (some f) → ∃ c, IsPrim m c ∧ f = [c.char])
    (f : List Char) (hf : fmts maps = .ok (some f)) :
    ∃ cs, All2 IsPrim maps cs ∧ f = cs.map Code.char := by
  induction maps generalizing f with
  | nil => simp [fmts] at hf; subst hf; exact ⟨[], .nil, rfl⟩
  | cons m ms ih =>
    have hm : ∃ f1 f2, m.fmt = .ok (some f1) ∧ fmts ms = .ok (some f2) ∧ f = f1 ++ f2 := by
      rw [fmts.eq_def] at hf
      simp only at hf
      split at hf
      · cases hf
      · split at hf
        · cases hf
        · cases hf
        rename_i f1 h1
        split at hf
        · cases hf
        · cases hf
        rename_i f2 h2
        cases hf
        exact ⟨f1, f2, h1, h2, rfl⟩
    obtain ⟨f1, f2, h1, h2, rfl⟩ := hm
    obtain ⟨c, hc, rfl⟩ := hp m List.mem_cons_self _ h1
    obtain ⟨cs, hcs, rfl⟩ := ih (fun m hm => hp m (List.mem_cons_of_mem _ hm)) _ h2
    exact ⟨c :: cs, .cons hc hcs, rfl⟩

theorem parseCodes_chars (cs : List Code) : parseCodes none (cs.map Code.char) = some cs := by
  induction cs with
  | nil => rfl
  | cons c cs ih => rw [List.map_cons, parseCodes_code, ih]; rfl

/-- The operation of a linear structure. -/
theorem struct_op {E : Env} {nm : String} {o : Order} {h : Hdr} {ms : List Defn} {hd : Hdr}
    {bsz : Option Int} {io : Bool} {infos : List MemInfo} {maps : List DMap}
    (hm : createAs E nm o (.struct h ms) = .ok (.struct hd bsz true io infos maps))
    (op : Op) (hop : (DMap.struct hd bsz true io infos maps).op = some op) :
    op.order = o ∧ All2 IsPrim maps op.codes := by
  obtain ⟨io', infos', maps', l, -, hmem, hlin, heq, -⟩ := createAs_struct hm
  cases heq
  obtain ⟨f, ho, hf, hne, hp⟩ := op_some hop
  simp only [DMap.orderStr, Except.ok.injEq, Option.some.injEq] at ho
  simp only [DMap.fmt] at hf
  have hnc := checkLinear_true hlin
  have hall := (createMembers_all E nm o
    (fun m => ∀ f, m.fmt = .ok (some f) → ∃ c, IsPrim m c ∧ f = [c.char]) ms
    (fun d hd n o m hm f hf => noncomposite_fmt (hnc d hd).2.1 hm f hf) [] (by simp) _ _ hmem).2.2
  obtain ⟨cs, hcs, rfl⟩ := fmts_prims maps hall f hf
  rw [parseCodes_chars] at hp
  cases hp
  exact ⟨ho.symm, hcs⟩

/-- With distinct types the operation of a linear structure reads as many bytes as
GetByteSize says. -/
theorem struct_op_size {E : Env} {nm : String} {o : Order} {h : Hdr} {ms : List Defn} {hd : Hdr}
    {n : Int} {io : Bool} {infos : List MemInfo} {maps : List DMap}
    (hdt : Spec.DistinctTypes ms)
    (hm : createAs E nm o (.struct h ms) = .ok (.struct hd (some n) true io infos maps))
    (op : Op) (hop : (DMap.struct hd (some n) true io infos maps).op = some op) :
    (codesSize op.codes : Int) = n := by
  have hprim := (struct_op hm op hop).2
  obtain ⟨io', infos', maps', l, -, hmem, hlin, heq, -⟩ := createAs_struct hm
  have hmo := createMembers_mapOf E nm o ms hdt ms (fun d hd => hd) [] (by simp) _ _ hmem
  simp only [DMap.struct.injEq] at heq
  obtain ⟨-, hbs, hl, -, rfl, rfl⟩ := heq
  subst hl
  have hnc := checkLinear_true hlin
  clear hmem hop hlin hm hdt
  generalize op.codes = cs at *
  have key : ∀ t : Int, All2 (MapOf E nm o) ms maps → All2 IsPrim maps cs →
      ∀ n, structSize t ms = some n → t + codesSize cs = n := by
    clear hbs hmo hprim
    induction ms generalizing maps cs with
    | nil =>
      intro t h1 h2 n h
      cases h1; cases h2
      simp [structSize, codesSize] at h ⊢; exact h
    | cons d ms ih =>
      intro t h1 h2 n h
      cases h1 with
      | @cons _ m _ maps hd' hds =>
      cases h2 with
      | @cons _ c _ cs hc hcs =>
      have hnp := hnc d List.mem_cons_self
      have hsz : structSize t (d :: ms) = (match d.byteSize with
          | none => none
          | some s => structSize (t + s) ms) := by
        conv => lhs; unfold structSize
        split
        · exact absurd rfl (hnp.2.2.2 _ _)
        · rfl
      rw [hsz] at h
      split at h
      · cases h
      rename_i s hs
      have ihh := ih (maps := maps) (cs := cs) (fun d hd => hnc d (List.mem_cons_of_mem _ hd)) (t + s)
        hds hcs n h
      have : s = (c.size : Int) := by
        obtain ⟨n', o', -, hcr⟩ := hd'
        obtain ⟨h', k, sz, u, rfl, hpc⟩ := hc
        have hbsz : d.target.byteSize = some s := by
          cases d <;> simp only [Defn.target] at * <;> try exact hs
          simp only [Defn.byteSize] at hs
          split at hs
          · cases hs
          · exact hs
        rcases noncomposite_map hnp.2.1 hcr with ⟨h1, k1, s1, u1, e1, e2⟩ | hno
        · cases e2
          rw [e1, Defn.byteSize] at hbsz
          cases sz with
          | native => cases k <;> simp [primCode] at hpc
          | bytes sz =>
            rw [primCode_size hpc]
            unfold fixedByteSize at hbsz
            simp only at hbsz
            split at hbsz
            · exact (Option.some.inj hbsz).symm
            · cases hbsz
        · exact absurd (by simp [DMap.fmt, hpc]) (hno [c.char])
      simp only [codesSize]
      omega
  cases ms with
  | nil => simp [Defn.byteSize] at hbs
  | cons d ms =>
    simp only [Defn.byteSize] at hbs
    have := key 0 hmo hprim n hbs.symm
    omega

end Dtf
