import Verif.Props.FoldErrors
import Verif.Props.Padded
import Verif.Props.Values
/-!
# Property C96: folding what was mapped

C88 and C93 say how many bytes FoldByteStream gives, and what it raises, for values that
are complete and of the right kind. Here: the values that MapByteStream gives are.
-/
namespace Dtf

namespace Spec

/-- Streams and strings do not give their size as an expression, and their terminator,
if they have one, is a byte string. -/
def PlainlySized : Defn → Prop
  | .seq _ info _ => info.kind ≠ .sequence → info.dataSizeExpr = none ∧ info.numElementsExpr = none ∧
      ∀ t, info.terminator = some t → ∃ b, t = .bytes b
  | _ => True

end Spec
open Spec

theorem mapValue_some {E : Env} {o : Order} {k : PrimKind} {c : Code} {b : Bytes} {v : Val}
    (h : mapValue k (unpackOne E o c b) = some v) : v ≠ .pyNone := by
  rintro rfl
  cases k with
  | boolean f t =>
    simp only [mapValue] at h
    cases f <;> cases t <;> simp at h <;> (try split at h) <;> (try split at h) <;> simp at h
  | character =>
    simp only [mapValue] at h
    split at h
    · split at h <;> cases h
    · cases h
  | floatingPoint =>
    simp only [mapValue, Option.some.injEq] at h
    cases c <;> simp [unpackOne] at h
  | integer s =>
    simp only [mapValue, Option.some.injEq] at h
    cases c <;> simp [unpackOne] at h

theorem linearValues_some {E : Env} {o : Order} {infos : List MemInfo} {maps : List DMap} {cs : List Code}
    {b : Bytes} {xs : List Val} (h : linearValues infos maps (unpackAll E o cs b) = some xs) :
    ∀ x ∈ xs, x ≠ .pyNone := by
  induction cs generalizing infos maps b xs with
  | nil => simp [unpackAll, linearValues] at h; simp [h]
  | cons c cs ih =>
    rw [unpackAll] at h
    cases infos with
    | nil => simp [linearValues] at h
    | cons i infos =>
    cases maps with
    | nil => simp [linearValues] at h
    | cons m maps =>
    simp only [linearValues] at h
    split at h
    · split at h
      · cases h
      · rename_i x hx
        split at h
        · rw [Option.map_eq_some_iff] at h
          obtain ⟨ys, h1, rfl⟩ := h
          intro y hy
          rw [List.mem_cons] at hy
          rcases hy with rfl | hy
          · exact mapValue_some hx
          · exact ih h1 y hy
        · cases h
    · cases h

theorem all2_both {α β γ : Type} {R : α → β → Prop} {S : β → γ → Prop} {a : List α} {l : List β} {c : List γ}
    (h : All2 R a l) (h' : All2 S l c) {x : α} (hx : x ∈ a) : ∃ y z, R x y ∧ S y z := by
  induction h generalizing c with
  | nil => cases hx
  | cons hd _ ih =>
    cases h' with
    | cons hd' h' =>
      rw [List.mem_cons] at hx
      rcases hx with rfl | hx
      · exact ⟨_, _, hd, hd'⟩
      · exact ih h' hx

/-- What a structure map gives: either all members are primitive and have values, or
the members were mapped one after the other. -/
theorem struct_parsed {E : Env} {nm : String} {o : Order} {h : Hdr} {ms : List Defn} {m : DMap}
    (hdt : DistinctTypes ms) (hm : createAs E nm o (.struct h ms) = .ok m) {bs : Bytes} {off depth : Nat}
    {outer : Namespace} {v : Val} {n : Nat} (hp : parse E m bs off depth outer = .ok (v, n)) :
    (ms.map Defn.name).Nodup ∧ ∃ vs, v = .struct nm (fill (ms.map Defn.name) vs) ∧ vs.length = ms.length ∧
      (((∀ x ∈ vs, x ≠ .pyNone) ∧ (∀ d ∈ ms, ∃ h k s u, d.target = .prim h k s u) ∧
          ∀ d ∈ ms, ∀ h a, d ≠ .padding h a) ∨
        ∃ e, Layout E bs depth outer nm o (ms.map Defn.name) [] ms off vs e) := by
  have hm0 := hm
  obtain ⟨io, infos, maps, l, hcls, hmem, hlin, heq, -⟩ := createAs_struct hm
  have hmo := createMembers_mapOf E nm o ms hdt ms (fun d hd => hd) [] (by simp) _ _ hmem
  have hinf := (createMembers_all E nm o (fun _ => True) ms
    (fun _ _ _ _ _ _ => trivial) [] (by simp) _ _ hmem).1
  subst hinf
  have hnames : (ms.map Defn.memInfo).map (·.name) = ms.map Defn.name := by
    simp [memInfo_name]
  obtain ⟨hnd, hne⟩ := createClass_nodup hcls
  refine ⟨hnd, ?_⟩
  cases l with
  | true =>
    subst heq
    simp only [parse, if_true] at hp
    unfold linearStructParse at hp
    split at hp
    · cases hp
    split at hp
    · cases hp
    split at hp
    · cases hp
    rename_i ws hws
    split at hp
    · cases hp
    rename_i xs hxs
    rw [hnames] at hp
    split at hp
    · cases hp
    rename_i attrs hat
    split at hp
    · simp only [Except.ok.injEq, Prod.mk.injEq] at hp
      obtain ⟨hv, -⟩ := hp
      rw [Option.bind_eq_some_iff] at hws
      obtain ⟨op, hop, hrd⟩ := hws
      unfold Op.readFrom at hrd
      split at hrd
      · cases hrd
      cases hrd
      obtain ⟨-, hpr⟩ := struct_op hm0 op (by assumption)
      have hlen : xs.length = ms.length := by
        rw [linearValues_length hxs, unpackAll_length, ← hpr.length_eq, ← hmo.length_eq]
      rw [newInstanceArgs_fill _ _ (by simp [hlen])] at hat
      cases hat
      refine ⟨xs, hv.symm, hlen, .inl ⟨linearValues_some hxs, ?_, fun d hd => (checkLinear_true hlin d hd).2.2.2⟩⟩
      intro d hd
      obtain ⟨mp, c, ⟨n', o', -, hcr⟩, hc⟩ := all2_both hmo hpr hd
      obtain ⟨h', k, s, u, rfl, hpc⟩ := hc
      rcases noncomposite_map (checkLinear_true hlin d hd).2.1 hcr with ⟨h1, k1, s1, u1, e1, e2⟩ | hno'
      · exact ⟨_, _, _, _, e1⟩
      · exact absurd (by simp [DMap.fmt, hpc]) (hno' [c.char])
    · cases hp
  | false =>
    subst heq
    simp only [parse, Bool.false_eq_true, if_false, hnames] at hp
    split at hp
    · cases hp
    split at hp
    · cases hp
    split at hp
    · cases hp
    split at hp
    · cases hp
    rename_i attrs k hpm
    cases hp
    rw [← fill_nil] at hpm
    obtain ⟨vs, e, h1, rfl, h3, h4⟩ := layout_of_members E nm o bs depth outer _ ms maps hmo [] rfl
      hnd [] rfl off 0 n attrs hpm
    exact ⟨vs, rfl, by simpa using h4, .inr ⟨e, h1⟩⟩

/-- The value of a stream or string says that its size can be told. -/
theorem streamParse_measured {E : Env} {info : SeqInfo} {ei : ElemInfo} {bs : Bytes} {off : Nat} {ns : Namespace}
    {r : Bytes × Nat} (h : streamParse E info ei bs off ns = .ok r)
    (h1 : info.dataSizeExpr = none) (h2 : info.numElementsExpr = none)
    (ht : ∀ t, info.terminator = some t → ∃ b, t = .bytes b) (ns' : Namespace) :
    Measured E info ei.byteSize ns' := by
  have hsz : ∃ r, streamSize E info ei ns = .ok r := by
    unfold streamParse at h
    split at h
    · cases h
    all_goals exact ⟨_, by assumption⟩
  obtain ⟨r, hsz⟩ := hsz
  have hconst : ∀ (k : Option Int) (n : Int), (if truthyInt k then checkSize info.kind (k.map .int)
      else evalSize E info.kind none ns) = .ok n → Evaluates E k none ns' n := by
    intro k n hc
    cases k with
    | none => simp [truthyInt, evalSize] at hc
    | some k =>
      by_cases hk : k = 0
      · simp [truthyInt, hk, evalSize] at hc
      · simp only [truthyInt, bne_iff_ne, ne_eq, hk, not_false_eq_true, if_true, Option.map_some, checkSize] at hc
        split at hc
        · cases hc
        · cases hc
          exact ⟨by omega, .inl ⟨rfl, hk⟩⟩
  unfold streamSize at hsz
  split at hsz
  · split at hsz
    · cases hsz
    · rename_i n hn
      unfold evalDataSize at hn
      rw [h1] at hn
      exact .inl ⟨n, .inl (h1 ▸ hconst _ _ hn)⟩
  · rename_i hds
    simp only [SeqInfo.hasDataSize, h1, Option.isSome_none, Bool.or_false, Bool.not_eq_true,
      Option.isSome_eq_false_iff, Option.isNone_iff_eq_none] at hds
    split at hsz
    · split at hsz
      · exact .inr ⟨hds, h1, .inr (by assumption), ht⟩
      · rename_i es hes
        split at hsz
        · cases hsz
        · rename_i n hn
          unfold evalNumElements at hn
          rw [h2] at hn
          exact .inl ⟨n * es, .inr ⟨hds, h1, n, es, h2 ▸ hconst _ _ hn, hes, rfl⟩⟩
    · rename_i hnum
      simp only [SeqInfo.hasNumElements, h2, Option.isSome_none, Bool.or_false, Bool.not_eq_true,
        Option.isSome_eq_false_iff, Option.isNone_iff_eq_none] at hnum
      exact .inr ⟨hds, h1, .inl ⟨hnum, h2⟩, ht⟩

theorem layout_suited {E : Env} {nm : String} {o : Order} {bs : Bytes} {depth : Nat} {outer : Namespace}
    {names : List String} {ms : List Defn} {read vs : List Val} {p e : Nat}
    (h : Layout E bs depth outer nm o names read ms p vs e) (pre : List String)
    (hn : names = pre ++ ms.map Defn.name) (hnd : names.Nodup) (hl : read.length = pre.length)
    (hms : ∀ d ∈ ms, ∀ n o m, createAs E n o d.target = .ok m → ∀ bs off depth ns v k,
      parse E m bs off depth ns = .ok (v, k) → ∀ ns', Suited E ns' d v) :
    suitedMembers E ms (.struct nm (fill names vs)) := by
  induction h generalizing pre with
  | done => simp only [suitedMembers]
  | @absent read vs d ms p e hc h ih =>
    have hn' : names = (pre ++ [d.name]) ++ ms.map Defn.name := by simp [hn]
    rw [suitedMembers]
    refine ⟨.inl ?_, ih (pre ++ [d.name]) hn' (by simp [hl]) (fun d hd => hms d (List.mem_cons_of_mem _ hd))⟩
    obtain ⟨r, rfl, -⟩ := Layout.prefix h
    rw [List.map_cons] at hn
    subst hn
    simp only [getAttr, List.append_assoc, List.cons_append, List.nil_append]
    rw [fill_get _ _ _ _ _ _ hl hnd]
    rfl
  | @present read vs d ms p e k m v hc hm hv hk hs h ih =>
    have hn' : names = (pre ++ [d.name]) ++ ms.map Defn.name := by simp [hn]
    rw [suitedMembers]
    refine ⟨.inr ?_, ih (pre ++ [d.name]) hn' (by simp [hl]) (fun d hd => hms d (List.mem_cons_of_mem _ hd))⟩
    obtain ⟨k', hp, -⟩ := mapStream_ok (Ctx.clean_fresh _) hv
    obtain ⟨n', o', -, hcr⟩ := hm
    have := hms d List.mem_cons_self _ _ _ hcr _ _ _ _ _ _ hp
    obtain ⟨r, rfl, -⟩ := Layout.prefix h
    rw [List.map_cons] at hn
    subst hn
    simp only [getAttr, List.append_assoc, List.cons_append, List.nil_append]
    rw [fill_get _ _ _ _ _ _ hl hnd]
    exact this _

theorem suited_prim {E : Env} {d : Defn} (h : ∃ h k s u, d.target = .prim h k s u) (ns : Namespace) (v : Val) :
    Suited E ns d v := by
  obtain ⟨h, k, s, u, he⟩ := h
  cases d <;> simp only [Defn.target] at he <;> try cases he
  · simp only [Suited]
  · simp only [Suited]

theorem suited_prims {E : Env} {ms : List Defn} (h : ∀ d ∈ ms, ∃ h k s u, d.target = .prim h k s u) (v : Val) :
    suitedMembers E ms v := by
  induction ms with
  | nil => simp only [suitedMembers]
  | cons d ms ih =>
    rw [suitedMembers]
    exact ⟨.inr (suited_prim (h d List.mem_cons_self) _ _), ih (fun d hd => h d (List.mem_cons_of_mem _ hd))⟩

/-- What is mapped is of the right kind. -/
theorem parsed_suited (E : Env) (d : Defn) (hd : d.Every fun d => TypesDistinct d ∧ PlainlySized d) :
    ∀ nm o m, createAs E nm o d = .ok m → ∀ bs off depth ns v k,
      parse E m bs off depth ns = .ok (v, k) → ∀ ns', Suited E ns' d v := by
  suffices h : (∀ nm o m, createAs E nm o d = .ok m → ∀ bs off depth ns v k,
      parse E m bs off depth ns = .ok (v, k) → ∀ ns', Suited E ns' d v) ∧
    (∀ nm o m, createAs E nm o d.target = .ok m → ∀ bs off depth ns v k,
      parse E m bs off depth ns = .ok (v, k) → ∀ ns', Suited E ns' d v) from h.1
  induction d using Defn.ind with
  | uuid h s u =>
    refine and_self_iff.mpr ?_
    intro nm o m hm bs off depth ns v k hp ns'
    simp only [createAs, Except.ok.injEq] at hm
    subst hm
    simp only [parse, uuidParse] at hp
    simp only [Suited]
    split at hp
    · cases hp
    split at hp
    · cases hp
    split at hp
    · cases hp; trivial
    · split at hp <;> cases hp; trivial
    · split at hp <;> cases hp; trivial
  | padding h a =>
    refine and_self_iff.mpr ?_
    intro nm o m hm bs off depth ns v k hp ns'
    simp only [createAs, Except.ok.injEq] at hm
    subst hm
    simp only [parse, paddingParse] at hp
    simp only [Suited]
    split at hp
    · cases hp
    split at hp <;> cases hp
    exact ⟨_, rfl⟩
  | seq h info e ih =>
    refine and_self_iff.mpr ?_
    intro nm o m hm bs off depth ns v k hp ns'
    have hs := hd.self.2
    obtain ⟨n', eo, em, hem, -, rfl, -⟩ := createAs_seq hm
    simp only [parse] at hp
    simp only [Suited]
    split at hp
    · rename_i hk
      obtain ⟨h1, h2, h3⟩ := hs (by rw [hk]; exact nofun)
      split at hp
      · cases hp
      · rename_i hsp
        cases hp
        exact .inr ⟨fun _ => ⟨_, rfl⟩, streamParse_measured hsp h1 h2 h3 ns'⟩
    · rename_i enc hk
      obtain ⟨h1, h2, h3⟩ := hs (by rw [hk]; exact nofun)
      unfold stringParse at hp
      split at hp
      · cases hp
      · rename_i hsp
        exact .inr ⟨(by rw [hk]; exact nofun), streamParse_measured hsp h1 h2 h3 ns'⟩
    · rename_i hk
      exact .inl hk
  | struct h ms ih =>
    refine and_self_iff.mpr ?_
    intro nm o m hm bs off depth ns v k hp ns'
    have hdt := hd.self.1
    simp only [Defn.Every, everyDefn_iff] at hd
    have ih := fun d hdm => (ih d hdm (hd.2 d hdm)).2
    simp only [Suited]
    obtain ⟨hnd, vs, rfl, hlen, ⟨-, hpr, -⟩ | ⟨e, hl⟩⟩ := struct_parsed hdt hm hp
    · generalize Val.struct nm _ = w
      exact suited_prims hpr w
    · exact layout_suited hl [] rfl hnd rfl ih
  | member h d c dt vs ih =>
    simp only [Defn.Every] at hd
    have ih := ih hd.2
    refine ⟨?_, ?_⟩
    · intro nm o m hm
      simp only [createAs, Except.ok.injEq] at hm
      subst hm
      intro bs off depth ns v k hp
      simp [parse] at hp
    · intro nm o m hm bs off depth ns v k hp ns'
      simp only [Suited]
      exact ih.1 nm o m hm bs off depth ns v k hp ns'
  | _ =>
    refine and_self_iff.mpr ?_
    intro nm o m hm bs off depth ns v k hp ns'
    simp only [Suited]

/-- **C96** FoldByteStream of what MapByteStream gave returns bytes or None or raises
FoldingError. -/
theorem C96_errors (E : Env) (d : Defn) (hd : d.Every fun d => TypesDistinct d ∧ PlainlySized d) (m : DMap)
    (hm : createMap E d = .ok m) (bs : Bytes) (off depth : Nat) (c : Ctx) (hc : c.Clean) (v : Val)
    (hv : (mapStream E m bs off depth c).1 = .ok v) (ns : Namespace) :
    BytesNoneOrFoldingError (fold E m v ns) ∧
      (d.Every NeverNone → BytesOrFoldingError (fold E m v ns)) := by
  obtain ⟨k, hp, -⟩ := mapStream_ok hc hv
  have hs := parsed_suited E d hd _ _ m hm bs off depth _ v k hp ns
  have hmiss : m ≠ .missing := by rintro rfl; simp [parse] at hp
  have hdt := Defn.Every.imp (fun _ h => h.1) d hd
  exact ⟨C93_suited_partial E d hdt m hm hmiss v ns hs,
    fun hn => C93_bytes_partial E d hdt hn m hm hmiss v ns hs⟩

theorem completeFrom_cons {d : Defn} (h : ∀ h a, d ≠ .padding h (some (a + 1))) (pos : Int) (ms : List Defn) (v : Val) :
    completeFrom pos (d :: ms) v = (getAttr v d.name ≠ .pyNone ∧
      Complete d (getAttr v d.name) ∧ completeFrom (pos + d.byteSize.getD 0) ms v) := by
  conv => lhs; unfold completeFrom
  split
  · exact absurd rfl (h _ _)
  · rfl

theorem layout_complete {E : Env} {nm : String} {o : Order} {bs : Bytes} {depth : Nat} {outer : Namespace}
    {names : List String} {ms : List Defn} {read vs : List Val} {p e : Nat} {so : Order}
    (h : Layout E bs depth outer nm o names read ms p vs e) (pre : List String)
    (hn : names = pre ++ ms.map Defn.name) (hnd : names.Nodup) (hl : read.length = pre.length)
    (hpl : ∀ d ∈ ms, d.Every PlainPadded)
    (hms : ∀ d ∈ ms, ∀ s, d.target.byteSize = some s → ∀ n o m, memberNameOrder nm so d.target = .ok (n, o) →
      createAs E n o d.target = .ok m → ∀ bs off depth ns v k, Aligned (off : Nat) d →
      parse E m bs off depth ns = .ok (v, k) → Complete d v ∧ v ≠ .pyNone)
    (hso : so = o) (tot n start : Int) (hsz : structSize tot ms = some n) (hpos : start + tot = p)
    (ha : alignedFrom start p ms) :
    completeFrom tot ms (.struct nm (fill names vs)) := by
  induction h generalizing pre tot with
  | done => simp only [completeFrom]
  | @absent read vs d ms p e hc h ih =>
    exfalso
    have : truthyStr d.memInfo.condition = false := by
      by_cases hpad : ∃ h a, d = .padding h (some (a + 1))
      · obtain ⟨h, a, rfl⟩ := hpad
        rfl
      · rw [structSize_cons (fun h a e => hpad ⟨h, a, e⟩)] at hsz
        split at hsz
        · cases hsz
        · rename_i hs
          exact (target_byteSize hs).2
    cases hc with
    | cond h1 h2 => simp [truthyStr, h1, h2] at this
  | @present read vs d ms p e k m v hc hm hv hk hs h ih =>
    have hn' : names = (pre ++ [d.name]) ++ ms.map Defn.name := by simp [hn]
    have ih2 := ih (pre ++ [d.name]) hn' (by simp [hl]) (fun d hd => hpl d (List.mem_cons_of_mem _ hd))
      (fun d hd => hms d (List.mem_cons_of_mem _ hd))
    obtain ⟨k', hp, hb⟩ := mapStream_ok (Ctx.clean_fresh _) hv
    rw [hk] at hb
    cases hb
    obtain ⟨n', o', hno, hcr⟩ := hm
    have hget : getAttr (.struct nm (fill names vs)) d.name = v := by
      obtain ⟨r, rfl, -⟩ := Layout.prefix h
      rw [List.map_cons] at hn
      subst hn
      simp only [getAttr, List.append_assoc, List.cons_append, List.nil_append]
      rw [fill_get _ _ _ _ _ _ hl hnd]
      rfl
    by_cases hpad : ∃ h a, d = .padding h (some (a + 1))
    · obtain ⟨h', a, rfl⟩ := hpad
      simp only [Defn.target, createAs, Except.ok.injEq] at hcr
      subst hcr
      simp only [structSize] at hsz
      simp only [alignedFrom] at ha
      have heq : paddingSize tot (a + 1) = paddingSize p (a + 1) := by
        rw [← hpos, paddingSize_aligned ha.1]
      have hnn := paddingSize_nonneg tot a
      simp only [parse, paddingParse, calcPadding, ← heq] at hp
      split at hp
      · cases hp
      rename_i hts
      simp only [Except.ok.injEq, Prod.mk.injEq] at hp
      obtain ⟨rfl, hkk⟩ := hp
      have hki : (k : Int) = paddingSize tot (a + 1) := by omega
      simp only [completeFrom]
      refine ⟨⟨_, hget, ?_⟩, ih2 _ hsz (by push_cast; omega) (by
        have := ha.2
        rw [← heq, ← hki] at this
        exact_mod_cast this)⟩
      unfold tooSmall at hts
      simp only [decide_eq_true_eq] at hts
      simp only [slice, List.length_take, List.length_drop]
      omega
    · have hpad : ∀ h a, d ≠ .padding h (some (a + 1)) := fun h a e => hpad ⟨h, a, e⟩
      rw [structSize_cons hpad] at hsz
      rw [alignedFrom_cons hpad] at ha
      split at hsz
      · cases hsz
      rename_i s hs'
      have htgt := target_byteSize hs'
      obtain ⟨hcm, hnn⟩ := hms d List.mem_cons_self s htgt.1 _ _ _ (hso ▸ hno) hcr _ _ _ _ _ _ ha.1 hp
      have hex := (parse_aligned E bs d.target (hpl d List.mem_cons_self).target s htgt.1).2 _ _ _ hcr p (depth + 1)
        (scope nm names read outer) (aligned_target ha.1)
      rw [hp] at hex
      have hki : (k : Int) = s := hex.1
      rw [completeFrom_cons hpad, hget, hs', Option.getD_some]
      refine ⟨hnn, hcm, ih2 _ hsz (by push_cast; omega) (by
        have := ha.2
        rw [hs', Option.getD_some, ← hki] at this
        exact_mod_cast this)⟩

theorem complete_prims {ms : List Defn} (hpr : ∀ d ∈ ms, ∃ h k s u, d.target = .prim h k s u)
    (hpad : ∀ d ∈ ms, ∀ h a, d ≠ .padding h a) (v : Val) (hv : ∀ d ∈ ms, getAttr v d.name ≠ .pyNone) (pos : Int) :
    completeFrom pos ms v := by
  induction ms generalizing pos with
  | nil => simp only [completeFrom]
  | cons d ms ih =>
    rw [completeFrom_cons fun h a => hpad d List.mem_cons_self h _]
    refine ⟨hv d List.mem_cons_self, ?_, ih (fun d hd => hpr d (List.mem_cons_of_mem _ hd))
      (fun d hd => hpad d (List.mem_cons_of_mem _ hd)) (fun d hd => hv d (List.mem_cons_of_mem _ hd)) _⟩
    obtain ⟨h, k, s, u, he⟩ := hpr d List.mem_cons_self
    cases d <;> simp only [Defn.target] at he <;> try cases he
    · simp only [Complete]
    · simp only [Complete]

theorem fill_mem (nm : String) (names : List String) (hnd : names.Nodup) (vs : List Val) (hl : vs.length = names.length)
    (n : String) (hn : n ∈ names) : getAttr (.struct nm (fill names vs)) n ∈ vs := by
  obtain ⟨pre, post, rfl⟩ := List.append_of_mem hn
  have hlen : pre.length < vs.length := by rw [hl]; simp
  have hsplit : vs = vs.take pre.length ++ vs[pre.length] :: vs.drop (pre.length + 1) := by
    rw [List.getElem_cons_drop, List.take_append_drop]
  have := fill_get pre n post (vs.take pre.length) vs[pre.length] (vs.drop (pre.length + 1))
    (by rw [List.length_take]; omega) hnd
  rw [← hsplit] at this
  simp only [getAttr, this, Option.getD_some]
  exact List.getElem_mem _

/-- What is mapped has something for every member. -/
theorem parsed_complete (E : Env) (d : Defn) (hd : d.Every fun d => PlainPadded d ∧ NeverNone d) (n : Int)
    (hn : d.byteSize = some n) : ∀ nm o m, (d.orderOrNative ≠ .native → o ≠ .native) →
      createAs E nm o d = .ok m → ∀ bs off depth ns v k, Aligned (off : Nat) d →
      parse E m bs off depth ns = .ok (v, k) → Complete d v ∧ v ≠ .pyNone := by
  revert n
  suffices h : (∀ n, d.byteSize = some n → ∀ nm o m, (d.orderOrNative ≠ .native → o ≠ .native) →
      createAs E nm o d = .ok m → ∀ bs off depth ns v k, Aligned (off : Nat) d →
      parse E m bs off depth ns = .ok (v, k) → Complete d v ∧ v ≠ .pyNone) ∧
    (∀ n, d.target.byteSize = some n → ∀ nm o m, (d.target.orderOrNative ≠ .native → o ≠ .native) →
      createAs E nm o d.target = .ok m → ∀ bs off depth ns v k, Aligned (off : Nat) d →
      parse E m bs off depth ns = .ok (v, k) → Complete d v ∧ v ≠ .pyNone) from h.1
  induction d using Defn.ind with
  | prim h k s u =>
    refine and_self_iff.mpr ?_
    intro n hn nm o m ho hm bs off depth ns v k ha hp
    simp only [createAs] at hm
    split at hm
    · cases hm
    cases hm
    simp only [Complete, true_and]
    simp only [parse, primParse] at hp
    split at hp
    · cases hp
    split at hp
    · cases hp
    split at hp
    · cases hp
    rename_i x hx
    cases hp
    unfold primRead at hx
    split at hx
    · cases hx
    split at hx
    · cases hx
    exact mapValue_some hx
  | uuid h s u =>
    refine and_self_iff.mpr ?_
    intro n hn nm o m ho hm bs off depth ns v k ha hp
    have hno : o ≠ .native := ho hd.self.2
    simp only [createAs, Except.ok.injEq] at hm
    subst hm
    simp only [parse, uuidParse] at hp
    simp only [Complete]
    split at hp
    · cases hp
    split at hp
    · cases hp
    split at hp
    · exact absurd rfl hno
    · split at hp
      · rename_i hl; cases hp; exact ⟨⟨_, hl, rfl⟩, by exact nofun⟩
      · cases hp
    · split at hp
      · rename_i hl; cases hp; exact ⟨⟨_, uuidSwap_length hl, rfl⟩, by exact nofun⟩
      · cases hp
  | padding h a =>
    refine and_self_iff.mpr ?_
    intro n hn
    simp [Defn.byteSize] at hn
  | seq h info e ih =>
    refine and_self_iff.mpr ?_
    intro n hn nm o m ho hm bs off depth ns v k ha hp
    obtain ⟨n', eo, em, hem, -, rfl, -⟩ := createAs_seq hm
    simp only [Complete, true_and]
    rintro rfl
    simp only [parse] at hp
    split at hp
    · split at hp <;> cases hp
    · unfold stringParse at hp
      split at hp
      · cases hp
      split at hp
      · cases hp
      split at hp <;> cases hp
    · split at hp
      · unfold linearSeqParse at hp
        split at hp
        · cases hp
        split at hp
        · cases hp
        split at hp
        · cases hp
        split at hp
        · split at hp <;> cases hp
        · cases hp
      · unfold compositeSeqParse at hp
        split at hp
        · cases hp
        split at hp
        · cases hp
        split at hp <;> cases hp
  | struct h ms ih =>
    refine and_self_iff.mpr ?_
    intro n hn nm o m ho hm bs off depth ns v k ha hp
    have hdt := (hd.self.1).resolve_left (by rintro ⟨_, _, h⟩; cases h)
    have hpl := Defn.Every.imp (fun _ h => h.1) _ hd
    simp only [Defn.Every, everyDefn_iff] at hd hpl
    have ih := fun d hdm => (ih d hdm (hd.2 d hdm)).2
    have hsz : structSize 0 ms = some n := by
      cases ms with
      | nil => simp [Defn.byteSize] at hn
      | cons d ms => simpa only [Defn.byteSize] using hn
    simp only [Complete]
    obtain ⟨hnd, vs, rfl, hlen, ⟨hv, hpr, hpad⟩ | ⟨e, hl⟩⟩ := struct_parsed hdt hm hp
    · refine ⟨complete_prims hpr hpad _ (fun d hd => hv _ ?_) _, by exact nofun⟩
      exact fill_mem nm _ hnd vs (by simpa using hlen) _ (List.mem_map_of_mem hd)
    · refine ⟨layout_complete hl [] rfl hnd rfl hpl.2 ?_ rfl 0 n off hsz (by omega)
        (by simpa only [Aligned] using ha), by exact nofun⟩
      intro d hd s hs n' o' m' hno hcr
      exact ih d hd s hs n' o' m' (memberNameOrder_own hno) hcr
  | member h d c dt vs ih =>
    simp only [Defn.Every] at hd
    have ih := ih hd.2
    refine ⟨?_, ?_⟩
    · intro n hn nm o m ho hm
      simp only [createAs, Except.ok.injEq] at hm
      subst hm
      intro bs off depth ns v k ha hp
      simp [parse] at hp
    · intro n hn nm o m ho hm bs off depth ns v k ha hp
      simp only [Complete]
      exact ih.1 n hn nm o m ho hm bs off depth ns v k (by simpa only [Aligned] using ha) hp
  | union h ms ih =>
    refine and_self_iff.mpr ?_
    intro n hn nm o m ho hm
    simp only [createAs, Except.ok.injEq] at hm
    subst hm
    intro bs off depth ns v k ha hp
    simp [parse] at hp
  | _ =>
    refine and_self_iff.mpr ?_
    intro n hn
    simp [Defn.byteSize] at hn

/-- **C96** For a type of fixed size, mapped where it is aligned, FoldByteStream gives the
number of bytes that were mapped, if it gives bytes. -/
theorem C96_size (E : Env) (d : Defn) (hd : d.Every fun d => PlainPadded d ∧ Writable d ∧ NeverNone d)
    (n : Int) (hn : d.byteSize = some n) (m : DMap)
    (hm : createMap E d = .ok m) (bs : Bytes) (off depth : Nat) (ha : Aligned off d) (c : Ctx) (hc : c.Clean)
    (v : Val) (hv : (mapStream E m bs off depth c).1 = .ok v) (ns : Namespace) (b : Bytes)
    (hb : fold E m v ns = .ok (.bytes b)) :
    (b.length : Int) = n ∧ (mapStream E m bs off depth c).2.byteSize = some b.length := by
  obtain ⟨k, hp, hk⟩ := mapStream_ok hc hv
  have hcm := parsed_complete E d (Defn.Every.imp (fun _ h => ⟨h.1, h.2.2⟩) d hd) n hn _ _ m id hm bs off
    depth _ v k ha hp
  have hlen := C88_size_partial E d (Defn.Every.imp (fun _ h => h.2.1) d hd) n hn m hm v hcm.1 ns b hb
  have hex := (parse_aligned E bs d (Defn.Every.imp (fun _ h => h.1) d hd) n hn).2 _ _ m hm off depth c.values ha
  rw [hp] at hex
  refine ⟨hlen, ?_⟩
  rw [hk]
  congr 1
  have := hex.1
  omega

theorem exPadded_whole : exPadded.Every fun d => PlainPadded d ∧ Writable d ∧ NeverNone d := by
  have h1 := exPadded_plain
  have h2 := exPadded_writable
  simp only [exPadded, Defn.Every, everyDefn_iff, exU8, exUuid, List.mem_cons, List.not_mem_nil, or_false,
    forall_eq_or_imp, forall_eq] at h1 h2 ⊢
  exact ⟨⟨h1.1, h2.1, trivial⟩, ⟨⟨h1.2.1.1, h2.2.1.1, trivial⟩, h1.2.1.2, h2.2.1.2, trivial⟩,
    ⟨h1.2.2.1, h2.2.2.1, trivial⟩, ⟨h1.2.2.2.1, h2.2.2.2.1, trivial⟩, h1.2.2.2.2, h2.2.2.2.2, nofun⟩

/-- The structure of a byte, padding and a UUID at the offset 4: 20 bytes are mapped and
written. -/
example : (exPadded.Every fun d => PlainPadded d ∧ Writable d ∧ NeverNone d) ∧
    (exPadded.Every fun d => TypesDistinct d ∧ PlainlySized d) ∧
    exPadded.byteSize = some 20 ∧ Aligned (4 : Nat) exPadded ∧
    ∃ m, createMap exEnv exPadded = .ok m ∧
      (mapStream exEnv m [0, 0, 0, 0, 7, 0, 0, 0, 0, 1, 2, 3, 4, 5, 6, 7, 8, 9, 10, 11, 12, 13, 14, 15] 4 0 {}).1 =
        .ok (exPaddedValue (.int 7) [0, 0, 0]) ∧
      fold exEnv m (exPaddedValue (.int 7) [0, 0, 0]) [] =
        .ok (.bytes [7, 0, 0, 0, 0, 1, 2, 3, 4, 5, 6, 7, 8, 9, 10, 11, 12, 13, 14, 15]) := by
  refine ⟨exPadded_whole, ?_, rfl, exPadded_aligned, _, rfl, rfl, rfl⟩
  simp only [exPadded, Defn.Every, everyDefn_iff, exU8, exUuid, TypesDistinct, PlainlySized, List.mem_cons,
    List.not_mem_nil, or_false, forall_eq_or_imp, forall_eq, and_true]
  have := exPadded_writable.self
  simpa only [exPadded, Writable, exU8, exUuid] using this

/-- **C96** A stream whose size the context gives can be mapped, but FoldByteStream of what
was mapped raises MappingError, also with the same context values: the members of a
structure are folded without them. -/
theorem C96_values : ∃ m, createMap exEnvNames exGiven = .ok m ∧
    (mapStream exEnvNames m [65, 66] 0 0 { values := [("n", .int 2)] }).1 =
      .ok (.struct "T" [("data", .bytes [65, 66])]) ∧
    fold exEnvNames m (.struct "T" [("data", .bytes [65, 66])]) [("n", .int 2)] = .error .mapping :=
  ⟨_, rfl, rfl, rfl⟩

/-- **C96** FoldingError is possible: a string of four bytes that ends at its terminator
can be mapped but not folded. -/
theorem C96_string : ∃ m v, createMap exEnv (exStr (some 4) (some (.bytes [0]))) = .ok m ∧
    (mapStream exEnv m [65, 66, 0, 67] 0 0 {}).1 = .ok v ∧ fold exEnv m v [] = .error .folding :=
  ⟨_, _, rfl, rfl, rfl⟩

end Dtf
