import Verif.Props.FoldSize
import Verif.Props.Folding
import Verif.Props.Errors
/-!
# Property C93: what FoldByteStream raises

C32 is about maps that write with one operation. Here: maps of any kind.
-/
namespace Dtf

namespace Spec

/-- The size of a stream or string can be told: it can be evaluated, or none is
declared (then the terminator, if there is one, must be a byte string). The number of
elements counts only if the size of an element is known. -/
def Measured (E : Env) (info : SeqInfo) (es : Option Int) (ns : Namespace) : Prop :=
  (∃ n, Sized E info es ns n) ∨
  (info.dataSize = none ∧ info.dataSizeExpr = none ∧
    ((info.numElements = none ∧ info.numElementsExpr = none) ∨ es = none) ∧
    ∀ t, info.terminator = some t → ∃ b, t = .bytes b)

mutual
/-- A value of the right kind, whatever its size or range: byte strings for streams and
padding, UUIDs or objects of built-in types for UUIDs, and the same for the members of a
structure that are not None. Sizes of streams and strings must be known: those of members are
evaluated with the structure as the only name. -/
def Suited (E : Env) (ns : Namespace) (d : Defn) (v : Val) : Prop :=
  match d with
  | .uuid _ _ _ => NoForeignObject v
  | .padding _ _ => ∃ b, v = .bytes b
  | .seq _ info e => info.kind = .sequence ∨
      ((info.kind = .stream → ∃ b, v = .bytes b) ∧ Measured E info e.byteSize ns)
  | .struct _ ms => suitedMembers E ms v
  | .member _ d _ _ _ => Suited E ns d v
  | _ => True
termination_by structural d
def suitedMembers (E : Env) (ds : List Defn) (v : Val) : Prop :=
  match ds with
  | [] => True
  | d :: ds => (getAttr v d.name = .pyNone ∨ Suited E [(v.typeName, v)] d (getAttr v d.name)) ∧
      suitedMembers E ds v
termination_by structural ds
end

/-- Types of which FoldByteStream never gives None: UUIDs declare a byte order, and
sequences have a fixed number or size of elements that are not composite. -/
def NeverNone : Defn → Prop
  | .uuid h _ _ => h.order ≠ .native
  | .seq _ info e => info.kind = .sequence →
      e.isComposite = false ∧ info.dataSizeExpr = none ∧ info.numElementsExpr = none ∧ info.terminator = none
  | _ => True

/-- Bytes, None or FoldingError. -/
def BytesNoneOrFoldingError (r : Except Err Val) : Prop :=
  r = .ok .pyNone ∨ BytesOrFoldingError r

/-- The size expressions of streams and strings give no floating-point numbers (but negative ones): folding with
such a size is not modelled. -/
def NoFloatSizes (E : Env) : Defn → Prop
  | .seq _ info _ => info.kind ≠ .sequence → FloatSizes E info
  | _ => True

end Spec
open Spec

theorem streamSize_measured {E : Env} {info : SeqInfo} {ei : ElemInfo} {ns : Namespace}
    (h : Measured E info ei.byteSize ns) :
    (∃ n, streamSize E info ei ns = .ok (some n)) ∨
    (streamSize E info ei ns = .ok none ∧ ∀ t, info.terminator = some t → ∃ b, t = .bytes b) := by
  rcases h with ⟨n, h⟩ | ⟨h1, h2, h3, h4⟩
  · exact .inl ⟨n, streamSize_of h⟩
  · refine .inr ⟨?_, h4⟩
    rcases h3 with ⟨h3, h5⟩ | h3
    · simp [streamSize, SeqInfo.hasDataSize, SeqInfo.hasNumElements, h1, h2, h3, h5]
    · simp [streamSize, SeqInfo.hasDataSize, h1, h2, h3]

theorem streamFold_suited {E : Env} {info : SeqInfo} {ei : ElemInfo} {ns : Namespace} (b : Bytes)
    (h : Measured E info ei.byteSize ns) : BytesOrFoldingError (streamFold E info ei (.bytes b) ns) := by
  unfold streamFold
  rw [streamFold_size]
  rcases streamSize_measured h with ⟨n, h⟩ | ⟨h, ht⟩
  · rw [h]
    simp only [Val.len]
    split
    · exact .inl rfl
    · exact .inr ⟨_, rfl⟩
  · rw [h]
    simp only
    split
    · exact .inl rfl
    · exact .inr ⟨_, rfl⟩
    · rename_i hno hx
      obtain ⟨b, rfl⟩ := ht _ hx
      exact absurd rfl (hno b)

/-- The loop over the members: what it gives are byte strings. -/
theorem foldMembers_suited (E : Env) (cls : String) (so : Order) (v : Val) (ms : List Defn)
    (hms : ∀ d ∈ ms, ∀ n o m, memberNameOrder cls so d.target = .ok (n, o) →
      createAs E n o d.target = .ok m → m ≠ .missing →
      ∀ x ns, Suited E ns d.target x → BytesNoneOrFoldingError (fold E m x ns) ∧
        (d.Every NeverNone → fold E m x ns ≠ .ok .pyNone))
    (maps : List DMap) (hmo : All2 (MapOf E cls so) ms maps) (hs : suitedMembers E ms v) :
    (foldMembers E v (ms.map Defn.memInfo) maps = .error .folding) ∨
    (foldMembers E v (ms.map Defn.memInfo) maps = .ok none ∧ ¬ ∀ d ∈ ms, d.Every NeverNone) ∨
    (∃ parts b, foldMembers E v (ms.map Defn.memInfo) maps = .ok (some parts) ∧ joinBytes parts = some b) := by
  induction hmo with
  | nil => exact .inr (.inr ⟨[], [], by simp [foldMembers], rfl⟩)
  | @cons d m ms maps hm hmo ih =>
    rw [suitedMembers] at hs
    obtain ⟨hs1, hs2⟩ := hs
    have ih := ih (fun d hd => hms d (List.mem_cons_of_mem _ hd)) hs2
    have ih' : (foldMembers E v (ms.map Defn.memInfo) maps = .error .folding) ∨
        (foldMembers E v (ms.map Defn.memInfo) maps = .ok none ∧ ¬ ∀ d' ∈ d :: ms, d'.Every NeverNone) ∨
        (∃ parts b, foldMembers E v (ms.map Defn.memInfo) maps = .ok (some parts) ∧
          joinBytes parts = some b) :=
      ih.imp id (Or.imp (fun h => ⟨h.1, fun h' => h.2 (fun d hd => h' d (List.mem_cons_of_mem _ hd))⟩) id)
    have hmd := hms d List.mem_cons_self
    obtain ⟨n', o', hno, hcr⟩ := hm
    rw [List.map_cons]
    rw [foldMembers.eq_def]
    simp only [memInfo_name]
    split
    · exact ih'
    rename_i hmiss
    split
    · exact ih'
    rename_i x hx
    have hs' : Suited E [(v.typeName, v)] d.target (getAttr v d.name) := by
      have := hs1.resolve_left hx
      cases d <;> simp only [Defn.target] <;> first | exact this | (rw [Suited] at this; exact this)
    obtain ⟨h1, h2⟩ := hmd n' o' m hno hcr hmiss _ _ hs'
    split
    · rename_i e he
      rw [he] at h1
      rcases h1 with h1 | h1 | ⟨b, h1⟩
      · cases h1
      · cases h1; exact .inl rfl
      · cases h1
    · rename_i he
      exact .inr (.inl ⟨rfl, fun h => h2 (h d List.mem_cons_self) he⟩)
    · rename_i b hb he
      rw [he] at h1
      have hby : ∃ p, b = .bytes p := by
        rcases h1 with h1 | h1 | ⟨p, h1⟩
        · cases h1; exact absurd rfl hb
        · cases h1
        · cases h1; exact ⟨p, rfl⟩
      obtain ⟨p, rfl⟩ := hby
      rcases ih with ih | ⟨ih, hn⟩ | ⟨parts, q, ih, hj⟩
      · rw [ih]; exact .inl rfl
      · rw [ih]
        exact .inr (.inl ⟨rfl, fun h' => hn (fun d hd => h' d (List.mem_cons_of_mem _ hd))⟩)
      · rw [ih]
        exact .inr (.inr ⟨_, p ++ q, rfl, joinBytes_cons.2 ⟨p, q, rfl, hj, rfl⟩⟩)

theorem memberNameOrder_own {cls : String} {so : Order} {d : Defn} {n : String} {o : Order}
    (h : memberNameOrder cls so d = .ok (n, o)) (hd : d.orderOrNative ≠ .native) : o ≠ .native := by
  unfold memberNameOrder at h
  split at h
  · cases h; exact hd
  · split at h
    · cases h
    · rename_i hso _ _; cases h; exact hso
    · rename_i o' hne _
      cases h
      exact hne

theorem fold_suited (E : Env) (d : Defn) (hd : d.Every TypesDistinct) :
    ∀ nm o m, createAs E nm o d = .ok m → (d.orderOrNative ≠ .native → o ≠ .native) → m ≠ .missing →
      ∀ v ns, Suited E ns d v → BytesNoneOrFoldingError (fold E m v ns) ∧
        (d.Every NeverNone → fold E m v ns ≠ .ok .pyNone) := by
  suffices h : (∀ nm o m, createAs E nm o d = .ok m → (d.orderOrNative ≠ .native → o ≠ .native) → m ≠ .missing →
      ∀ v ns, Suited E ns d v → BytesNoneOrFoldingError (fold E m v ns) ∧
        (d.Every NeverNone → fold E m v ns ≠ .ok .pyNone)) ∧
    (∀ nm o m, createAs E nm o d.target = .ok m → (d.target.orderOrNative ≠ .native → o ≠ .native) → m ≠ .missing →
      ∀ v ns, Suited E ns d.target v → BytesNoneOrFoldingError (fold E m v ns) ∧
        (d.Every NeverNone → fold E m v ns ≠ .ok .pyNone)) from h.1
  have plain : ∀ r, BytesOrFoldingError r → BytesNoneOrFoldingError r ∧ (∀ P : Prop, P → r ≠ .ok .pyNone) := by
    intro r hr
    refine ⟨.inr hr, fun _ _ h => ?_⟩
    rcases hr with hr | ⟨b, hr⟩ <;> rw [h] at hr <;> cases hr
  induction d using Defn.ind with
  | prim h k s u =>
    refine and_self_iff.mpr ?_
    intro nm o m hm ho hne v ns hv
    simp only [createAs] at hm
    split at hm
    · cases hm
    cases hm
    have := plain _ (C32_partial E (.prim { h with name := nm, order := o } k s u) (by trivial) v ns)
    exact ⟨this.1, this.2 _⟩
  | uuid h s u =>
    refine and_self_iff.mpr ?_
    intro nm o m hm ho hne v ns hv
    simp only [createAs, Except.ok.injEq] at hm
    subst hm
    rw [Suited] at hv
    by_cases hn : o = .native
    · subst hn
      refine ⟨.inl (by simp [fold, uuidFold]), ?_⟩
      intro hnn
      exact absurd rfl (ho hnn.self)
    · have := plain _ (C32_uuid_partial E { h with name := nm, order := o } s u hn v hv ns)
      exact ⟨this.1, this.2 _⟩
  | padding h a =>
    refine and_self_iff.mpr ?_
    intro nm o m hm ho hne v ns hv
    simp only [createAs, Except.ok.injEq] at hm
    subst hm
    rw [Suited] at hv
    obtain ⟨b, rfl⟩ := hv
    exact ⟨.inr (.inr ⟨b, by simp [fold]⟩), fun _ => by simp [fold]⟩
  | seq h info e ih =>
    refine and_self_iff.mpr ?_
    intro nm o m hm ho hne v ns hv
    rw [Suited] at hv
    obtain ⟨n', eo, em, hem, -, hmm, -⟩ := createAs_seq hm
    subst hmm
    by_cases hk : info.kind = .sequence
    · by_cases hl : seqLinear info ⟨e.byteSize, e.isComposite, e.terminator?⟩
      · have := plain _ (C32_partial E (.seq { h with name := nm, order := o } info
          ⟨e.byteSize, e.isComposite, e.terminator?⟩ (Defn.seq h info e).byteSize em) ⟨hk, hl⟩ v ns)
        exact ⟨this.1, this.2 _⟩
      · simp only [fold, hk]
        rw [if_neg hl]
        refine ⟨.inl rfl, ?_⟩
        intro hnn
        obtain ⟨a, b, c, d⟩ := hnn.self hk
        exact absurd (by simp [seqLinear, a, b, c, d]) hl
    · obtain ⟨hv1, hv2⟩ := hv.resolve_left hk
      have : BytesOrFoldingError (fold E (.seq { h with name := nm, order := o } info
          ⟨e.byteSize, e.isComposite, e.terminator?⟩ (Defn.seq h info e).byteSize em) v ns) := by
        rw [fold]
        split
        · rename_i hk'
          obtain ⟨b, rfl⟩ := hv1 hk'
          exact streamFold_suited b hv2
        · unfold stringFold
          split
          · split
            · exact .inl rfl
            · exact streamFold_suited _ hv2
          · exact .inl rfl
        · rename_i hk'
          exact absurd hk' hk
      have := plain _ this
      exact ⟨this.1, this.2 _⟩
  | struct h ms ih =>
    refine and_self_iff.mpr ?_
    intro nm o m hm ho hne v ns hv
    have hp := hd.self
    simp only [Defn.Every, everyDefn_iff] at hd
    have ih := fun d hdm => (ih d hdm (hd.2 d hdm)).2
    rw [Suited] at hv
    obtain ⟨io, infos, maps, l, -, hmem, -, rfl, -⟩ := createAs_struct hm
    have hinf := (createMembers_all E nm o (fun _ => True) ms (by simp) [] (by simp) infos maps hmem).1
    have hmo := createMembers_mapOf E nm o ms hp ms (fun d hd => hd) [] (by simp) _ _ hmem
    cases l with
    | true =>
      have := plain _ (C32_partial E (.struct { h with name := nm, order := o } (Defn.struct h ms).byteSize true io
        infos maps) (by trivial) v ns)
      exact ⟨this.1, this.2 _⟩
    | false =>
      simp only [fold, Bool.false_eq_true, if_false]
      subst hinf
      have := foldMembers_suited E nm o v ms
        (fun d hdm n o m hno hcr hmiss => ih d hdm n o m hcr (memberNameOrder_own hno) hmiss) maps hmo hv
      rcases this with hf | ⟨hf, hn⟩ | ⟨parts, b, hf, hj⟩
      · rw [hf]
        have := plain _ (.inl rfl : BytesOrFoldingError (.error .folding))
        exact ⟨this.1, this.2 _⟩
      · rw [hf]
        refine ⟨.inl rfl, ?_⟩
        intro hnn
        simp only [Defn.Every, everyDefn_iff] at hnn
        exact absurd hnn.2 hn
      · rw [hf]
        simp only [hj]
        have := plain _ (.inr ⟨b, rfl⟩ : BytesOrFoldingError (.ok (.bytes b)))
        exact ⟨this.1, this.2 _⟩
  | member h d c dt vs ih =>
    simp only [Defn.Every] at hd
    have ih := ih hd.2
    refine ⟨?_, ?_⟩
    · intro nm o m hm ho hne
      simp only [createAs, Except.ok.injEq] at hm
      exact absurd hm.symm hne
    · intro nm o m hm ho hne v ns hv
      have := ih.1 nm o m hm ho hne v ns hv
      refine ⟨this.1, fun hn => this.2 ?_⟩
      simp only [Defn.Every] at hn
      exact hn.2
  | group h base ident dflt ms =>
    refine and_self_iff.mpr ?_
    intro nm o m hm ho hne v ns hv
    obtain ⟨dm, bm, keys, maps, -, -, -, -, rfl⟩ := createAs_group hm
    simp only [fold]
    have := plain _ (.inl rfl : BytesOrFoldingError (.error .folding))
    exact ⟨this.1, this.2 _⟩
  | _ =>
    refine and_self_iff.mpr ?_
    intro nm o m hm ho hne v ns hv
    simp only [createAs, Except.ok.injEq] at hm
    subst hm
    first
    | exact absurd rfl hne
    | simp only [fold]
      have := plain _ (.inl rfl : BytesOrFoldingError (.error .folding))
      exact ⟨this.1, this.2 _⟩

/-! ### C93: what FoldByteStream raises -/

/-- **C93** FoldByteStream of a map of any kind returns a byte string or None, or raises
FoldingError, for values of the right kind. -/
theorem C93_suited_partial (E : Env) (d : Defn) (hd : d.Every TypesDistinct) (m : DMap)
    (hm : createMap E d = .ok m) (hne : m ≠ .missing) (v : Val) (ns : Namespace) (hv : Suited E ns d v) :
    BytesNoneOrFoldingError (fold E m v ns) :=
  (fold_suited E d hd _ _ m hm id hne v ns hv).1

/-- **C93** It returns None for UUIDs without byte order and sequences folded element by
element only. -/
theorem C93_bytes_partial (E : Env) (d : Defn) (hd : d.Every TypesDistinct) (hn : d.Every NeverNone) (m : DMap)
    (hm : createMap E d = .ok m) (hne : m ≠ .missing) (v : Val) (ns : Namespace) (hv : Suited E ns d v) :
    BytesOrFoldingError (fold E m v ns) := by
  obtain ⟨h1, h2⟩ := fold_suited E d hd _ _ m hm id hne v ns hv
  exact h1.resolve_left (h2 hn)

/-- The classes of the errors of the loop over the members. -/
theorem foldMembers_classes (E : Env) (v : Val) (maps : List DMap)
    (hmaps : ∀ m ∈ maps, m ≠ .missing → ∀ x ns e, fold E m x ns = .error e →
      e = .folding ∨ e = .mapping ∨ e = .type) (infos : List MemInfo) (e : Err)
    (h : foldMembers E v infos maps = .error e) : e = .folding ∨ e = .mapping ∨ e = .type := by
  induction maps generalizing infos with
  | nil => simp [foldMembers] at h
  | cons m maps ih =>
    have ih := ih (fun m hm => hmaps m (List.mem_cons_of_mem _ hm))
    cases infos with
    | nil => simp [foldMembers] at h
    | cons i infos =>
      rw [foldMembers.eq_def] at h
      simp only at h
      split at h
      · exact ih _ h
      rename_i hmiss
      split at h
      · exact ih _ h
      split at h
      · rename_i e' he
        cases h
        exact hmaps m List.mem_cons_self hmiss _ _ _ he
      · cases h
      · split at h
        · rename_i e' he
          cases h
          exact ih _ he
        · cases h
        · cases h

/-- The classes of the errors of a map. -/
theorem fold_classes (E : Env) (m : DMap)
    (hm : m.Every (fun m => ∀ h info ei bsz e, m = .seq h info ei bsz e → info.kind ≠ .sequence → FloatSizes E info)) :
    m ≠ .missing → ∀ v ns e, fold E m v ns = .error e → e = .folding ∨ e = .mapping ∨ e = .type := by
  have one : ∀ m v ns e, SingleOperation m → fold E m v ns = .error e → e = .folding := by
    intro m v ns e hs he
    rcases C32_partial E m hs v ns with h | ⟨b, h⟩ <;> rw [he] at h <;> cases h
    rfl
  have stream : ∀ info ei v ns e, FloatSizes E info → info.kind ≠ .sequence →
      streamFold E info ei v ns = .error e → e = .folding ∨ e = .mapping ∨ e = .type := by
    intro info ei v ns e hfl hk he
    unfold streamFold at he
    split at he
    · rename_i e' hsz
      cases he
      exact .inr (.inl (calcDataSize_errors hfl hk hsz))
    · split at he
      · cases he; exact .inr (.inr rfl)
      · split at he
        · cases he; exact .inl rfl
        · cases he
    · split at he
      · cases he; exact .inl rfl
      · split at he
        · cases he
        · cases he; exact .inr (.inr rfl)
      · cases he; exact .inr (.inr rfl)
  induction m using DMap.ind with
  | missing => intro h; exact absurd rfl h
  | prim h k s u =>
    intro _ v ns e he
    exact .inl (one _ v ns e (by trivial) he)
  | uuid h s u =>
    intro _ v ns e he
    simp only [fold, uuidFold] at he
    split at he
    · cases he
    all_goals
      split at he
      · cases he
      · cases he; exact .inl rfl
  | padding h a =>
    intro _ v ns e he
    simp [fold] at he
  | seq h info ei b em ih =>
    intro _ v ns e he
    simp only [DMap.Every] at hm
    have hfl := hm.1 _ _ _ _ _ rfl
    rw [fold] at he
    split at he
    · rename_i hk
      have hk : info.kind ≠ .sequence := by rw [hk]; exact nofun
      exact stream _ _ _ _ _ (hfl hk) hk he
    · rename_i enc hk
      have hk : info.kind ≠ .sequence := by rw [hk]; exact nofun
      unfold stringFold at he
      split at he
      · split at he
        · cases he; exact .inl rfl
        · exact stream _ _ _ _ _ (hfl hk) hk he
      · cases he; exact .inl rfl
    · split at he
      · unfold linearSeqFold at he
        split at he
        · split at he
          · cases he
          · cases he; exact .inl rfl
        · cases he; exact .inl rfl
      · cases he
  | struct h b l io infos maps ih =>
    intro _ v ns e he
    simp only [DMap.Every, everyMap_iff] at hm
    simp only [fold] at he
    split at he
    · unfold linearStructFold at he
      split at he
      · cases he; exact .inl rfl
      · split at he
        · cases he
        · cases he; exact .inl rfl
    · split at he
      · rename_i e' hf
        cases he
        exact foldMembers_classes E v maps (fun m hmm hne => ih m hmm (hm.2 m hmm) hne) infos _ hf
      · cases he
      · split at he
        · cases he; exact .inr (.inr rfl)
        · cases he
  | constant | enumeration | format =>
    intro _ v ns e he
    simp [fold] at he
    exact .inl he.symm
  | group =>
    intro _ v ns e he
    simp [fold] at he
    exact .inl he.symm

/-- **C93** Whatever the value, FoldByteStream raises nothing but FoldingError, MappingError
and TypeError. -/
theorem C93_classes (E : Env) (d : Defn) (hd : d.Every (NoFloatSizes E)) (m : DMap)
    (hm : createMap E d = .ok m) (hne : m ≠ .missing) (v : Val) (ns : Namespace) (e : Err)
    (he : fold E m v ns = .error e) : e = .folding ∨ e = .mapping ∨ e = .type := by
  refine fold_classes E m ?_ hne v ns e he
  refine createAs_every (P := NoFloatSizes E) ?_ d _ _ m hm hd
  intro d nm o m hm hp h info ei bsz em heq hk
  cases d with
  | seq h' info' e' =>
    obtain ⟨_, _, _, -, -, hmm, -⟩ := createAs_seq hm
    rw [heq] at hmm
    cases hmm
    exact hp hk
  | prim =>
    simp only [createAs] at hm
    split at hm
    · cases hm
    · cases hm; cases heq
  | struct =>
    obtain ⟨_, _, _, _, -, -, -, hmm, -⟩ := createAs_struct hm
    rw [heq] at hmm
    cases hmm
  | group =>
    obtain ⟨_, _, _, _, -, -, -, -, hmm⟩ := createAs_group hm
    rw [heq] at hmm
    cases hmm
  | _ =>
    simp only [createAs, Except.ok.injEq] at hm
    rw [heq] at hm
    cases hm

/-- A structure of a byte, a stream of two bytes and padding to a multiple of four. -/
def exRecordOf (info : SeqInfo) : Defn :=
  .struct { name := "record" }
    [.member { name := "kind" } exU8 none (some "uint8") none, .seq { name := "data" } info exU8,
      .padding { name := "fill" } (some 4)]

def exTwoOctets : SeqInfo := { kind := .stream, elementDataType := some "uint8", dataSize := some 2 }

/-- **C93** (refuted) A number in place of the bytes of a stream, or of padding, raises TypeError. -/
theorem C93_type_refuted : ∃ m, createMap exEnv (exRecordOf exTwoOctets) = .ok m ∧
    fold exEnv m (.struct "record" [("kind", .int 7), ("data", .int 5)]) [] = .error .type ∧
    fold exEnv m (.struct "record" [("kind", .int 7), ("data", .bytes [1, 2]), ("fill", .int 0)]) [] = .error .type :=
  ⟨_, rfl, rfl, rfl⟩

/-- **C93** (refuted) A size that cannot be evaluated raises MappingError. -/
theorem C93_mapping_refuted : ∃ m,
    createMap exEnv (exRecordOf { kind := .stream, elementDataType := some "uint8", dataSizeExpr := some "record.size" }) =
      .ok m ∧
    fold exEnv m (.struct "record" [("kind", .int 7), ("data", .bytes [1, 2])]) [] = .error .mapping :=
  ⟨_, rfl, rfl⟩

/-- The hypotheses at work: bytes of the right and of the wrong number, and a value out of
range. -/
example : (exRecordOf exTwoOctets).Every TypesDistinct ∧ (exRecordOf exTwoOctets).Every NeverNone ∧
    ∃ m, createMap exEnv (exRecordOf exTwoOctets) = .ok m ∧ m ≠ .missing ∧
    (∀ x b p, Suited exEnv [] (exRecordOf exTwoOctets)
      (.struct "record" [("kind", x), ("data", .bytes b), ("fill", .bytes p)])) ∧
    fold exEnv m (.struct "record" [("kind", .int 7), ("data", .bytes [1, 2]), ("fill", .bytes [0])]) [] =
      .ok (.bytes [7, 1, 2, 0]) ∧
    fold exEnv m (.struct "record" [("kind", .int 7), ("data", .bytes [1]), ("fill", .bytes [0])]) [] =
      .error .folding ∧
    fold exEnv m (.struct "record" [("kind", .int 256), ("data", .bytes [1, 2]), ("fill", .bytes [0])]) [] =
      .error .folding := by
  refine ⟨?_, ?_, _, rfl, by exact nofun, ?_, rfl, rfl, rfl⟩
  · simp only [exRecordOf, Defn.Every, everyDefn_iff, exU8, TypesDistinct]
    refine ⟨⟨?_, ?_⟩, ?_⟩
    · intro x hx y hy
      simp only [List.mem_cons, List.not_mem_nil, or_false] at hx hy
      rcases hx with rfl | rfl | rfl <;> rcases hy with rfl | rfl | rfl <;>
        simp [Defn.target, Defn.name, Defn.hdr]
    · intro x hx
      simp only [List.mem_cons, List.not_mem_nil, or_false] at hx
      rcases hx with rfl | rfl | rfl <;> decide
    · intro d hd
      simp only [List.mem_cons, List.not_mem_nil, or_false] at hd
      rcases hd with rfl | rfl | rfl <;> simp [Defn.Every, TypesDistinct]
  · simp only [exRecordOf, Defn.Every, everyDefn_iff, exU8, NeverNone, true_and]
    intro d hd
    simp only [List.mem_cons, List.not_mem_nil, or_false] at hd
    rcases hd with rfl | rfl | rfl <;> simp [Defn.Every, NeverNone, exTwoOctets]
  · intro x b p
    simp only [exRecordOf, Suited, suitedMembers]
    refine ⟨.inr ?_, .inr (.inr ⟨fun _ => ⟨b, rfl⟩, .inl ⟨2, .inl (by simp [Evaluates, exTwoOctets])⟩⟩), .inr ⟨p, rfl⟩, trivial⟩
    simp [exU8, Suited]

end Dtf
