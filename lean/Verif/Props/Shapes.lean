import Verif.Props.Sequences
import Verif.Props.Structures
import Verif.Bounds
import Verif.RoundTrip
import Verif.Props.Locality
/-!
# Property C116: mapped values have the shape of their type
-/
namespace Dtf

namespace Spec

/-- `Shaped d v`: the value `v` has the shape of the type `d`. -/
inductive Shaped : Defn → Val → Prop
  /-- An integer of `n` bytes is a number in the range of such integers. -/
  | unsigned {h : Hdr} {n : Nat} {u : String} {i : Int} (h0 : 0 ≤ i) (h1 : i < 256 ^ n) :
      Shaped (.prim h (.integer true) (.bytes n) u) (.int i)
  | signed {h : Hdr} {n : Nat} {u : String} {i : Int} (h0 : -(256 ^ n) ≤ 2 * i) (h1 : 2 * i < 256 ^ n) :
      Shaped (.prim h (.integer false) (.bytes n) u) (.int i)
  | boolean {h : Hdr} {f t : Option Int} {s : Size} {u : String} (b : Bool) :
      Shaped (.prim h (.boolean f t) s u) (.bool b)
  /-- A character of `n` bytes is a text of one character, in the range of the positive signed integers. -/
  | character {h : Hdr} {n : Nat} {u : String} {c : Nat} (hc : c < 0x110000) (hn : c < 2 ^ (8 * n - 1)) :
      Shaped (.prim h .character (.bytes n) u) (.str [c])
  /-- The number is known by its bits as a double. -/
  | float {h : Hdr} {s : Size} {u : String} {bits : Nat} (hb : s = .bytes 8 → bits < 256 ^ 8) :
      Shaped (.prim h .floatingPoint s u) (.float bits)
  | uuid {h : Hdr} {s : Size} {u : String} {b : Bytes} (hb : b.length = 16) : Shaped (.uuid h s u) (.uuid b)
  /-- Only a UUID whose byte order is left open can be None. -/
  | noUuid {h : Hdr} {s : Size} {u : String} (ho : h.order = .native) : Shaped (.uuid h s u) .pyNone
  /-- Padding is fewer bytes than the alignment size. -/
  | padding {h : Hdr} {a : Nat} {b : Bytes} (hb : b.length < a) : Shaped (.padding h (some a)) (.bytes b)
  /-- A stream is bytes; as many as its data size if that is a number. -/
  | stream {h : Hdr} {info : SeqInfo} {e : Defn} {b : Bytes} (hk : info.kind = .stream)
      (hz : ∀ z, info.dataSize = some z → z ≠ 0 → (b.length : Int) = z) : Shaped (.seq h info e) (.bytes b)
  /-- A string is a text. -/
  | string {h : Hdr} {info : SeqInfo} {e : Defn} {enc : String} (hk : info.kind = .string enc) (cs : List Nat) :
      Shaped (.seq h info e) (.str cs)
  /-- A sequence is a tuple of elements of the shape of its element type; as many as its number of elements
  if that is a number and nothing else says where it ends. -/
  | sequence {h : Hdr} {info : SeqInfo} {e : Defn} {vs : List Val} (hk : info.kind = .sequence)
      (hn : ∀ n, info.numElements = some n → n ≠ 0 → info.dataSize = none → info.dataSizeExpr = none →
        info.terminator = none → (vs.length : Int) = n)
      (hv : ∀ v ∈ vs, Shaped e v) : Shaped (.seq h info e) (.tuple vs)
  /-- A structure is an object that has an attribute for each member, in order and by its name, and no other;
  the value of the attribute has the shape of the member. The class of the object has the name of the structure,
  and can have another only if the structure leaves its byte order open. -/
  | struct {h : Hdr} {ms : List Defn} {cls : String} {vs : List Val} (hc : cls = h.name ∨ h.order = .native) (hl : vs.length = ms.length)
      (hv : ∀ (i : Nat) (d : Defn) (v : Val), ms[i]? = some d → vs[i]? = some v → Shaped d v) :
      Shaped (.struct h ms) (.struct cls ((ms.map Defn.name).zip vs))
  /-- Only a member with a condition can be absent. -/
  | absent {h : Hdr} {t : Defn} {c : String} {tn : Option String} {sup : Option (List Lit)} (hc : c ≠ "") :
      Shaped (.member h t (some c) tn sup) .pyNone
  /-- The value of a member has the shape of its type and is one of the supported values. -/
  | present {h : Hdr} {t : Defn} {c tn : Option String} {sup : Option (List Lit)} {v : Val} (hv : Shaped t v)
      (hs : Supported (.member h t c tn sup) v) : Shaped (.member h t c tn sup) v
  /-- A value of a group has the shape of one of its members or of its default. -/
  | group {h : Hdr} {base : Defn} {ident : String} {dflt : Option Defn} {ms : List Defn} {d : Defn} {v : Val}
      (hd : d ∈ ms ∨ dflt = some d) (hv : Shaped d v) : Shaped (.group h base ident dflt ms) v

end Spec
open Spec

theorem shaped_prim {E : Env} {o : Order} {h : Hdr} {k : PrimKind} {s : Size} {u : String} {c : Code} {b : Bytes} {x : Val}
    (hc : primCode k s = some c) (hb : b.length ≤ c.size) (hx : mapValue k (unpackOne E o c b) = some x) :
    Shaped (.prim h k s u) x := by
  have hu := unsignedOf_lt (E.isLittle o) b
  have hu : unsignedOf (E.isLittle o) b < 256 ^ c.size :=
    Nat.lt_of_lt_of_le hu (Nat.pow_le_pow_right (by omega) hb)
  cases k with
  | boolean f t =>
    unfold mapValue at hx
    simp only at hx
    have : ∃ b, x = .bool b := by
      repeat' split at hx
      all_goals first | (cases hx; exact ⟨_, rfl⟩) | cases hx
    obtain ⟨b, rfl⟩ := this
    exact .boolean b
  | character =>
    unfold mapValue at hx
    simp only at hx
    split at hx
    · rename_i i hi
      split at hx
      · rename_i hr
        cases hx
        have hs : (s = .bytes 1 ∧ c = .b) ∨ (s = .bytes 2 ∧ c = .h) ∨ (s = .bytes 4 ∧ c = .i) := by
          unfold primCode at hc
          split at hc <;> simp_all
        rcases hs with ⟨rfl, rfl⟩ | ⟨rfl, rfl⟩ | ⟨rfl, rfl⟩
        all_goals
          simp only [unpackOne, Code.size, Val.int.injEq] at hi hu
          refine .character (by omega) ?_
          unfold toSigned at hi
          split at hi <;> omega
      · cases hx
    · cases hx
  | floatingPoint =>
    simp only [mapValue, Option.some.injEq] at hx
    subst hx
    unfold primCode at hc
    split at hc <;> cases hc <;> simp_all [unpackOne, Code.size]
    · exact .float fun h => by cases h
    · exact .float fun _ => hu
  | integer sg =>
    simp only [mapValue, Option.some.injEq] at hx
    subst hx
    unfold primCode at hc
    split at hc <;> cases hc <;> simp_all only [unpackOne, Code.size, reduceCtorEq, PrimKind.integer.injEq]
    all_goals
      subst_vars
      first
        | exact .unsigned (by omega) (by omega)
        | exact .signed (by unfold toSigned; split <;> omega) (by unfold toSigned; split <;> omega)

theorem shaped_member {d : Defn} {v : Val} (hv : Shaped d.target v) (hs : Supported d v) : Shaped d v := by
  cases d <;> first | exact hv | exact .present hv hs

theorem shaped_absent {E : Env} {ns : Namespace} {d : Defn} (hp : Present E ns d false) : Shaped d .pyNone := by
  cases hp with
  | cond h hc he =>
    cases d <;> simp only [Defn.memInfo] at h <;> first | cases h | skip
    exact .absent hc

/-- A type gets another name, or the byte order left open, only if it leaves its byte order open itself. -/
def KeepsOpen (d : Defn) (n : String) (o : Order) : Prop :=
  (o = .native → d.orderOrNative = .native) ∧ (n = d.name ∨ d.orderOrNative = .native)

theorem keepsOpen_own (d : Defn) : KeepsOpen d d.name d.orderOrNative := ⟨fun h => h, .inl rfl⟩

theorem keepsOpen_member {sname n : String} {so o : Order} {d : Defn} (h : memberNameOrder sname so d = .ok (n, o)) :
    KeepsOpen d n o := by
  unfold memberNameOrder at h
  split at h
  · cases h; exact keepsOpen_own d
  split at h
  · cases h
  · rename_i hn
    cases h
    exact ⟨fun _ => by simp [Defn.orderOrNative, hn], .inr (by simp [Defn.orderOrNative, hn])⟩
  · rename_i hn _
    cases h
    exact ⟨fun ho => absurd ho hn, .inl rfl⟩

theorem keepsOpen_element {E : Env} {nm : String} {o : Order} {h : Hdr} {info : SeqInfo} {e : Defn}
    {m : DMap} (hm : createAs E nm o (.seq h info e) = .ok m) :
    ∃ n eo em, createAs E n eo e = .ok em ∧ KeepsOpen e n eo ∧
      m = .seq { h with name := nm, order := o } info ⟨e.byteSize, e.isComposite, e.terminator?⟩
        (Defn.seq h info e).byteSize em := by
  rw [createAs] at hm
  split at hm
  · cases hm
  rename_i eo heo
  simp only at hm
  split at hm
  · cases hm
  rename_i em hem
  refine ⟨_, _, em, hem, ?_, ?_⟩
  · have hn : e.orderOrNative = eo := by simp [Defn.orderOrNative, heo]
    refine ⟨fun ho => ?_, ?_⟩
    · split at ho
      · rename_i hc
        simp only [Bool.and_eq_true, decide_eq_true_eq] at hc
        rw [hn]; exact hc.1.2
      · rw [hn]; exact ho
    · split
      · rename_i hc
        simp only [Bool.and_eq_true, decide_eq_true_eq] at hc
        exact .inr (by rw [hn]; exact hc.1.2)
      · exact .inl rfl
  · unfold finishSeq at hm
    repeat' split at hm
    all_goals first | exact (Except.ok.inj hm).symm | cases hm

theorem createGroup_orders (E : Env) (ident : String) (Q : DMap → Prop) (ds : List Defn)
    (hQ : ∀ d ∈ ds, ∀ m, createAs E d.name d.orderOrNative d = .ok m → Q m) (keys ks : List Lit)
    (maps : List DMap) (h : createGroup E ident keys ds = .ok (ks, maps)) :
    ∀ m ∈ maps, Q m := by
  induction ds generalizing keys ks maps with
  | nil => simp [createGroup] at h; obtain ⟨rfl, rfl⟩ := h; simp
  | cons d ds ih =>
    have hq' := fun d hd => hQ d (List.mem_cons_of_mem _ hd)
    rw [createGroup] at h
    split at h
    · cases h
    · exact ih hq' _ _ _ h
    split at h
    · cases h
    split at h
    · cases h
    rename_i m hm
    split at h
    · cases h
    split at h
    · cases h
    rename_i hr
    simp only [Except.ok.injEq, Prod.mk.injEq] at h
    obtain ⟨rfl, rfl⟩ := h
    intro x hx
    simp only [List.mem_append, List.mem_replicate] at hx
    rcases hx with ⟨-, rfl⟩ | hx
    · exact hQ d List.mem_cons_self _ hm
    · exact ih hq' _ _ _ hr x hx

theorem layout_shaped {E : Env} {bs : Bytes} {depth : Nat} {outer : Namespace} {cls : String} {so : Order}
    {names : List String} {read : List Val} {ms : List Defn} {p e : Nat} {vs : List Val}
    (hm : ∀ d ∈ ms, ∀ n o m, KeepsOpen d.target n o → createAs E n o d.target = .ok m →
      ∀ off depth ns v k, parse E m bs off depth ns = .ok (v, k) → Shaped d.target v)
    (h : Layout E bs depth outer cls so names read ms p vs e) :
    ∃ us, vs = read ++ us ∧ us.length = ms.length ∧ ∀ (i : Nat) (d : Defn) (v : Val), ms[i]? = some d → us[i]? = some v → Shaped d v := by
  induction h with
  | done read p => exact ⟨[], by simp, rfl, by simp⟩
  | @absent read vs d ms p e hc _ ih =>
    obtain ⟨us, rfl, hl, hi⟩ := ih (fun d hd => hm d (List.mem_cons_of_mem _ hd))
    refine ⟨.pyNone :: us, by simp, by simp [hl], ?_⟩
    intro i d' v h1 h2
    cases i with
    | zero => cases h1; cases h2; exact shaped_absent hc
    | succ i => exact hi i d' v (by simpa using h1) (by simpa using h2)
  | @present read vs d ms p e k m v hc hmo hv hk hs _ ih =>
    obtain ⟨us, rfl, hl, hi⟩ := ih (fun d hd => hm d (List.mem_cons_of_mem _ hd))
    refine ⟨v :: us, by simp, by simp [hl], ?_⟩
    obtain ⟨n, o, hno, hcr⟩ := hmo
    obtain ⟨k', hp, -⟩ := mapStream_ok (c := { values := scope cls names read outer }) rfl hv
    intro i d' v h1 h2
    cases i with
    | zero => cases h1; cases h2; exact shaped_member (hm d List.mem_cons_self _ _ _ (keepsOpen_member hno) hcr _ _ _ _ _ hp) hs
    | succ i => exact hi i d' v (by simpa using h1) (by simpa using h2)

theorem fill_is_zip (names : List String) (vs : List Val) (h : vs.length = names.length) : fill names vs = names.zip vs := by
  induction names generalizing vs with
  | nil => rfl
  | cons n ns ih =>
    cases vs with
    | nil => cases h
    | cons v vs => simp only [fill, List.zip_cons_cons, ih vs (by simpa using h)]

theorem supported_of_ok {d : Defn} {v : Val} (h : valueOk d.memInfo v = true) : Supported d v := by
  intro vs hvs hne
  unfold valueOk at h
  rw [hvs] at h
  cases vs with
  | nil => exact absurd rfl hne
  | cons x xs =>
    simp only [pyIn, List.any_eq_true] at h
    exact h

theorem linear_shaped {E : Env} {nm : String} {so o : Order} {ms : List Defn} {maps : List DMap} {cs : List Code}
    (hmo : All2 (MapOf E nm so) ms maps) (hpr : All2 IsPrim maps cs) (b : Bytes) (xs : List Val)
    (h : linearValues (ms.map Defn.memInfo) maps (unpackAll E o cs b) = some xs) :
    xs.length = ms.length ∧ ∀ (i : Nat) (d : Defn) (v : Val), ms[i]? = some d → xs[i]? = some v → Shaped d v := by
  induction hmo generalizing cs b xs with
  | nil =>
    cases hpr
    simp only [unpackAll, linearValues, Option.some.injEq] at h
    subst h
    simp
  | @cons d m ms maps hm hmo ih =>
    cases hpr with
    | @cons _ c _ cs hp hpr =>
    obtain ⟨hh, k, s, u, rfl, hc⟩ := hp
    simp only [List.map_cons, unpackAll, linearValues] at h
    split at h
    · cases h
    rename_i x hx
    split at h
    · rename_i hok
      simp only [Option.map_eq_some_iff] at h
      obtain ⟨ys, hys, rfl⟩ := h
      obtain ⟨h1, h2⟩ := ih hpr _ _ hys
      refine ⟨by simp [h1], ?_⟩
      intro i d' v hd' hv'
      cases i with
      | zero =>
        cases hd'
        cases hv'
        obtain ⟨n, o', -, hcr⟩ := hm
        obtain ⟨h', ht⟩ : ∃ h', d.target = .prim h' k s u := by
          generalize d.target = t at hcr
          cases t with
          | prim h k' s' u' =>
            simp only [createAs] at hcr
            split at hcr
            · cases hcr
            · cases hcr; exact ⟨_, rfl⟩
          | seq => obtain ⟨_, _, _, _, _, h, _⟩ := createAs_seq hcr; cases h
          | struct => obtain ⟨_, _, _, _, _, _, _, h, _⟩ := createAs_struct hcr; cases h
          | group => obtain ⟨_, _, _, _, _, _, _, _, h⟩ := createAs_group hcr; cases h
          | _ => simp [createAs] at hcr
        exact shaped_member (ht ▸ shaped_prim hc (by simp; omega) hx) (supported_of_ok hok)
      | succ i => exact h2 i d' v (by simpa using hd') (by simpa using hv')
    · cases h

theorem parse_shaped (E : Env) (d : Defn) (hd : d.Every TypesDistinct) (bs : Bytes) :
    ∀ nm o m, KeepsOpen d nm o → createAs E nm o d = .ok m → ∀ off depth ns v n, parse E m bs off depth ns = .ok (v, n) → Shaped d v := by
  suffices h : (∀ nm o m, KeepsOpen d nm o → createAs E nm o d = .ok m → ∀ off depth ns v n,
        parse E m bs off depth ns = .ok (v, n) → Shaped d v) ∧
      (∀ nm o m, KeepsOpen d.target nm o → createAs E nm o d.target = .ok m → ∀ off depth ns v n,
        parse E m bs off depth ns = .ok (v, n) → Shaped d.target v) from h.1
  induction d using Defn.ind with
  | prim h k s u =>
    refine ⟨?d, ?d⟩
    intro nm o m ho hm off depth ns v n hp
    simp only [createAs] at hm
    split at hm
    · cases hm
    cases hm
    simp only [parse, primParse] at hp
    split at hp
    · cases hp
    split at hp
    · cases hp
    split at hp
    · cases hp
    rename_i x hx
    cases hp
    unfold primRead at hx
    split at hx
    · cases hx
    rename_i c hc
    split at hx
    · cases hx
    exact shaped_prim hc (by simp; omega) hx
  | uuid h s u =>
    refine ⟨?e, ?e⟩
    intro nm o m ho hm off depth ns v n hp
    simp only [createAs, Except.ok.injEq] at hm
    subst hm
    simp only [parse, uuidParse] at hp
    split at hp
    · cases hp
    split at hp
    · cases hp
    split at hp
    · cases hp; exact .noUuid (ho.1 rfl)
    · split at hp <;> cases hp
      rename_i hl
      exact .uuid hl
    · split at hp <;> cases hp
      rename_i hl
      refine .uuid ?_
      simp [uuidSwap]
      omega
  | padding h a =>
    refine ⟨?f, ?f⟩
    intro nm o m ho hm off depth ns v n hp
    simp only [createAs, Except.ok.injEq] at hm
    subst hm
    simp only [parse, paddingParse] at hp
    split at hp
    · cases hp
    rename_i z hz
    split at hp
    · cases hp
    cases hp
    rcases a with _ | _ | a
    · cases hz
    · cases hz
    · simp only [calcPadding, Except.ok.injEq] at hz
      have := paddingSize_lt off a
      subst hz
      refine .padding ?_
      simp [slice]
      omega
  | seq h info e ih =>
    refine ⟨?a, ?a⟩
    intro nm o m ho hm off depth ns v n hp
    simp only [Defn.Every] at hd
    obtain ⟨n', eo, em, hem, hko, hmeq⟩ := keepsOpen_element hm
    have ih := (ih hd.2).1 _ _ _ hko hem
    cases hk : info.kind with
    | stream =>
      subst hmeq
      simp only [parse, hk] at hp
      split at hp
      · cases hp
      rename_i b n' hb
      cases hp
      refine .stream hk ?_
      intro z hz h0
      have he : (0 ≤ z ∧ streamSize E info ⟨e.byteSize, e.isComposite, e.terminator?⟩ ns = .ok (some z)) ∨
          ∃ x, streamSize E info ⟨e.byteSize, e.isComposite, e.terminator?⟩ ns = .error x := by
        have ht : truthyInt info.dataSize = true := by rw [hz]; simpa [truthyInt] using h0
        unfold streamSize
        rw [if_pos (by simp [SeqInfo.hasDataSize, hz])]
        unfold evalDataSize
        rw [if_pos ht, hz]
        by_cases hneg : z < 0
        · exact .inr ⟨.mapping, by simp [checkSize, hneg]⟩
        · exact .inl ⟨by omega, by simp [checkSize, hneg]⟩
      unfold streamParse at hb
      rcases he with ⟨hneg, he⟩ | ⟨x, he⟩
      · rw [he] at hb
        simp only at hb
        split at hb
        · cases hb
        rename_i hts
        cases hb
        simp only [tooSmall, decide_eq_true_eq] at hts
        simp only [slice, List.length_take, List.length_drop]
        omega
      · rw [he] at hb
        cases hb
    | string enc =>
      subst hmeq
      simp only [parse, hk, stringParse] at hp
      repeat' split at hp
      all_goals first | (cases hp; exact .string hk _) | cases hp
    | sequence =>
      obtain ⟨hd', bsz, em', vs, p, hme, rfl, h1, -, -, hends⟩ := seq_parse hk hm bs off depth ns v n hp
      rw [hmeq] at hme
      cases hme
      refine .sequence hk ?_ ?_
      · intro n0 hn h0 hz hze ht
        rcases hends with ⟨-, -, h3⟩ | ⟨-, ds, term, num, h3, h4, -⟩
        · have := h3 (by simp [hz, truthyInt])
          rw [hn] at this
          exact (Option.some.inj this).symm
        · have htr : truthyInt info.numElements = true := by rw [hn]; simpa [truthyInt] using h0
          have : num = some n0 := by
            unfold seqRules at h3
            simp only [SeqInfo.hasDataSize, SeqInfo.hasNumElements, hz, hze, ht, hn, evalNumElements] at h3
            rw [hn] at htr
            simp only [htr, if_true, checkSize] at h3
            by_cases hlt : n0 < 0
            · simp [hlt, countable] at h3
            · simp [hlt, countable] at h3
              exact h3.2.2.symm
          simpa using h4 n0 this
      clear hp hends
      induction h1 with
      | nil => simp
      | cons hs _ ih' =>
        intro v hv
        rcases List.mem_cons.1 hv with rfl | hv
        · exact ih _ _ _ _ _ hs
        · exact ih' v hv
  | struct h ms ih =>
    refine ⟨?b, ?b⟩
    intro nm o m ho hm off depth ns v n hp
    have hdt : DistinctTypes ms := hd.self
    simp only [Defn.Every, everyDefn_iff] at hd
    have hm' := hm
    obtain ⟨io, infos, maps, l, hcls, hmem, hlin, rfl, -⟩ := createAs_struct hm
    have hinf := (createMembers_all E nm o (fun _ => True) ms (by simp) [] (by simp) _ _ hmem).1
    have hmo := createMembers_mapOf E nm o ms hdt ms (fun d hd => hd) [] (by simp) _ _ hmem
    have hnames : (ms.map Defn.memInfo).map (·.name) = ms.map Defn.name := by simp [memInfo_name]
    subst hinf
    simp only [parse] at hp
    split at hp
    · rename_i hl
      subst hl
      unfold linearStructParse at hp
      split at hp
      · cases hp
      rename_i z hz
      split at hp
      · cases hp
      split at hp
      · cases hp
      rename_i vs hop
      split at hp
      · cases hp
      rename_i xs hxs
      split at hp
      · cases hp
      rename_i attrs hattrs
      split at hp
      · cases hp
        rw [hz] at hm' hop
        cases hopn : (DMap.struct { h with name := nm, order := o } (some z) true io (ms.map Defn.memInfo) maps).op with
        | none => rw [hopn] at hop; cases hop
        | some op =>
          have h2 := (struct_op hm' op hopn).2
          rw [hopn] at hop
          simp only [Option.bind_some, Op.readFrom] at hop
          split at hop
          · cases hop
          cases hop
          obtain ⟨h3, h4⟩ := linear_shaped hmo h2 _ _ hxs
          rw [hnames, newInstanceArgs_fill _ _ (by simp [h3]), fill_is_zip _ _ (by simp [h3])] at hattrs
          cases hattrs
          exact .struct ho.2 h3 h4
      · cases hp
    · split at hp
      · cases hp
      split at hp
      · cases hp
      split at hp
      · cases hp
      split at hp
      · cases hp
      rename_i attrs k hs
      cases hp
      rw [hnames, ← fill_nil] at hs
      obtain ⟨vs, e, h1, rfl, -, h3⟩ := layout_of_members E _ o bs depth ns _ ms maps hmo [] rfl
        (createClass_nodup hcls).1 [] rfl off 0 _ attrs hs
      obtain ⟨us, h4, h5, h6⟩ := layout_shaped (fun d hdm n o m ho hm => (ih d hdm (hd.2 d hdm)).2 n o m ho hm) h1
      simp only [List.nil_append] at h4
      subst h4
      rw [fill_is_zip _ _ h3]
      exact .struct ho.2 h5 h6
  | group h base ident dflt ms ih1 ih2 ih3 =>
    refine ⟨?c, ?c⟩
    intro nm o m ho hm off depth ns v n hp
    simp only [Defn.Every, everyDefn_iff, everyOptDefn_iff] at hd
    obtain ⟨dm, bm, keys, maps, hdm, hbm, -, hg, rfl⟩ := createAs_group hm
    have hmaps := createGroup_orders E ident (fun m => ∃ d ∈ ms, ∀ off depth ns v n,
        parse E m bs off depth ns = .ok (v, n) → Shaped d v) ms
      (fun d hdm m hm => ⟨d, hdm, (ih3 d hdm (hd.2.2.2 d hdm)).1 _ _ _ (keepsOpen_own d) hm⟩) _ _ _ hg
    simp only [parse] at hp
    split at hp
    · cases hp
    split at hp
    · cases hp
    split at hp
    · split at hp
      · cases hp
      rw [parseNth_eq] at hp
      split at hp
      · cases hp
      · rename_i i _ _ r hr
        cases hp
        split at hr
        · cases hr
        · rename_i m hm
          obtain ⟨d, hdm', hfit⟩ := hmaps m (List.mem_of_getElem? hm)
          exact .group (.inl hdm') (hfit _ _ _ _ _ hr)
    · split at hp
      · cases hp
      split at hp
      · cases hp
      · rename_i r hr
        cases hp
        cases dflt with
        | none => simp [createOpt] at hdm; subst hdm; cases hr
        | some d =>
          simp only [createOpt] at hdm
          split at hdm
          · cases hdm
          rename_i x hx
          cases hdm
          exact .group (.inr rfl) ((ih2 d rfl (hd.2.2.1 d rfl)).1 _ _ _ (keepsOpen_own d) hx _ _ _ _ _ hr)
  | member h d c dt vs ih =>
    simp only [Defn.Every] at hd
    refine ⟨?_, (ih hd.2).1⟩
    intro nm o m ho hm off depth ns v n hp
    simp only [createAs, Except.ok.injEq] at hm
    subst hm
    simp [parse] at hp
  | _ =>
    refine and_self_iff.mpr ?_
    intro nm o m ho hm off depth ns v n hp
    simp only [createAs, Except.ok.injEq] at hm
    subst hm
    simp [parse] at hp

/-- **C116** Whatever the bytes: the value that MapByteStream gives has the shape of the type. Integers are
in the range of their size, sequences are tuples of values of the shape of the element type, structures have
exactly the attributes that the members name, only members with a condition are None, and members with
supported values have one of these. -/
theorem C116_shape (E : Env) (d : Defn) (hd : d.Every TypesDistinct) (m : DMap) (hm : createMap E d = .ok m)
    (bs : Bytes) (off depth : Nat) (c : Ctx) (hc : c.Clean) (v : Val) (hv : (mapStream E m bs off depth c).1 = .ok v) :
    Shaped d v := by
  obtain ⟨n, hp, -⟩ := mapStream_ok hc hv
  exact parse_shaped E d hd bs _ _ _ (keepsOpen_own d) hm _ _ _ _ _ hp

/-- **C116** The object of a structure is of the class with the name of the structure. -/
theorem C116_class (E : Env) (h : Hdr) (ms : List Defn) (hd : (Defn.struct h ms).Every TypesDistinct) (m : DMap)
    (hm : createMap E (.struct h ms) = .ok m) (bs : Bytes) (off depth : Nat) (c : Ctx) (hc : c.Clean) (v : Val)
    (hv : (mapStream E m bs off depth c).1 = .ok v) :
    ∃ vs, v = .struct h.name ((ms.map Defn.name).zip vs) ∧ vs.length = ms.length := by
  have hs := C116_shape E _ hd m hm bs off depth c hc v hv
  cases hs with
  | @struct _ _ cls vs hcls hl hv' =>
    refine ⟨vs, ?_, hl⟩
    obtain ⟨io, infos, maps, l, -, -, -, rfl, -⟩ := createAs_struct hm
    obtain ⟨n, hp, -⟩ := mapStream_ok hc hv
    congr 1
    simp only [parse] at hp
    split at hp
    · unfold linearStructParse at hp
      repeat' split at hp
      all_goals first | (cases hp; rfl) | cases hp
    · repeat' split at hp
      all_goals first | (cases hp; rfl) | cases hp

/-- **C116** So a member without condition, of a type that is not a UUID, is never None. -/
theorem C116_present {h h' : Hdr} {k : PrimKind} {s : Size} {u : String} {tn : Option String} {sup : Option (List Lit)}
    {v : Val} (hv : Shaped (.member h (.prim h' k s u) none tn sup) v) : v ≠ .pyNone := by
  cases hv with
  | present hv _ => cases hv <;> exact fun h => nomatch h

/-- A structure with a conditional member and a terminated sequence and stream; without and with the
conditional member. -/
example : exLocal.Every TypesDistinct ∧
    ∃ m, createMap exEnvE exLocal = .ok m ∧
      (mapStream exEnvE m [7, 1, 2, 0, 5, 6, 0, 9, 9, 0, 0, 8] 1 0 {}).1 =
        .ok (.struct "T" [("a", .int 1), ("b", .int 2), ("s", .tuple [.int 5, .int 6, .int 0]),
          ("t", .bytes [9, 9, 0, 0])]) ∧
      (mapStream exEnvE m [7, 2, 5, 6, 0, 9, 9, 0, 0, 8] 1 0 {}).1 =
        .ok (.struct "T" [("a", .int 2), ("b", .pyNone), ("s", .tuple [.int 5, .int 6, .int 0]),
          ("t", .bytes [9, 9, 0, 0])]) := by
  refine ⟨?_, _, rfl, rfl, rfl⟩
  simp [Defn.Every, everyDefn, exLocal, exSeqT, exU8, exU16, TypesDistinct, DistinctTypes, Defn.target, Defn.name, Defn.hdr]

/-- Values of other shapes: a number that does not fit, a text in place of a number, a structure that lacks a
member and a tuple with an element of another shape. -/
example : ¬ Shaped exU8 (.int 256) ∧ ¬ Shaped exU8 (.str [0x61]) ∧
    ¬ Shaped exLocal (.struct "T" [("a", .int 1)]) ∧ ¬ Shaped exSeqT (.tuple [.int 1, .int (-1)]) := by
  refine ⟨?_, ?_, ?_, ?_⟩
  · intro h
    unfold exU8 at h
    cases h with
    | unsigned _ h1 => omega
  · intro h
    unfold exU8 at h
    cases h
  · intro h
    unfold exLocal at h
    generalize hv : Val.struct "T" [("a", .int 1)] = v at h
    cases h with
    | @struct _ _ _ vs _ hl _ =>
      have := congrArg (fun v => match v with | Val.struct _ as => as.length | _ => 0) hv
      simp [hl] at this
  · intro h
    unfold exSeqT at h
    cases h with
    | sequence _ _ hv =>
      have := hv (.int (-1)) (by simp)
      unfold exU8 at this
      cases this with
      | unsigned h0 _ => omega

end Dtf
