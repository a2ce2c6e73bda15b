import Verif.Props.Refold
import Verif.Props.Complete
import Verif.Props.Contexts
/-!
# Property C97: an object determines the bytes it was mapped from
-/
namespace Dtf

namespace Spec

/-- Primitive types whose values stand for one number each: integers, floating-point numbers,
characters and booleans with a value for both `False` and `True`. -/
def Faithful (k : PrimKind) : Prop :=
  match k with
  | .integer _ | .floatingPoint | .character | .boolean (some _) (some _) => True
  | _ => False

/-- The name of the class of the objects of a structure. -/
def className : DMap → Option String
  | .struct h _ _ _ _ _ => some h.name
  | _ => none

/-- The maps whose objects leave nothing of the bytes out: no booleans that are true for every
other number, no UUIDs without a byte order, no strings that are cut at a terminator before the
end of their size, and no sequences of a size that is no multiple of the size of their numbers.
The members of a structure group differ in their names. -/
inductive Telling (E : Env) : DMap → Prop
  | prim {h k s u} : Faithful k → Telling E (.prim h k s u)
  | uuid {h u} : h.order ≠ .native → Telling E (.uuid h (.bytes 16) u)
  | padding {h a} : Telling E (.padding h a)
  | stream {h info ei bsz e} : info.kind = .stream →
      (info.hasDataSize = false → info.hasNumElements = false → ∀ t, info.terminator = some (.bytes t) →
        t ≠ [] ∧ ei.byteSize = some (t.length : Int)) → Telling E (.seq h info ei bsz e)
  | text {h info ei bsz e enc} : info.kind = .string enc → Lossless E enc → info.terminator = none →
      Telling E (.seq h info ei bsz e)
  | terminatedText {h info ei bsz e enc t} : info.kind = .string enc → Lossless E enc →
      info.terminator = some (.bytes t) → t ≠ [] → ei.byteSize = some (t.length : Int) →
      info.hasDataSize = false → info.hasNumElements = false → Telling E (.seq h info ei bsz e)
  | numbers {h info ei bsz eh k s u} : info.kind = .sequence → seqLinear info ei = true → Faithful k →
      (∀ d n : Int, truthyInt info.dataSize = true → info.dataSize = some d → fixedByteSize s u = some n → n ∣ d) →
      Telling E (.seq h info ei bsz (.prim eh k s u))
  | elements {h info ei bsz e} : info.kind = .sequence → seqLinear info ei = false → Telling E e →
      Telling E (.seq h info ei bsz e)
  | linear {h bsz io infos maps} : (∀ m ∈ maps, ∀ h k s u, m = .prim h k s u → Faithful k) →
      Telling E (.struct h bsz true io infos maps)
  | composite {h bsz io infos maps} : (∀ m ∈ maps, Telling E m) → Telling E (.struct h bsz false io infos maps)
  | group {h ident base dflt keys maps} : (∀ m, m ∈ maps ∨ dflt = some m → Telling E m) →
      (∀ m, m ∈ maps ∨ dflt = some m → className m ≠ none) →
      (∀ m m', m ∈ maps ∨ dflt = some m → m' ∈ maps ∨ dflt = some m' → className m = className m' → m = m') →
      Telling E (.group h ident base dflt keys maps)

end Spec
open Spec

/-- `f` gives the bytes an object was read from. -/
def Undoes (E : Env) (m : DMap) (f : Val → Bytes) : Prop :=
  ∀ bs off depth ns v n, parse E m bs off depth ns = .ok (v, n) → Kept E v →
    v ≠ .pyNone ∧ f v = window bs off n ∧ (window bs off n).length = n

theorem window_length_of {bs : Bytes} {off n : Nat} (h : n = 0 ∨ off + n ≤ bs.length) :
    (window bs off n).length = n := by
  simp only [window, List.length_take, List.length_drop]
  omega

/-! ### Single maps -/

/-- What folding gives, where it gives bytes. -/
def folded (E : Env) (m : DMap) (v : Val) : Bytes :=
  match fold E m v [] with
  | .ok (.bytes b) => b
  | _ => []

theorem undoes_of_back {E : Env} {m : DMap} (hf : m.Every termFull)
    (h : ∀ bs off depth ns v n, parse E m bs off depth ns = .ok (v, n) → Kept E v → FoldsBack E m [] bs off v n) :
    Undoes E m (folded E m) := by
  intro bs off depth ns v n hp hk
  obtain ⟨h1, h2⟩ := h bs off depth ns v n hp hk
  refine ⟨h1, by simp only [folded, h2], window_length_of (parse_bound E m hf bs off depth ns v n hp)⟩

theorem faithful_back {E : Env} {k : PrimKind} {s : Size} (hk : Faithful k) (o : Order) (c : Code) (b : Bytes)
    (x : Val) (hc : primCode k s = some c) (hb : b.length = c.size)
    (hx : mapValue k (unpackOne E o c b) = some x) (hkept : Kept E x) :
    x ≠ .pyNone ∧ ∃ y, foldValue k x = some y ∧ packOne E o c y = some b := by
  match k, hk with
  | .integer u, _ => exact number_back (k := .integer u) (s := s) trivial o c b x hc hb hx hkept
  | .floatingPoint, _ => exact number_back (k := .floatingPoint) (s := s) trivial o c b x hc hb hx hkept
  | .character, _ => exact character_back (s := s) o c b x hc hb hx
  | .boolean (some _) (some _), _ => exact boolean_back (s := s) o c b x hc hb hx

/-- The bytes of one number. -/
def numberBytes (E : Env) (k : PrimKind) (o : Order) (c : Code) (x : Val) : Bytes :=
  ((foldValue k x).bind (packOne E o c)).getD []

theorem numberBytes_of {E : Env} {k : PrimKind} {s : Size} (hk : Faithful k) {o : Order} {c : Code} {b : Bytes}
    {x : Val} (hc : primCode k s = some c) (hb : b.length = c.size)
    (hx : mapValue k (unpackOne E o c b) = some x) (hkept : Kept E x) : numberBytes E k o c x = b := by
  obtain ⟨-, y, h1, h2⟩ := faithful_back (s := s) hk o c b x hc hb hx hkept
  simp [numberBytes, h1, h2]

/-! ### Numbers in one operation -/

theorem numbers_bytes {E : Env} {k : PrimKind} {s : Size} (hk : Faithful k) {o : Order} {c : Code}
    (hc : primCode k s = some c) (n : Nat) (b : Bytes) (hb : codesSize (List.replicate n c) ≤ b.length)
    (xs : List Val) (h : mapValues k (unpackAll E o (List.replicate n c) b) = .ok xs) (hkept : ∀ x ∈ xs, Kept E x) :
    xs.flatMap (numberBytes E k o c) = b.take (codesSize (List.replicate n c)) := by
  induction n generalizing b xs with
  | zero => simp [unpackAll, mapValues] at h; subst h; simp [codesSize]
  | succ n ih =>
    simp only [List.replicate_succ, codesSize] at hb ⊢
    simp only [List.replicate_succ, unpackAll, mapValues] at h
    split at h
    · cases h
    rename_i x hx
    split at h
    · cases h
    rename_i ys hys
    cases h
    rw [List.flatMap_cons, numberBytes_of hk hc (by rw [List.length_take]; omega) hx (hkept x List.mem_cons_self),
      ih (b.drop c.size) (by rw [List.length_drop]; omega) ys hys (fun x hx => hkept x (List.mem_cons_of_mem _ hx)),
      List.take_add]

/-- The bytes of the numbers of a structure. -/
def linearBytes (E : Env) (o : Order) : List DMap → List Code → List Val → Bytes
  | .prim _ k _ _ :: ms, c :: cs, x :: xs => numberBytes E k o c x ++ linearBytes E o ms cs xs
  | _, _, _ => []

theorem linear_bytes {E : Env} {o : Order} {infos : List MemInfo} {maps : List DMap} {cs : List Code}
    (hp : All2 IsPrim maps cs) (hk : ∀ m ∈ maps, ∀ h k s u, m = .prim h k s u → Faithful k) (b : Bytes)
    (hb : codesSize cs ≤ b.length) (xs : List Val) (h : linearValues infos maps (unpackAll E o cs b) = some xs)
    (hkept : ∀ x ∈ xs, Kept E x) :
    linearBytes E o maps cs xs = b.take (codesSize cs) ∧ xs.length = maps.length := by
  induction hp generalizing infos b xs with
  | nil => simp [unpackAll, linearValues] at h; subst h; simp [codesSize, linearBytes]
  | @cons m c maps cs hm hp ih =>
    obtain ⟨h', k, s, u, rfl, hc⟩ := hm
    simp only [codesSize] at hb ⊢
    cases infos with
    | nil => simp [unpackAll, linearValues] at h
    | cons i infos =>
      simp only [unpackAll, linearValues] at h
      split at h
      · cases h
      rename_i x hx
      split at h
      · rw [Option.map_eq_some_iff] at h
        obtain ⟨ys, hys, rfl⟩ := h
        obtain ⟨h1, h2⟩ := ih (fun m hm => hk m (List.mem_cons_of_mem _ hm)) (b.drop c.size)
          (by rw [List.length_drop]; omega) ys hys (fun x hx => hkept x (List.mem_cons_of_mem _ hx))
        refine ⟨?_, by simp [h2]⟩
        rw [linearBytes, numberBytes_of (hk _ List.mem_cons_self _ _ _ _ rfl) hc (by rw [List.length_take]; omega) hx
          (hkept x List.mem_cons_self), h1, List.take_add]
      · cases h

theorem numbers_undoes {E : Env} {h : Hdr} {info : SeqInfo} {ei : ElemInfo} {bsz : Option Int} {eh : Hdr}
    {k : PrimKind} {s : Size} {u : String} (hk : info.kind = .sequence) (hl : seqLinear info ei = true)
    (hf : Faithful k)
    (hdiv : ∀ d n : Int, truthyInt info.dataSize = true → info.dataSize = some d →
        fixedByteSize s u = some n → n ∣ d)
    (hok : NodeOk (.seq h info ei bsz (.prim eh k s u))) :
    ∃ f, Undoes E (.seq h info ei bsz (.prim eh k s u)) f := by
  refine ⟨fun v => match v, (DMap.seq h info ei bsz (.prim eh k s u)).op, primCode k s with
    | .tuple xs, some op, some c => xs.flatMap (numberBytes E k op.order c)
    | _, _, _ => [], ?_⟩
  intro bs off depth ns v n hp hkept
  have hbound := parse_bound E (.seq h info ei bsz (.prim eh k s u))
    (by simp [DMap.Every, termFull, hk]) bs off depth ns v n hp
  refine ⟨?_, ?_, window_length_of hbound⟩
  all_goals
    rw [parse] at hp
    simp only [hk, hl, if_true] at hp
    unfold linearSeqParse at hp
    split at hp
    · cases hp
    rename_i sz
    split at hp
    · cases hp
    split at hp
    · cases hp
    rename_i vs hvs
    simp only at hp
    split at hp
    · cases hp
    rename_i xs hxs
    cases hp
  · simp
  · cases hop : (DMap.seq h info ei (some sz) (.prim eh k s u)).op with
    | none => rw [hop] at hvs; simp at hvs
    | some op =>
      rw [hop] at hvs
      simp only [Option.bind_some] at hvs
      obtain ⟨ec, k', sz', u', c, cnt, he, hpc, hcodes, hsize⟩ := hok hk hl op hop
      cases he
      have hsz := hsize sz rfl hdiv
      unfold Op.readFrom at hvs
      split at hvs
      · cases hvs
      rename_i hlen
      cases hvs
      simp only [hpc]
      have hcs : codesSize op.codes = sz.toNat := by
        rw [hcodes, codesSize_replicate, primCode_size hpc, hsz]
        rw [← Int.natCast_mul, Int.toNat_natCast]
      rw [hcodes] at hxs hcs hlen
      rw [numbers_bytes hf hpc cnt (bs.drop off) (by omega) xs hxs hkept.tuple, hcs]
      rfl

theorem kept_attrs {E : Env} {c : String} {attrs : List (String × Val)} (h : Kept E (.struct c attrs)) :
    ∀ x ∈ attrs.map (·.2), Kept E x := by
  intro x hx f hf
  obtain ⟨⟨n, y⟩, hp, rfl⟩ := List.mem_map.mp hx
  exact h f (.struct hp hf)

theorem linear_undoes {E : Env} {h : Hdr} {bsz : Option Int} {io : Bool} {infos : List MemInfo}
    {maps : List DMap} (hf : ∀ m ∈ maps, ∀ h k s u, m = .prim h k s u → Faithful k)
    (hok : NodeOk (.struct h bsz true io infos maps)) : ∃ f, Undoes E (.struct h bsz true io infos maps) f := by
  refine ⟨fun v => match v, (DMap.struct h bsz true io infos maps).op with
    | .struct _ attrs, some op => linearBytes E op.order maps op.codes (attrs.map (·.2))
    | _, _ => [], ?_⟩
  intro bs off depth ns v n hp hkept
  obtain ⟨hnd, hlen, hop'⟩ := hok
  rw [parse] at hp
  simp only [if_true] at hp
  unfold linearStructParse at hp
  split at hp
  · cases hp
  rename_i sz
  split at hp
  · cases hp
  rename_i hts
  split at hp
  · cases hp
  rename_i vs hvs
  split at hp
  · cases hp
  rename_i xs hxs
  split at hp
  · cases hp
  rename_i attrs hattrs
  split at hp
  · cases hp
    refine ⟨by simp, ?_, window_length_of (not_tooSmall (by simpa using hts))⟩
    cases hop : (DMap.struct h (some sz) true io infos maps).op with
    | none => rw [hop] at hvs; simp at hvs
    | some op =>
      rw [hop] at hvs
      simp only [Option.bind_some] at hvs
      obtain ⟨hprims, hsize⟩ := hop' rfl op sz hop rfl
      unfold Op.readFrom at hvs
      split at hvs
      · cases hvs
      rename_i hbl
      cases hvs
      have hxl : xs.length = maps.length := by
        have : ∀ (infos : List MemInfo) (maps : List DMap) (vs xs : List Val),
            linearValues infos maps vs = some xs → xs.length = vs.length := by
          intro infos maps vs xs h
          induction vs generalizing infos maps xs with
          | nil => simp [linearValues] at h; subst h; rfl
          | cons v vs ih =>
            cases infos with
            | nil => simp [linearValues] at h
            | cons i infos =>
              cases maps with
              | nil => simp [linearValues] at h
              | cons m maps =>
                rw [linearValues.eq_def] at h
                simp only at h
                split at h
                · split at h
                  · cases h
                  · split at h
                    · rw [Option.map_eq_some_iff] at h
                      obtain ⟨ys, hys, rfl⟩ := h
                      simp [ih _ _ _ hys]
                    · cases h
                · cases h
        rw [this _ _ _ _ hxs, unpackAll_length, hprims.length_eq]
      rw [newInstanceArgs_fill _ _ (by rw [List.length_map]; omega)] at hattrs
      cases hattrs
      have hval : (fill (infos.map (·.name)) xs).map (·.2) = xs :=
        fill_values _ _ (by rw [List.length_map]; omega)
      have hk := kept_attrs hkept
      rw [hval] at hk
      simp only [hval]
      rw [(linear_bytes hprims hf (bs.drop off) (by omega) xs hxs hk).1]
      have : codesSize op.codes = sz.toNat := by omega
      rw [this]
      rfl
  · cases hp

/-! ### Elements and members -/

theorem elements_undoes {E : Env} {e : DMap} {g : Val → Bytes} (hg : Undoes E e g) {bs : Bytes} {depth len : Nat}
    {ds : Option Int} {off used p : Nat} {vs : List Val}
    (h : Dtf.Reads (fun p => parse E e bs p depth []) len ds off used vs p) (hkept : ∀ v ∈ vs, Kept E v) :
    ∃ n, p = off + n ∧ vs.flatMap g = window bs off n ∧ (window bs off n).length = n := by
  induction h with
  | nil off used => exact ⟨0, rfl, by simp [window], by simp [window]⟩
  | @cons off used k p v vs _ _ hv _ ih =>
    obtain ⟨n, rfl, h1, h2⟩ := ih (fun v hv => hkept v (List.mem_cons_of_mem _ hv))
    obtain ⟨-, h3, h4⟩ := hg _ _ _ _ _ _ hv (hkept v List.mem_cons_self)
    refine ⟨k + n, by omega, ?_, ?_⟩
    · rw [List.flatMap_cons, h3, h1, window_join]
    · rw [← window_join, List.length_append, h4, h2]

/-- The bytes of the members of a structure, nothing for those that are not there. -/
def memberBytes (F : DMap → Val → Bytes) : List DMap → List Val → Bytes
  | m :: ms, x :: xs => (match x with | .pyNone => [] | _ => F m x) ++ memberBytes F ms xs
  | _, _ => []

theorem members_undoes {E : Env} {cls : String} {ns : Namespace} {bs : Bytes} {depth : Nat}
    (F : DMap → Val → Bytes) (maps : List DMap) (hm : ∀ m ∈ maps, Undoes E m (F m))
    (infos : List MemInfo) (hl : infos.length = maps.length) (pre : List String) (vpre : List Val)
    (hlp : vpre.length = pre.length) (hnd : (pre ++ infos.map (·.name)).Nodup)
    (off used k : Nat) (attrs : List (String × Val))
    (hp : parseMembers E cls bs depth ns infos maps off used (fill (pre ++ infos.map (·.name)) vpre) =
      .ok (attrs, k)) (hkept : ∀ x ∈ attrs.map (·.2), Kept E x) :
    ∃ rest j, attrs = fill (pre ++ infos.map (·.name)) (vpre ++ rest) ∧ rest.length = maps.length ∧ k = used + j ∧
      memberBytes F maps rest = window bs off j ∧ (window bs off j).length = j := by
  induction maps generalizing infos pre vpre off used with
  | nil =>
    cases infos with
    | cons => simp at hl
    | nil =>
      rw [parseMembers] at hp
      cases hp
      exact ⟨[], 0, by simp, rfl, by simp, by simp [memberBytes, window], by simp [window]⟩
  | cons m maps ih =>
    cases infos with
    | nil => simp at hl
    | cons info infos =>
      have hstep : ∀ x off used, parseMembers E cls bs depth ns infos maps off used
          (fill (pre ++ info.name :: infos.map (·.name)) (vpre ++ [x])) = .ok (attrs, k) →
          ∃ rest j, attrs = fill (pre ++ (info :: infos).map (·.name)) (vpre ++ x :: rest) ∧
            rest.length = maps.length ∧ k = used + j ∧ memberBytes F maps rest = window bs off j ∧
            (window bs off j).length = j := by
        intro x off used h
        have := ih (fun m hm' => hm m (List.mem_cons_of_mem _ hm')) infos (by simpa using hl)
          (pre ++ [info.name]) (vpre ++ [x]) (by simp [hlp]) (by simpa using hnd) off used (by simpa using h)
        simpa using this
      rw [parseMembers] at hp
      split at hp
      · cases hp
      · have hfn := fill_none (pre ++ info.name :: infos.map (·.name)) vpre (by simp; omega)
        rw [List.map_cons, ← hfn] at hp
        obtain ⟨rest, j, ha, hr, hk, hb, hj⟩ := hstep .pyNone _ _ hp
        exact ⟨.pyNone :: rest, j, ha, by simp [hr], hk, by simpa [memberBytes] using hb, hj⟩
      · split at hp
        · cases hp
        rename_i v n hv
        split at hp
        · cases hp
        rw [List.map_cons, fill_set pre info.name (infos.map (·.name)) vpre hlp (by simpa using hnd)] at hp
        obtain ⟨rest, j, ha, hr, hk, hb, hj⟩ := hstep v _ _ hp
        have hkv : Kept E v := by
          apply hkept
          rw [ha, fill_values _ _ (by simp [hlp, hr]; simp at hl; omega)]
          simp
        obtain ⟨h1, h2, h3⟩ := hm m List.mem_cons_self _ _ _ _ _ _ hv hkv
        refine ⟨v :: rest, n + j, ha, by simp [hr], by omega, ?_, ?_⟩
        · have : memberBytes F (m :: maps) (v :: rest) = F m v ++ memberBytes F maps rest := by
            cases v <;> first | rfl | exact absurd rfl h1
          rw [this, h2, hb, window_join]
        · rw [← window_join, List.length_append, h3, hj]

theorem struct_named {E : Env} {m : DMap} (hm : className m ≠ none) {bs : Bytes} {off depth : Nat} {ns : Namespace}
    {v : Val} {n : Nat} (hp : parse E m bs off depth ns = .ok (v, n)) : className m = some v.typeName := by
  cases m with
  | struct h b l io infos ms =>
    rw [parse] at hp
    split at hp
    · unfold linearStructParse at hp
      repeat' split at hp
      all_goals first | cases hp | skip
      rfl
    · repeat' split at hp
      all_goals first | cases hp | skip
      rfl
  | _ => exact absurd rfl hm

theorem group_parsed {E : Env} {h : Hdr} {ident : String} {base : DMap} {dflt : Option DMap} {keys : List Lit}
    {maps : List DMap} {bs : Bytes} {off depth : Nat} {ns : Namespace} {v : Val} {n : Nat}
    (hp : parse E (.group h ident base dflt keys maps) bs off depth ns = .ok (v, n)) :
    ∃ m, (m ∈ maps ∨ dflt = some m) ∧ parse E m bs off depth [] = .ok (v, n) := by
  rw [parse] at hp
  split at hp
  · cases hp
  split at hp
  · cases hp
  split at hp
  · split at hp
    · cases hp
    rename_i i _ _
    rw [parseNth_eq] at hp
    cases hi : maps[i]? with
    | none => rw [hi] at hp; cases hp
    | some m =>
      rw [hi] at hp
      simp only at hp
      split at hp
      · cases hp
      rename_i r hr
      cases hp
      exact ⟨m, .inl (List.mem_of_getElem? hi), hr⟩
  · split at hp
    · cases hp
    cases dflt with
    | none => rw [parseOpt] at hp; cases hp
    | some m =>
      rw [parseOpt] at hp
      split at hp
      · cases hp
      rename_i r hr
      cases hp
      exact ⟨m, .inr rfl, hr⟩

/-! ### All maps -/

theorem streamParse_window {E : Env} {info : SeqInfo} {ei : ElemInfo} {bs b : Bytes} {off n : Nat} {ns : Namespace}
    (h : streamParse E info ei bs off ns = .ok (b, n)) : b = window bs off n := by
  unfold streamParse at h
  repeat' split at h
  all_goals first | cases h | skip
  all_goals simp [slice, window]

theorem telling_undoes {E : Env} {m : DMap} (ht : Telling E m) (hok : m.Every NodeOk) : ∃ f, Undoes E m f := by
  induction ht with
  | @prim h k s u hk =>
    refine ⟨_, undoes_of_back (by simp [DMap.Every, termFull]) ?_⟩
    intro bs off depth ns v n hp hkept
    rw [parse] at hp
    exact prim_back hp hkept (fun c b x h1 h2 h3 h4 => faithful_back hk _ c b x h1 h2 h3 h4) []
  | uuid ho =>
    refine ⟨_, undoes_of_back (by simp [DMap.Every, termFull]) ?_⟩
    intro bs off depth ns v n hp hkept
    rw [parse] at hp
    exact uuid_back ho hp []
  | padding =>
    refine ⟨_, undoes_of_back (by simp [DMap.Every, termFull]) ?_⟩
    intro bs off depth ns v n hp hkept
    rw [parse] at hp
    exact padding_back hp []
  | @stream h info ei bsz e hk ht =>
    refine ⟨fun v => match v with | .bytes b => b | _ => [], ?_⟩
    intro bs off depth ns v n hp hkept
    rw [parse] at hp
    simp only [hk] at hp
    split at hp
    · cases hp
    rename_i b k hb
    cases hp
    have hbound := streamParse_bound E h info ei bsz e (by rw [hk]; simp) (fun _ => ht) bs off ns b n hb
    exact ⟨by simp, (streamParse_window hb), window_length_of hbound⟩
  | @text h info ei bsz e enc hk hd ht =>
    refine ⟨fun v => match v with | .str cs => (E.encode enc cs).getD [] | _ => [], ?_⟩
    intro bs off depth ns v n hp hkept
    rw [parse] at hp
    simp only [hk] at hp
    unfold stringParse at hp
    split at hp
    · cases hp
    rename_i b k hb
    simp only [cutString, ht] at hp
    split at hp
    · cases hp
    rename_i cs hdec
    cases hp
    have hbound := streamParse_bound E h info ei bsz e (by rw [hk]; simp) (by simp [termFull, ht]) bs off ns b n hb
    exact ⟨by simp, by simp [hd _ _ hdec, streamParse_window hb], window_length_of hbound⟩
  | @terminatedText h info ei bsz e enc t hk hd ht hne hei h1 h2 =>
    refine ⟨fun v => match stringFold E enc info ei v [] with | .ok (.bytes b) => b | _ => [], ?_⟩
    intro bs off depth ns v n hp hkept
    rw [parse] at hp
    simp only [hk] at hp
    have hback := terminated_back (ns' := []) hd ht hne hei h1 h2 hp
    refine ⟨hback.1, by simp only [hback.2], ?_⟩
    unfold stringParse at hp
    split at hp
    · cases hp
    rename_i b k hb
    have hbound := streamParse_bound E h info ei bsz e (by rw [hk]; simp)
      (by simp [termFull, ht]; intro _ _ _; exact ⟨hne, hei⟩) bs off ns b k hb
    repeat' split at hp
    all_goals first | cases hp | skip
    exact window_length_of hbound
  | numbers hk hl hf hdiv => exact numbers_undoes hk hl hf hdiv hok.self
  | linear hf => exact linear_undoes hf hok.self
  | @elements h info ei bsz e hk hl _ ih =>
    simp only [DMap.Every] at hok
    obtain ⟨g, hg⟩ := ih hok.2
    refine ⟨fun v => match v with | .tuple vs => vs.flatMap g | _ => [], ?_⟩
    intro bs off depth ns v n hp hkept
    rw [parse] at hp
    simp only [hk, hl, Bool.false_eq_true, if_false] at hp
    unfold compositeSeqParse at hp
    split at hp
    · cases hp
    split at hp
    · cases hp
    split at hp
    · cases hp
    rename_i vs u hr
    cases hp
    obtain ⟨⟨p, h1, h2⟩, -⟩ := reads_of_seqParse _ _ _ _ _ _ _ _ _ _ _ _ hr
    obtain ⟨k, h3, h4, h5⟩ := elements_undoes hg h1 hkept.tuple
    have : k = n := by omega
    subst this
    exact ⟨by simp, h4, h5⟩
  | @composite h bsz io infos maps _ ih =>
    obtain ⟨hnd, hlen, -⟩ := hok.self
    simp only [DMap.Every, everyMap_iff] at hok
    have : ∃ F : DMap → Val → Bytes, ∀ m ∈ maps, Undoes E m (F m) := by
      refine ⟨fun m => Classical.epsilon fun f => Undoes E m f, ?_⟩
      intro m hm
      exact Classical.epsilon_spec (ih m hm (hok.2 m hm))
    obtain ⟨F, hF⟩ := this
    refine ⟨fun v => match v with | .struct _ attrs => memberBytes F maps (attrs.map (·.2)) | _ => [], ?_⟩
    intro bs off depth ns v n hp hkept
    rw [parse] at hp
    simp only [Bool.false_eq_true, if_false] at hp
    split at hp
    · cases hp
    split at hp
    · cases hp
    split at hp
    · cases hp
    split at hp
    · cases hp
    rename_i attrs k hpm
    cases hp
    rw [← fill_nil] at hpm
    obtain ⟨rest, j, rfl, hr, hk, hb, hj⟩ := members_undoes F maps hF infos hlen [] [] rfl (by simpa using hnd)
      off 0 n attrs (by simpa using hpm) (kept_attrs hkept)
    have : n = j := by omega
    subst this
    refine ⟨by simp, ?_, hj⟩
    simp only [List.nil_append]
    rw [fill_values _ _ (by rw [List.length_map]; omega), hb]
  | @group h ident base dflt keys maps _ hnm huniq ih =>
    simp only [DMap.Every, everyMap_iff, everyOptMap_iff] at hok
    have : ∃ F : DMap → Val → Bytes, ∀ m, (m ∈ maps ∨ dflt = some m) → Undoes E m (F m) := by
      refine ⟨fun m => Classical.epsilon fun f => Undoes E m f, ?_⟩
      intro m hm
      refine Classical.epsilon_spec (ih m hm ?_)
      rcases hm with hm | hm
      · exact hok.2.2.2 m hm
      · exact hok.2.2.1 m hm
    obtain ⟨F, hF⟩ := this
    haveI : Nonempty DMap := ⟨.missing⟩
    refine ⟨fun v => F (Classical.epsilon fun m => (m ∈ maps ∨ dflt = some m) ∧ className m = some v.typeName) v, ?_⟩
    intro bs off depth ns v n hp hkept
    obtain ⟨m, hm, hpm⟩ := group_parsed hp
    obtain ⟨h1, h2, h3⟩ := hF m hm _ _ _ _ _ _ hpm hkept
    refine ⟨h1, ?_, h3⟩
    have hname := struct_named (hnm m hm) hpm
    obtain ⟨h4, h5⟩ := Classical.epsilon_spec (p := fun m => (m ∈ maps ∨ dflt = some m) ∧ className m = some v.typeName)
      ⟨m, hm, hname⟩
    simp only
    rw [huniq _ m h4 hm (by rw [h5, hname]), h2]

/-! ### C97 -/

/-- **C97** Two byte streams (or two places of one) that map to the same object hold the same
bytes there: the mapped sizes are equal and so are the bytes that were mapped, whatever the
contexts of the two calls. Single precision numbers in the object must convert back (`Kept`). -/
theorem C97_bytes (E : Env) (d : Defn) (hd : d.Every TypesDistinct) (m : DMap) (hm : createMap E d = .ok m)
    (ht : Telling E m) (v : Val) (hk : Kept E v)
    (bs : Bytes) (off depth : Nat) (c : Ctx) (hc : c.Clean) (hv : (mapStream E m bs off depth c).1 = .ok v)
    (bs' : Bytes) (off' depth' : Nat) (c' : Ctx) (hc' : c'.Clean)
    (hv' : (mapStream E m bs' off' depth' c').1 = .ok v) :
    ∃ n, (mapStream E m bs off depth c).2.byteSize = some n ∧ (mapStream E m bs' off' depth' c').2.byteSize = some n ∧
      window bs off n = window bs' off' n := by
  have hev := createAs_every (Q := NodeOk) (fun d nm o m => nodeOk_of_create d nm o m) d _ _ _ hm hd
  obtain ⟨f, hf⟩ := telling_undoes ht hev
  obtain ⟨n, hp, hb⟩ := mapStream_ok hc hv
  obtain ⟨n', hp', hb'⟩ := mapStream_ok hc' hv'
  obtain ⟨-, h1, h2⟩ := hf _ _ _ _ _ _ hp hk
  obtain ⟨-, h3, h4⟩ := hf _ _ _ _ _ _ hp' hk
  have : n = n' := by rw [← h2, ← h4, ← h1, h3]
  subst this
  exact ⟨n, hb, hb', by rw [← h1, h3]⟩

/-- **C97** Every change of the mapped bytes shows: if any of the bytes an object was mapped
from is changed, the new bytes do not map to that object, in any context. -/
theorem C97_changed (E : Env) (d : Defn) (hd : d.Every TypesDistinct) (m : DMap) (hm : createMap E d = .ok m)
    (ht : Telling E m) (v : Val) (hk : Kept E v)
    (bs : Bytes) (off depth : Nat) (c : Ctx) (hc : c.Clean) (hv : (mapStream E m bs off depth c).1 = .ok v)
    (n : Nat) (hn : (mapStream E m bs off depth c).2.byteSize = some n)
    (bs' : Bytes) (i : Nat) (hi : i < n) (hne : bs'[off + i]? ≠ bs[off + i]?)
    (depth' : Nat) (c' : Ctx) (hc' : c'.Clean) : (mapStream E m bs' off depth' c').1 ≠ .ok v := by
  intro hv'
  obtain ⟨k, h1, -, h2⟩ := C97_bytes E d hd m hm ht v hk bs off depth c hc hv bs' off depth' c' hc' hv'
  rw [hn] at h1
  cases h1
  apply hne
  have := congrArg (fun l => l[i]?) h2
  simp only [window, List.getElem?_take, hi, if_true, List.getElem?_drop] at this
  exact this.symm

/-- **C97** There is a function from objects to bytes that undoes mapping: it gives the bytes an
object was mapped from for every byte stream, offset and context. (FoldByteStream is not that
function for all these types, see C31.) -/
theorem C97_function (E : Env) (d : Defn) (hd : d.Every TypesDistinct) (m : DMap) (hm : createMap E d = .ok m)
    (ht : Telling E m) : ∃ f : Val → Bytes, ∀ bs off depth c, c.Clean → ∀ v,
      (mapStream E m bs off depth c).1 = .ok v → Kept E v →
      (mapStream E m bs off depth c).2.byteSize = some (f v).length ∧ f v = window bs off (f v).length := by
  have hev := createAs_every (Q := NodeOk) (fun d nm o m => nodeOk_of_create d nm o m) d _ _ _ hm hd
  obtain ⟨f, hf⟩ := telling_undoes ht hev
  refine ⟨f, fun bs off depth c hc v hv hk => ?_⟩
  obtain ⟨n, hp, hb⟩ := mapStream_ok hc hv
  obtain ⟨-, h1, h2⟩ := hf _ _ _ _ _ _ hp hk
  rw [h1, h2]
  exact ⟨hb, rfl⟩

def exOneMap : DMap :=
  .struct { name := "one" } (some 2) true true [{ name := "kind", values := some [.int 1, .int 2] }, { name := "x" }]
    [.prim { name := "uint8" } (.integer true) (.bytes 1) "bytes", .prim { name := "uint8" } (.integer true) (.bytes 1) "bytes"]
def exTwoMap : DMap :=
  .struct { name := "two" } (some 3) true true [{ name := "kind", values := some [.int 3] }, { name := "y" }]
    [.prim { name := "uint8" } (.integer true) (.bytes 1) "bytes", .prim { name := "uint16", order := .little } (.integer true) (.bytes 2) "bytes"]

/-- Two records of a group, which do not fold. -/
example : exGroups.Every TypesDistinct ∧ ∃ m, createMap exEnv exGroups = .ok m ∧ Telling exEnv m ∧
    (mapStream exEnv m [7, 3, 5, 0, 1, 4] 1 0 {}).1 =
      .ok (.tuple [.struct "two" [("kind", .int 3), ("y", .int 5)], .struct "one" [("kind", .int 1), ("x", .int 4)]]) ∧
    (mapStream exEnv m [7, 3, 5, 0, 1, 4] 1 0 {}).2.byteSize = some 5 ∧
    Kept exEnv (.tuple [.struct "two" [("kind", .int 3), ("y", .int 5)], .struct "one" [("kind", .int 1), ("x", .int 4)]]) := by
  refine ⟨?_, _, rfl, ?_, rfl, rfl, ?_⟩
  · simp [exGroups, exGroup, exOne, exTwo, exBase, exMem, Defn.Every, everyDefn, everyOptDefn, TypesDistinct, DistinctTypes, Defn.target,
      Defn.name, Defn.hdr, exU8, exU16]
  · show Telling exEnv (.seq _ _ _ _ (.group _ _ _ none _ [exOneMap, exOneMap, exTwoMap]))
    refine .elements rfl rfl (.group ?_ ?_ ?_)
    · rintro m (hm | hm)
      · simp only [List.mem_cons, List.not_mem_nil, or_false] at hm
        rcases hm with rfl | rfl | rfl
        all_goals
          refine .linear ?_
          intro m hm h k s u he
          simp only [List.mem_cons, List.not_mem_nil, or_false] at hm
          rcases hm with rfl | rfl <;> cases he <;> trivial
      · cases hm
    · rintro m (hm | hm)
      · simp only [List.mem_cons, List.not_mem_nil, or_false] at hm
        rcases hm with rfl | rfl | rfl <;> simp [className, exOneMap, exTwoMap]
      · cases hm
    · rintro m m' (hm | hm) (hm' | hm') hn
      · simp only [List.mem_cons, List.not_mem_nil, or_false] at hm hm'
        rcases hm with rfl | rfl | rfl <;> rcases hm' with rfl | rfl | rfl <;> first | rfl | simp [className, exOneMap, exTwoMap] at hn
      · cases hm'
      · cases hm
      · cases hm
  · intro f hf
    exact absurd hf (by rintro (_ | ⟨hx, hf⟩ | _); simp only [List.mem_cons, List.not_mem_nil, or_false] at hx; rcases hx with rfl | rfl <;> rcases hf with _ | _ | ⟨hx, hf⟩ <;> simp at hx <;> rcases hx with ⟨_, rfl⟩ | ⟨_, rfl⟩ <;> cases hf)

/-- **C97** (its limits) With a boolean that is true for every number but one, different bytes
map to the same object. -/
theorem C97_boolean : ∃ m, createMap exEnv (.prim { name := "flag" } (.boolean (some 0) none) (.bytes 1) "bytes") = .ok m ∧
    (mapStream exEnv m [1] 0 0 {}).1 = .ok (.bool true) ∧ (mapStream exEnv m [2] 0 0 {}).1 = .ok (.bool true) :=
  ⟨_, rfl, rfl, rfl⟩

/-- **C97** (its limits) A string that ends before its size does not tell what follows in it. -/
theorem C97_cut : ∃ m, createMap exEnv (exStr (some 4) (some (.bytes [0]))) = .ok m ∧
    (mapStream exEnv m [65, 66, 0, 67] 0 0 {}).1 = .ok (.str [65, 66]) ∧
    (mapStream exEnv m [65, 66, 0, 68] 0 0 {}).1 = .ok (.str [65, 66]) :=
  ⟨_, rfl, rfl, rfl⟩

/-- **C97** (its limits) A UUID without a byte order maps to `None`, whatever the bytes. -/
theorem C97_uuid : ∃ m, createMap exEnv (.uuid { name := "uuid" } (.bytes 16) "bytes") = .ok m ∧
    ∀ bs : Bytes, 16 ≤ bs.length → (mapStream exEnv m bs 0 0 {}).1 = .ok .pyNone := by
  refine ⟨_, rfl, fun bs h => ?_⟩
  have hp : parse exEnv (.uuid { name := "uuid" } (.bytes 16) "bytes") bs 0 0 [] = .ok (.pyNone, 16) := by
    have h1 : tooSmall bs 0 16 = false := by simp [tooSmall]; omega
    simp [parse, uuidParse, fixedByteSize, h1]
  exact (mapStream_of_parse (c := {}) rfl hp).1

/-- **C97** (its limits) A sequence of 16-bit numbers of 3 bytes does not tell the third. -/
theorem C97_rest : ∃ m, createMap exEnv (.seq { name := "s" }
      { kind := .sequence, elementDataType := some "uint16", dataSize := some 3 } exU16) = .ok m ∧
    (mapStream exEnv m [1, 0, 5] 0 0 {}).1 = .ok (.tuple [.int 1]) ∧
    (mapStream exEnv m [1, 0, 6] 0 0 {}).1 = .ok (.tuple [.int 1]) ∧
    (mapStream exEnv m [1, 0, 6] 0 0 {}).2.byteSize = some 3 :=
  ⟨_, rfl, rfl, rfl, rfl⟩

end Dtf
