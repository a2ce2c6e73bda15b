import Verif.Linear
import Verif.Loop
/-!
Facts about the context-free parser, by induction over data type maps: bounds,
extension of the byte stream, byte offsets, and the entry `__builtins__`.
-/
namespace Dtf

/-! ### Single maps -/

/-- What has to hold for the terminator search of a stream not to look past the
end: terminators have the width of the element. -/
def termFull : DMap → Prop
  | .seq _ info ei _ _ =>
    info.kind ≠ .sequence → info.hasDataSize = false → info.hasNumElements = false →
        ∀ t, info.terminator = some (.bytes t) → t ≠ [] ∧ ei.byteSize = some (t.length : Int)
  | _ => True

/-- Terminators are not `None`. -/
def termNotNull : DMap → Prop
  | .seq _ info ei _ _ => info.terminator ≠ some .null ∧ ei.terminator ≠ some (some .null)
  | _ => True

/-- UUIDs have 16 bytes. -/
def uuid16 : DMap → Prop
  | .uuid _ s u => fixedByteSize s u = none ∨ fixedByteSize s u = some 16
  | _ => True

/-- Linear maps read no more bytes than their size. -/
def opFits (m : DMap) : Prop :=
  match m with
  | .seq _ info ei bsz _ => info.kind = .sequence → seqLinear info ei = true →
      ∀ op n, m.op = some op → bsz = some n → (codesSize op.codes : Int) ≤ n
  | .struct _ bsz linear _ _ _ => linear = true →
      ∀ op n, m.op = some op → bsz = some n → (codesSize op.codes : Int) ≤ n
  | _ => True

theorem fixedByteSize_nat {s : Size} {u : String} {n : Int} (h : fixedByteSize s u = some n) :
    ∃ k : Nat, n = k := by
  unfold fixedByteSize at h
  split at h
  · cases h
  · split at h
    · exact ⟨_, (Option.some.inj h).symm⟩
    · cases h

theorem not_tooSmall {bs : Bytes} {off : Nat} {n : Int} (h : tooSmall bs off n = false) :
    n.toNat = 0 ∨ off + n.toNat ≤ bs.length := by
  unfold tooSmall at h
  simp only [decide_eq_false_iff_not] at h
  omega

theorem isTerm_true {b : Bytes} {t : Lit} (h : isTerm b t = true) : t = .bytes b := by
  unfold isTerm pyEq at h
  cases t <;> simp_all [Val.num?, Lit.num?]

/-! ### Bounds -/

theorem scanTerm_found_le (bs t : Bytes) (ht : t ≠ []) (fuel cur n : Nat)
    (h : scanTerm bs t.length (.bytes t) fuel cur (cur + t.length) = .found n) : n ≤ bs.length := by
  have hpos : 0 < t.length := List.length_pos_iff.mpr ht
  induction fuel generalizing cur with
  | zero => simp [scanTerm] at h
  | succ fuel ih =>
    rw [scanTerm] at h
    split at h
    · split at h
      · rename_i hc heq
        cases h
        have := isTerm_true heq
        simp only [Lit.bytes.injEq] at this
        have hl : t.length = (slice bs cur (cur + t.length)).length := by rw [← this]
        simp only [slice, List.length_take, List.length_drop] at hl
        omega
      · exact ih _ h
    · split at h <;> cases h

theorem scanTerm_lit (bs : Bytes) (es : Nat) (t : Lit) (ht : ∀ b, t ≠ .bytes b) (fuel cur next n : Nat) :
    scanTerm bs es t fuel cur next ≠ .found n ∧ scanTerm bs es t fuel cur next ≠ .emptyMatch := by
  have hno : ∀ b, isTerm b t = false := by
    intro b
    cases h : isTerm b t
    · rfl
    · exact absurd (isTerm_true h) (ht b)
  induction fuel generalizing cur next with
  | zero => simp [scanTerm]
  | succ fuel ih =>
    rw [scanTerm]
    simp only [hno, Bool.false_eq_true, if_false]
    split
    · exact ih _ _
    · simp

theorem streamParse_bound (E : Env) (h : Hdr) (info : SeqInfo) (ei : ElemInfo) (bsz : Option Int)
    (e : DMap) (hk : info.kind ≠ .sequence) (hf : termFull (.seq h info ei bsz e)) (bs : Bytes)
    (off : Nat) (ns : Namespace) (b : Bytes) (n : Nat)
    (hp : streamParse E info ei bs off ns = .ok (b, n)) : n = 0 ∨ off + n ≤ bs.length := by
  unfold streamParse at hp
  split at hp
  · cases hp
  · split at hp
    · cases hp
    · rename_i hts
      cases hp
      exact not_tooSmall (by simpa using hts)
  · rename_i hsz
    split at hp
    · cases hp
    rename_i t ht
    split at hp
    · cases hp
    rename_i es hes
    split at hp
    · rename_i k hs
      cases hp
      have hnosize : info.hasDataSize = false ∧ info.hasNumElements = false := by
        unfold streamSize at hsz
        rw [hes] at hsz
        cases h1 : info.hasDataSize
        · cases h2 : info.hasNumElements
          · exact ⟨rfl, rfl⟩
          · rw [h1, h2] at hsz
            simp only [Bool.false_eq_true, if_false, if_true] at hsz
            split at hsz <;> cases hsz
        · rw [h1] at hsz
          simp only [if_true] at hsz
          split at hsz <;> cases hsz
      by_cases hb : ∃ tb, t = .bytes tb
      · obtain ⟨tb, rfl⟩ := hb
        have hff : tb ≠ [] ∧ ei.byteSize = some (tb.length : Int) :=
          hf hk hnosize.1 hnosize.2 tb ht
        rw [hes] at hff
        have hes' := Option.some.inj hff.2
        subst hes'
        simp only [Int.toNat_natCast] at hs
        rw [show tb.length = 0 + tb.length by omega] at hs
        have := scanTerm_found_le (bs.drop off) tb hff.1 _ 0 n (by simpa using hs)
        simp only [List.length_drop] at this
        omega
      · exact absurd hs (scanTerm_lit _ _ t (fun b hb' => hb ⟨b, hb'⟩) _ _ _ _).1
    · cases hp
    · cases hp
    · cases hp

theorem seqEnd_used {num dataSize : Option Int} {term : Option Lit} {index used : Nat} {last : Val}
    {vs : List Val} {u : Nat} (h : seqEnd num dataSize term index used last = .ok (vs, u)) :
    vs = [] ∧ u = used := by
  unfold seqEnd at h
  split at h
  · cases h
  · cases term with
    | none => cases h; exact ⟨rfl, rfl⟩
    | some t =>
      simp only at h
      split at h
      · cases h
      · cases h; exact ⟨rfl, rfl⟩

theorem seqParse_bound (step : Nat → PRes) (len : Nat) (num dataSize : Option Int)
    (term : Option Lit)
    (hstep : ∀ off v n, step off = .ok (v, n) → n = 0 ∨ off + n ≤ len)
    (fuel off used index : Nat) (last : Val) (vs : List Val) (u : Nat)
    (h : seqParse step len num dataSize term fuel off used index last = .ok (vs, u)) :
    ∃ k, u = used + k ∧ (k = 0 ∨ off + k ≤ len) := by
  induction fuel generalizing off used index last vs u with
  | zero => cases h
  | succ fuel ih =>
    rw [seqParse] at h
    split at h
    · exact ⟨0, (seqEnd_used h).2, .inl rfl⟩
    · split at h
      · cases h
      rename_i v n hs
      have hb := hstep _ _ _ hs
      split at h
      · cases h
      rename_i vs' u' hr
      cases h
      split at hr
      · exact ⟨n, (seqEnd_used hr).2, hb⟩
      · obtain ⟨k, h1, h2⟩ := ih _ _ _ _ _ _ hr
        exact ⟨n + k, by omega, by omega⟩

theorem parseMembers_bound (E : Env) (cls : String) (bs : Bytes) (depth : Nat) (outer : Namespace)
    (maps : List DMap)
    (hm : ∀ m ∈ maps, ∀ off depth ns v n, parse E m bs off depth ns = .ok (v, n) →
      n = 0 ∨ off + n ≤ bs.length)
    (infos : List MemInfo) (off used : Nat) (attrs attrs' : List (String × Val)) (u : Nat)
    (h : parseMembers E cls bs depth outer infos maps off used attrs = .ok (attrs', u)) :
    ∃ k, u = used + k ∧ (k = 0 ∨ off + k ≤ bs.length) := by
  induction maps generalizing infos off used attrs with
  | nil => simp [parseMembers] at h; exact ⟨0, by omega, .inl rfl⟩
  | cons m maps ih =>
    have ih := ih (fun m hm' => hm m (List.mem_cons_of_mem _ hm'))
    cases infos with
    | nil => simp [parseMembers] at h; exact ⟨0, by omega, .inl rfl⟩
    | cons info infos =>
      rw [parseMembers] at h
      split at h
      · cases h
      · exact ih _ _ _ _ h
      · split at h
        · cases h
        · rename_i v n hp
          have hb := hm m List.mem_cons_self _ _ _ _ _ hp
          split at h
          · cases h
          · obtain ⟨k, h1, h2⟩ := ih _ _ _ _ h
            exact ⟨n + k, by omega, by omega⟩

/-- A successful parse stays inside the byte stream. -/
theorem parse_bound (E : Env) (m : DMap) (hf : m.Every termFull) (bs : Bytes) :
    ∀ off depth ns v n, parse E m bs off depth ns = .ok (v, n) → n = 0 ∨ off + n ≤ bs.length := by
  induction m using DMap.ind with
  | missing => intro off depth ns v n h; simp [parse] at h
  | prim h k s u =>
    intro off depth ns v n hp
    simp only [parse, primParse] at hp
    split at hp
    · cases hp
    split at hp
    · cases hp
    rename_i hts
    split at hp
    · cases hp
    · cases hp
      exact not_tooSmall (by simpa using hts)
  | uuid h s u =>
    intro off depth ns v n hp
    simp only [parse, uuidParse] at hp
    split at hp
    · cases hp
    split at hp
    · cases hp
    rename_i hts
    have := not_tooSmall (by simpa using hts)
    split at hp
    · cases hp; exact this
    · split at hp <;> cases hp; exact this
    · split at hp <;> cases hp; exact this
  | padding h a =>
    intro off depth ns v n hp
    simp only [parse, paddingParse] at hp
    split at hp
    · cases hp
    split at hp
    · cases hp
    rename_i hts
    cases hp
    exact not_tooSmall (by simpa using hts)
  | seq h info ei bsz e ih =>
    intro off depth ns v n hp
    have hself := hf.self
    simp only [DMap.Every] at hf
    simp only [parse] at hp
    split at hp
    · rename_i hk
      split at hp
      · cases hp
      · rename_i b k hs
        cases hp
        exact streamParse_bound E h info ei bsz e (by rw [hk]; simp) hself bs off ns b n hs
    · rename_i hk
      unfold stringParse at hp
      split at hp
      · cases hp
      rename_i b k hs
      have := streamParse_bound E h info ei bsz e (by rw [hk]; simp) hself bs off ns b k hs
      split at hp
      · cases hp
      split at hp
      · cases hp
      · cases hp; exact this
    · split at hp
      · unfold linearSeqParse at hp
        split at hp
        · cases hp
        split at hp
        · cases hp
        rename_i hts
        split at hp
        · cases hp
        split at hp
        · split at hp
          · cases hp
          · cases hp; exact not_tooSmall (by simpa using hts)
        · cases hp
      · unfold compositeSeqParse at hp
        split at hp
        · cases hp
        split at hp
        · cases hp
        split at hp
        · cases hp
        rename_i hs
        cases hp
        obtain ⟨k, h1, h2⟩ := seqParse_bound _ _ _ _ _
          (fun off v n h => ih hf.2 off _ _ v n h) _ _ _ _ _ _ _ hs
        omega
  | struct h b l io infos maps ih =>
    intro off depth ns v n hp
    simp only [DMap.Every, everyMap_iff] at hf
    simp only [parse] at hp
    split at hp
    · unfold linearStructParse at hp
      split at hp
      · cases hp
      split at hp
      · cases hp
      rename_i hts
      split at hp
      · cases hp
      split at hp
      · cases hp
      split at hp
      · cases hp
      split at hp
      · cases hp; exact not_tooSmall (by simpa using hts)
      · cases hp
    · split at hp
      · cases hp
      split at hp
      · cases hp
      split at hp
      · cases hp
      split at hp
      · cases hp
      rename_i hs
      cases hp
      obtain ⟨k, h1, h2⟩ := parseMembers_bound E _ bs _ _ maps
        (fun m hm => ih m hm (hf.2 m hm)) _ _ _ _ _ _ hs
      omega
  | constant h => intro off depth ns v n h; simp [parse] at h
  | enumeration h vs => intro off depth ns v n h; simp [parse] at h
  | format h l => intro off depth ns v n h; simp [parse] at h
  | group h ident base dflt keys maps ih1 ih2 ih3 =>
    intro off depth ns v n hp
    simp only [DMap.Every, everyMap_iff, everyOptMap_iff] at hf
    simp only [parse] at hp
    split at hp
    · cases hp
    split at hp
    · cases hp
    split at hp
    · split at hp
      · cases hp
      rw [parseNth_eq] at hp
      split at hp
      · cases hp
      · rename_i i _ _ r hr
        cases hp
        split at hr
        · cases hr
        · rename_i m hm
          exact ih3 m (List.mem_of_getElem? hm) (hf.2.2.2 m (List.mem_of_getElem? hm)) _ _ _ _ _ hr
    · split at hp
      · cases hp
      split at hp
      · cases hp
      · rename_i r hr
        cases hp
        cases dflt with
        | none => cases hr
        | some d => exact ih2 d rfl (hf.2.2.1 d rfl) _ _ _ _ _ hr

/-! ### Longer byte streams -/

theorem tooSmall_append {bs ext : Bytes} {off : Nat} {n : Int} (h : tooSmall bs off n = false) :
    tooSmall (bs ++ ext) off n = false := by
  unfold tooSmall at *
  simp only [decide_eq_false_iff_not, List.length_append] at *
  omega

theorem take_drop_append {bs ext : Bytes} {off n : Nat} (h : n = 0 ∨ off + n ≤ bs.length) :
    ((bs ++ ext).drop off).take n = (bs.drop off).take n := by
  rcases h with rfl | h
  · simp
  · rw [List.drop_append_of_le_length (by omega), List.take_append_of_le_length]
    rw [List.length_drop]; omega

theorem slice_append {bs ext : Bytes} {off n : Nat} (h : n = 0 ∨ off + n ≤ bs.length) :
    slice (bs ++ ext) off (off + n) = slice bs off (off + n) := by
  unfold slice
  rw [show off + n - off = n by omega]
  exact take_drop_append h

theorem unpackAll_append (E : Env) (o : Order) (cs : List Code) (bs ext : Bytes)
    (h : codesSize cs ≤ bs.length) : unpackAll E o cs (bs ++ ext) = unpackAll E o cs bs := by
  induction cs generalizing bs with
  | nil => rfl
  | cons c cs ih =>
    simp only [codesSize] at h
    rw [unpackAll, unpackAll, List.take_append_of_le_length (by omega),
      List.drop_append_of_le_length (by omega), ih]
    rw [List.length_drop]; omega

theorem readFrom_append (E : Env) (op : Op) (bs ext : Bytes) (off : Nat)
    (h : codesSize op.codes = 0 ∨ off + codesSize op.codes ≤ bs.length) :
    op.readFrom E ((bs ++ ext).drop off) = op.readFrom E (bs.drop off) := by
  unfold Op.readFrom
  rcases h with h | h
  · rw [if_neg (by omega), if_neg (by omega)]
    congr 1
    have : ∀ a b, codesSize op.codes ≤ a → unpackAll E op.order op.codes b =
        unpackAll E op.order op.codes [] := by
      intro a b _
      have := unpackAll_append E op.order op.codes [] b (by simp [h])
      simpa using this
    rw [this 0 _ (by omega), this 0 (bs.drop off) (by omega)]
  · rw [if_neg (by simp only [List.length_drop, List.length_append]; omega),
      if_neg (by simp only [List.length_drop]; omega),
      List.drop_append_of_le_length (by omega), unpackAll_append]
    rw [List.length_drop]; omega

theorem primParse_append (E : Env) (h : Hdr) (k : PrimKind) (s : Size) (u : String)
    (bs ext : Bytes) (off : Nat) (hne : primParse E h k s u bs off ≠ .error .tooSmall) :
    primParse E h k s u (bs ++ ext) off = primParse E h k s u bs off := by
  unfold primParse at *
  cases hf : fixedByteSize s u with
  | none => rfl
  | some n =>
    rw [hf] at hne
    simp only at hne ⊢
    cases hts : tooSmall bs off n with
    | true => rw [hts] at hne; simp at hne
    | false =>
      rw [tooSmall_append hts]
      have hb := not_tooSmall hts
      have hread : primRead E h.order k s ((bs ++ ext).drop off) = primRead E h.order k s (bs.drop off) := by
        unfold primRead
        cases hc : primCode k s with
        | none => rfl
        | some c =>
          have hsz : c.size = n.toNat := by
            unfold fixedByteSize at hf
            split at hf
            · cases hf
            · split at hf
              · cases hf
                have := primCode_size hc
                omega
              · cases hf
          simp only
          rw [hsz, take_drop_append hb]
          rcases hb with hb | hb
          · rw [if_neg (by omega), if_neg (by omega)]
          · rw [if_neg (by simp only [List.length_drop, List.length_append]; omega),
              if_neg (by simp only [List.length_drop]; omega)]
      rw [hread]

theorem uuidParse_append (h : Hdr) (s : Size) (u : String) (h16 : uuid16 (.uuid h s u))
    (bs ext : Bytes) (off : Nat) (hne : uuidParse h s u bs off ≠ .error .tooSmall) :
    uuidParse h s u (bs ++ ext) off = uuidParse h s u bs off := by
  unfold uuidParse at *
  rcases h16 with h16 | h16
  · rw [h16]
  · rw [h16] at hne ⊢
    simp only at hne ⊢
    cases hts : tooSmall bs off 16 with
    | true => rw [hts] at hne; simp at hne
    | false =>
      have hb := not_tooSmall hts
      rw [tooSmall_append hts, slice_append (by omega)]

theorem paddingParse_append (a : Option Nat) (bs ext : Bytes) (off : Nat)
    (hne : paddingParse a bs off ≠ .error .tooSmall) :
    paddingParse a (bs ++ ext) off = paddingParse a bs off := by
  unfold paddingParse at *
  cases hc : calcPadding a off with
  | error e => rfl
  | ok n =>
    rw [hc] at hne
    simp only at hne ⊢
    cases hts : tooSmall bs off n with
    | true => rw [hts] at hne; simp at hne
    | false => rw [tooSmall_append hts, slice_append (not_tooSmall hts)]

theorem scanTerm_append (bs ext t : Bytes) (ht : t ≠ []) (fuel cur n : Nat)
    (h : scanTerm bs t.length (.bytes t) fuel cur (cur + t.length) = .found n) :
    scanTerm (bs ++ ext) t.length (.bytes t) fuel cur (cur + t.length) = .found n := by
  have hpos : 0 < t.length := List.length_pos_iff.mpr ht
  induction fuel generalizing cur with
  | zero => simp [scanTerm] at h
  | succ fuel ih =>
    have hle := scanTerm_found_le bs t ht _ _ _ h
    rw [scanTerm] at h ⊢
    split at h
    · rename_i hc
      rw [if_pos (by rw [List.length_append]; omega)]
      split at h
      · rename_i heq
        cases h
        rw [slice_append (by omega), if_pos heq]
      · rename_i hneq
        have hn : cur + t.length ≤ n := by
          have : ∀ fuel cur, scanTerm bs t.length (.bytes t) fuel cur (cur + t.length) = .found n →
              cur + t.length ≤ n := by
            intro fuel
            induction fuel with
            | zero => intro cur h; simp [scanTerm] at h
            | succ fuel ih =>
              intro cur h
              rw [scanTerm] at h
              split at h
              · split at h
                · cases h; omega
                · have := ih _ h; omega
              · split at h <;> cases h
          have := this _ _ h
          omega
        rw [slice_append (by omega), if_neg hneq]
        exact ih _ h
    · split at h <;> cases h

theorem scanTerm_other_append (bs ext : Bytes) (es : Nat) (t : Lit) (ht : ∀ b, t ≠ .bytes b)
    (hes : es ≠ 0 → False) (fuel fuel' : Nat) (hf : 0 < fuel) (_ : 0 < fuel')
    (h : scanTerm bs es t fuel 0 es = .diverge) :
    scanTerm (bs ++ ext) es t fuel' 0 es = .diverge := by
  have h0 : es = 0 := Classical.byContradiction hes
  subst h0
  have hno : isTerm [] t = false := by
    cases h : isTerm [] t
    · rfl
    · exact absurd (isTerm_true h) (ht [])
  have key : ∀ (bs : Bytes), 0 < bs.length → ∀ fuel, scanTerm bs 0 t fuel 0 0 = .diverge := by
    intro bs hb fuel
    induction fuel with
    | zero => rfl
    | succ fuel ih =>
      rw [scanTerm, if_pos hb]
      simp only [slice, List.drop_zero, Nat.sub_self, List.take_zero, hno, Bool.false_eq_true,
        if_false]
      exact ih
  apply key
  rw [List.length_append]
  cases fuel with
  | zero => omega
  | succ fuel =>
    rw [scanTerm] at h
    split at h
    · omega
    · split at h <;> cases h

theorem streamParse_append (E : Env) (h : Hdr) (info : SeqInfo) (ei : ElemInfo) (bsz : Option Int)
    (e : DMap) (hk : info.kind ≠ .sequence) (hf : termFull (.seq h info ei bsz e))
    (bs ext : Bytes) (off : Nat) (ns : Namespace)
    (hne : streamParse E info ei bs off ns ≠ .error .tooSmall) :
    streamParse E info ei (bs ++ ext) off ns = streamParse E info ei bs off ns := by
  cases hp : streamParse E info ei bs off ns with
  | ok r =>
    obtain ⟨b, n⟩ := r
    have hb := streamParse_bound E h info ei bsz e hk hf bs off ns b n hp
    clear hne
    unfold streamParse at hp ⊢
    split at hp
    · cases hp
    · split at hp
      · cases hp
      · rename_i hts
        cases hp
        rw [tooSmall_append (by simpa using hts), slice_append (not_tooSmall (by simpa using hts))]
        rfl
    · rename_i hsz
      split at hp
      · cases hp
      rename_i t ht
      split at hp
      · cases hp
      rename_i es hes
      split at hp
      · rename_i k hs
        cases hp
        have hnosize : info.hasDataSize = false ∧ info.hasNumElements = false := by
          unfold streamSize at hsz
          rw [hes] at hsz
          cases h1 : info.hasDataSize
          · cases h2 : info.hasNumElements
            · exact ⟨rfl, rfl⟩
            · rw [h1, h2] at hsz
              simp only [Bool.false_eq_true, if_false, if_true] at hsz
              split at hsz <;> cases hsz
          · rw [h1] at hsz
            simp only [if_true] at hsz
            split at hsz <;> cases hsz
        by_cases hbt : ∃ tb, t = .bytes tb
        · obtain ⟨tb, rfl⟩ := hbt
          have hff : tb ≠ [] ∧ ei.byteSize = some (tb.length : Int) :=
            hf hk hnosize.1 hnosize.2 tb ht
          have hpos : 0 < tb.length := List.length_pos_iff.mpr hff.1
          rw [hes] at hff
          have hes' := Option.some.inj hff.2
          subst hes'
          simp only [Int.toNat_natCast] at hs ⊢
          have hle := scanTerm_found_le (bs.drop off) tb hff.1 _ 0 n (by simpa using hs)
          have hoff : off ≤ bs.length := by
            rcases Nat.lt_or_ge bs.length off with hlt | hge
            · rw [List.drop_eq_nil_of_le (by omega)] at hs
              rw [scanTerm] at hs
              simp only [List.length_nil, Nat.lt_irrefl, if_false] at hs
              split at hs <;> cases hs
            · exact hge
          have h2 := scanTerm_append (bs.drop off) ext tb hff.1 _ 0 n (by simpa using hs)
          rw [List.drop_append_of_le_length hoff,
            scanTerm_fuel _ _ _ hpos _ (bs.length - off + 2 + ext.length) _ _ ?_ ?_ hpos]
          · have h3 : scanTerm (bs.drop off ++ ext) tb.length (.bytes tb)
                (bs.length - off + 2 + ext.length) 0 tb.length = .found n := by
              have hmono : ∀ (bs : Bytes) fuel extra cur next, scanTerm bs tb.length (.bytes tb) fuel cur next = .found n →
                  scanTerm bs tb.length (.bytes tb) (fuel + extra) cur next = .found n := by
                intro bs fuel extra
                induction fuel with
                | zero => intro cur next h; simp [scanTerm] at h
                | succ fuel ih =>
                  intro cur next h
                  rw [show fuel + 1 + extra = fuel + extra + 1 by omega, scanTerm]
                  rw [scanTerm] at h
                  split at h
                  · rename_i hc
                    rw [if_pos hc]
                    split at h
                    · rename_i hi; rw [if_pos hi]; exact h
                    · rename_i hi; rw [if_neg hi]; exact ih _ _ h
                  · split at h <;> cases h
              exact hmono _ _ _ _ _ (by simpa using h2)
            rw [h3]
            simp only
            rw [slice_append hb]
          · simp only [List.length_append, List.length_drop]; omega
          · simp only [List.length_append, List.length_drop]; omega
        · exact absurd hs (scanTerm_lit _ _ t (fun b hb' => hbt ⟨b, hb'⟩) _ _ _ _).1
      · cases hp
      · cases hp
      · cases hp
  | error er =>
    rw [hp] at hne
    unfold streamParse at hp ⊢
    split at hp
    · cases hp; rfl
    · split at hp
      · cases hp; exact absurd rfl hne
      · cases hp
    · rename_i hsz
      split at hp
      · cases hp; rfl
      rename_i t ht
      split at hp
      · cases hp; rfl
      rename_i es hes
      have hnosize : info.hasDataSize = false ∧ info.hasNumElements = false := by
        unfold streamSize at hsz
        rw [hes] at hsz
        cases h1 : info.hasDataSize
        · cases h2 : info.hasNumElements
          · exact ⟨rfl, rfl⟩
          · rw [h1, h2] at hsz
            simp only [Bool.false_eq_true, if_false, if_true] at hsz
            split at hsz <;> cases hsz
        · rw [h1] at hsz
          simp only [if_true] at hsz
          split at hsz <;> cases hsz
      by_cases hbt : ∃ tb, t = .bytes tb
      · obtain ⟨tb, rfl⟩ := hbt
        have hff : tb ≠ [] ∧ ei.byteSize = some (tb.length : Int) :=
          hf hk hnosize.1 hnosize.2 tb ht
        have hpos : 0 < tb.length := List.length_pos_iff.mpr hff.1
        rw [hes] at hff
        have hes' := Option.some.inj hff.2
        subst hes'
        simp only [Int.toNat_natCast] at hp
        split at hp
        · cases hp
        · cases hp; exact absurd rfl hne
        · rename_i hs
          exfalso
          have : ∀ (bs : Bytes) fuel cur, scanTerm bs tb.length (.bytes tb) fuel cur (cur + tb.length) ≠ .emptyMatch := by
            intro bs fuel
            induction fuel with
            | zero => intro cur; simp [scanTerm]
            | succ fuel ih =>
              intro cur
              rw [scanTerm]
              split
              · split
                · simp
                · exact ih _
              · rename_i hc
                split
                · rename_i heq
                  have := isTerm_true heq
                  simp only [Lit.bytes.injEq] at this
                  have hl : tb.length = (slice bs cur (cur + tb.length)).length := by rw [← this]
                  simp only [slice, List.length_take, List.length_drop] at hl
                  omega
                · simp
          exact this _ _ 0 (by simpa using hs)
        · rename_i hs
          exact absurd hs (scanTerm_no_diverge _ _ _ hpos _ _ _
            (by simp only [List.length_drop]; omega) hpos)
      · have hnb : ∀ b, t ≠ .bytes b := fun b hb' => hbt ⟨b, hb'⟩
        split at hp
        · cases hp
        · cases hp; exact absurd rfl hne
        · rename_i hs
          exact absurd hs (scanTerm_lit _ _ t hnb _ _ _ 0).2
        · rename_i hs
          cases hp
          have hoff : off ≤ bs.length := by
            rcases Nat.lt_or_ge bs.length off with hlt | hge
            · rw [List.drop_eq_nil_of_le (by omega)] at hs
              rw [scanTerm] at hs
              simp only [List.length_nil, Nat.lt_irrefl, if_false] at hs
              split at hs <;> cases hs
            · exact hge
          rw [List.drop_append_of_le_length hoff, scanTerm_other_append _ _ _ t hnb ?_ _ _ ?_ ?_ hs]
          · intro hpos
            exact absurd hs (scanTerm_no_diverge _ _ _ (by omega) _ _ _
              (by simp only [List.length_drop]; omega) (by omega))
          · omega
          · omega

theorem wrapErr_tooSmall {e : Err} (h : wrapErr e ≠ .tooSmall) : e ≠ .tooSmall := by
  intro he; subst he; exact h rfl

theorem seqParse_append (step step' : Nat → PRes) (len len' : Nat) (num dataSize : Option Int)
    (term : Option Lit) (hlen : len ≤ len') (hrule : num.isSome = true ∨ term.isSome = true)
    (hstep : ∀ off, step off ≠ .error .tooSmall → step' off = step off)
    (fuel off used index : Nat) (last : Val) (hlast : atTerm term last = false)
    (hne : seqParse step len num dataSize term fuel off used index last ≠ .error .tooSmall) :
    seqParse step' len' num dataSize term fuel off used index last =
      seqParse step len num dataSize term fuel off used index last := by
  induction fuel generalizing off used index last with
  | zero => rfl
  | succ fuel ih =>
    rw [seqParse] at hne
    rw [seqParse, seqParse]
    cases hn : atNumber num index with
    | true => simp
    | false =>
      cases hd : atDataSize dataSize used with
      | true => simp
      | false =>
        simp only [hn, hd, Bool.or_false, decide_eq_true_eq] at hne ⊢
        by_cases hl : len ≤ off
        · exfalso
          rw [if_pos hl] at hne
          apply hne
          unfold seqEnd
          rw [hn, hd]
          cases num with
          | some n => simp
          | none =>
            cases term with
            | none => simp at hrule
            | some t =>
              simp only [atTerm] at hlast
              simp [hlast]
        · rw [if_neg hl] at hne ⊢
          rw [if_neg (by omega : ¬ len' ≤ off)]
          have hs : step off ≠ .error .tooSmall := by
            intro hs; rw [hs] at hne; exact hne rfl
          rw [hstep off hs]
          cases hst : step off with
          | error e => rfl
          | ok r =>
            obtain ⟨v, n⟩ := r
            rw [hst] at hne
            simp only at hne ⊢
            cases ht : atTerm term v with
            | true => rfl
            | false =>
              rw [ht] at hne
              simp only [Bool.false_eq_true, if_false] at hne ⊢
              rw [ih _ _ _ _ ht]
              intro h; rw [h] at hne; exact hne rfl

theorem parseMembers_append (E : Env) (cls : String) (bs ext : Bytes) (depth : Nat)
    (outer : Namespace) (maps : List DMap)
    (hm : ∀ m ∈ maps, ∀ off depth ns, parse E m bs off depth ns ≠ .error .tooSmall →
      parse E m (bs ++ ext) off depth ns = parse E m bs off depth ns)
    (infos : List MemInfo) (off used : Nat) (attrs : List (String × Val))
    (hne : parseMembers E cls bs depth outer infos maps off used attrs ≠ .error .tooSmall) :
    parseMembers E cls (bs ++ ext) depth outer infos maps off used attrs =
      parseMembers E cls bs depth outer infos maps off used attrs := by
  induction maps generalizing infos off used attrs with
  | nil => simp [parseMembers]
  | cons m maps ih =>
    have ih := ih (fun m hm' => hm m (List.mem_cons_of_mem _ hm'))
    cases infos with
    | nil => simp [parseMembers]
    | cons info infos =>
      rw [parseMembers] at hne
      rw [parseMembers, parseMembers]
      try simp only at hne ⊢
      split
      · rfl
      · rename_i hc; rw [hc] at hne; exact ih _ _ _ _ hne
      · rename_i hc
        rw [hc] at hne
        simp only at hne
        have hp : parse E m bs off (depth + 1) (structNs cls attrs outer) ≠ .error .tooSmall := by
          intro hp; rw [hp] at hne; exact hne rfl
        rw [hm m List.mem_cons_self _ _ _ hp]
        split
        · rfl
        · rename_i hpp
          rw [hpp] at hne
          simp only at hne
          split
          · rfl
          · rename_i hv
            rw [if_neg hv] at hne
            exact ih _ _ _ _ hne

theorem seqRules_ok {E : Env} {h : Hdr} {info : SeqInfo} {ei : ElemInfo} {bsz : Option Int} {e : DMap}
    {ns : Namespace} {ds num : Option Int} {term : Option Lit}
    (hs : (seqRules E info ei ns).1 = .ok (ds, term, num)) (hn : termNotNull (.seq h info ei bsz e)) :
    (num.isSome = true ∨ term.isSome = true) ∧ atTerm term .pyNone = false := by
  have aux : ∀ t : Lit, t ≠ .null → pyEq .pyNone t = false := by
    intro t ht
    cases t <;> simp_all [pyEq, Val.num?, Lit.num?]
  unfold seqRules at hs
  obtain ⟨h1, h2⟩ := hn
  cases hd : info.hasDataSize with
  | true =>
    simp only [hd, if_true] at hs
    cases hev : evalDataSize E info ns with
    | error x => simp only [hev] at hs; cases hs
    | ok n =>
      simp only [hev] at hs
      cases hb : ei.byteSize with
      | some es =>
        simp only [hb] at hs
        by_cases h0 : es = 0
        · simp only [h0, if_true] at hs; cases hs
        · simp only [h0, if_false] at hs; cases hs; simp [atTerm]
      | none =>
        simp only [hb] at hs
        cases ht : ei.terminator with
        | none => simp only [ht] at hs; cases hs
        | some t =>
          simp only [ht] at hs
          cases t with
          | none => cases hs
          | some t =>
            cases hs
            exact ⟨.inr rfl, aux t (fun h => h2 (by rw [ht, h]))⟩
  | false =>
    simp only [hd, Bool.false_eq_true, if_false] at hs
    cases ht : info.terminator with
    | some t =>
      simp only [ht, Option.isSome_some, if_true] at hs
      cases hs
      exact ⟨.inr rfl, aux t (fun h => h1 (by rw [ht, h]))⟩
    | none =>
      simp only [ht, Option.isSome_none, Bool.false_eq_true, if_false] at hs
      cases hn : info.hasNumElements with
      | false => simp only [hn, Bool.false_eq_true, if_false] at hs; cases hs
      | true =>
        simp only [hn, if_true] at hs
        cases hev : countable (evalNumElements E info ns) with
        | error x => simp only [hev] at hs; cases hs
        | ok n => simp only [hev] at hs; cases hs; simp [atTerm]

/-- What the extension lemma needs of every map. -/
def Extendable (m : DMap) : Prop := termFull m ∧ termNotNull m ∧ uuid16 m ∧ opFits m

/-- More bytes after the end do not change a result other than "too small". -/
theorem parse_append (E : Env) (m : DMap) (hf : m.Every Extendable) (bs ext : Bytes) :
    ∀ off depth ns, parse E m bs off depth ns ≠ .error .tooSmall →
      parse E m (bs ++ ext) off depth ns = parse E m bs off depth ns := by
  induction m using DMap.ind with
  | missing => intros; simp [parse]
  | prim h k s u =>
    intro off depth ns hne
    simp only [parse] at hne ⊢
    exact primParse_append E h k s u bs ext off hne
  | uuid h s u =>
    intro off depth ns hne
    simp only [parse] at hne ⊢
    exact uuidParse_append h s u hf.self.2.2.1 bs ext off hne
  | padding h a =>
    intro off depth ns hne
    simp only [parse] at hne ⊢
    exact paddingParse_append a bs ext off hne
  | seq h info ei bsz e ih =>
    intro off depth ns hne
    have hself := hf.self
    simp only [DMap.Every] at hf
    simp only [parse] at hne ⊢
    split
    · rename_i hk
      rw [hk] at hne
      simp only at hne
      rw [streamParse_append E h info ei bsz e (by rw [hk]; simp) hself.1]
      intro hs; rw [hs] at hne; exact hne rfl
    · rename_i hk
      rw [hk] at hne
      simp only at hne
      unfold stringParse at hne ⊢
      rw [streamParse_append E h info ei bsz e (by rw [hk]; simp) hself.1]
      intro hs; rw [hs] at hne; exact hne rfl
    · rename_i hk
      rw [hk] at hne
      simp only at hne
      split
      · rename_i hl
        rw [if_pos hl] at hne
        have hop := hself.2.2.2
        unfold linearSeqParse at hne ⊢
        cases bsz with
        | none => rfl
        | some n =>
          simp only at hne ⊢
          cases hts : tooSmall bs off n with
          | true => rw [hts] at hne; simp at hne
          | false =>
            rw [tooSmall_append hts]
            have hb := not_tooSmall hts
            have hread : ((DMap.seq h info ei (some n) e).op.bind fun op =>
                op.readFrom E ((bs ++ ext).drop off)) =
                ((DMap.seq h info ei (some n) e).op.bind fun op => op.readFrom E (bs.drop off)) := by
              cases hopv : (DMap.seq h info ei (some n) e).op with
              | none => rfl
              | some op =>
                have := hop hk hl op n hopv rfl
                exact readFrom_append E op bs ext off (by omega)
            rw [hread]
      · rename_i hl
        rw [if_neg hl] at hne
        unfold compositeSeqParse at hne ⊢
        split
        · rfl
        rename_i hdep
        rw [if_neg hdep] at hne
        split
        · rfl
        rename_i ds term num hr
        rw [hr] at hne
        simp only at hne
        obtain ⟨h1, h2⟩ := seqRules_ok hr hself.2.1
        have hfu : seqFuel bs.length off num 0 ≤ seqFuel (bs ++ ext).length off num 0 := by
          unfold seqFuel; rw [List.length_append]; omega
        rw [seqParse_adequate _ bs.length num ds term off 0 .pyNone _ hfu] at hne ⊢
        rw [seqParse_append _ _ bs.length _ num ds term (by rw [List.length_append]; omega) h1
          (fun o h => ih hf.2 o _ _ h) _ _ _ _ _ h2]
        intro hs; rw [hs] at hne; exact hne rfl
  | struct h b l io infos maps ih =>
    intro off depth ns hne
    have hself := hf.self
    simp only [DMap.Every, everyMap_iff] at hf
    simp only [parse] at hne ⊢
    split
    · rename_i hl
      rw [if_pos hl] at hne
      have hop := hself.2.2.2
      unfold linearStructParse at hne ⊢
      cases b with
      | none => rfl
      | some n =>
        simp only at hne ⊢
        cases hts : tooSmall bs off n with
        | true => rw [hts] at hne; simp at hne
        | false =>
          rw [tooSmall_append hts]
          have hb := not_tooSmall hts
          have hread : ((DMap.struct h (some n) l io infos maps).op.bind fun op =>
              op.readFrom E ((bs ++ ext).drop off)) =
              ((DMap.struct h (some n) l io infos maps).op.bind fun op => op.readFrom E (bs.drop off)) := by
            cases hopv : (DMap.struct h (some n) l io infos maps).op with
            | none => rfl
            | some op =>
              have := hop hl op n hopv rfl
              exact readFrom_append E op bs ext off (by omega)
          rw [hread]
    · rename_i hl
      rw [if_neg hl] at hne
      split
      · rfl
      rename_i hdep
      rw [if_neg hdep] at hne
      split
      · rfl
      rename_i hio
      rw [if_neg hio] at hne
      split
      · rfl
      rename_i hin
      rw [if_neg hin] at hne
      rw [parseMembers_append E _ bs ext _ _ maps (fun m hm => ih m hm (hf.2 m hm))]
      intro hs; rw [hs] at hne; exact hne rfl
  | constant h => intros; simp [parse]
  | enumeration h vs => intros; simp [parse]
  | format h l => intros; simp [parse]
  | group h ident base dflt keys maps ih1 ih2 ih3 =>
    intro off depth ns hne
    simp only [DMap.Every, everyMap_iff, everyOptMap_iff] at hf
    simp only [parse] at hne ⊢
    have hbase : parse E base bs off depth [] ≠ .error .tooSmall := by
      intro hs; rw [hs] at hne; exact hne rfl
    rw [ih1 hf.2.1 _ _ _ hbase]
    split
    · rfl
    rename_i v k hb
    rw [hb] at hne
    simp only at hne
    generalize getAttr v ident = g at hne ⊢
    cases g <;> try rfl
    all_goals
      simp only at hne ⊢
      split
      · rename_i i hi
        rw [hi] at hne
        simp only at hne
        split
        · rfl
        · rename_i hgm
          rw [if_neg hgm] at hne
          rw [parseNth_eq] at hne
          rw [parseNth_eq, parseNth_eq]
          cases hmi : maps[i]? with
          | none => rfl
          | some m =>
            rw [hmi] at hne
            simp only at hne ⊢
            have hmem := List.mem_of_getElem? hmi
            rw [ih3 m hmem (hf.2.2.2 m hmem)]
            intro hs; rw [hs] at hne; exact hne rfl
      · rename_i hi
        rw [hi] at hne
        simp only at hne
        split
        · rfl
        · rename_i hgm
          rw [if_neg hgm] at hne
          cases dflt with
          | none => rfl
          | some d =>
            simp only [parseOpt] at hne ⊢
            rw [ih2 d rfl (hf.2.2.1 d rfl)]
            intro hs; rw [hs] at hne; exact hne rfl

end Dtf
