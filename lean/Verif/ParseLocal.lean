import Verif.ParseFacts
import Verif.Spec
/-!
Facts about the context-free parser: the result depends on the bytes used alone.
-/
namespace Dtf
open Spec

/-- The second byte stream holds the same `n` bytes at `off` as the first. -/
def Same (bs bs' : Bytes) (off n : Nat) : Prop :=
  off + n ≤ bs'.length ∧ window bs' off n = window bs off n

/-- The elements of a sequence mapped one by one take bytes. -/
def seqMoves (E : Env) : DMap → Prop
  | .seq _ info ei _ e => info.kind = .sequence → seqLinear info ei = false →
      ∀ bs off depth ns v, parse E e bs off depth ns ≠ .ok (v, 0)
  | _ => True

/-- The base of a group takes no more bytes than its members. -/
def groupCovers (E : Env) : DMap → Prop
  | .group _ _ base dflt _ maps => ∀ m, dflt = some m ∨ m ∈ maps →
      ∀ bs off depth v k x n, parse E base bs off depth [] = .ok (v, k) →
        parse E m bs off depth [] = .ok (x, n) → k ≤ n
  | _ => True

theorem Same.sub {bs bs' : Bytes} {off n off' n' : Nat} (h : Same bs bs' off n) (h1 : off ≤ off')
    (h2 : off' + n' ≤ off + n) : Same bs bs' off' n' := by
  refine ⟨by have := h.1; omega, ?_⟩
  have key : ∀ l : Bytes, window l off' n' = ((window l off n).drop (off' - off)).take n' := by
    intro l
    unfold window
    rw [List.drop_take, List.drop_drop, List.take_take]
    congr 1
    · omega
    · congr 1; omega
  rw [key, key, h.2]

theorem Same.small {bs bs' : Bytes} {off : Nat} {n : Int} (h : Same bs bs' off n.toNat) :
    tooSmall bs' off n = false := by
  have := h.1
  unfold tooSmall
  simp only [decide_eq_false_iff_not]
  omega

theorem Same.slice {bs bs' : Bytes} {off n : Nat} (h : Same bs bs' off n) :
    slice bs' off (off + n) = slice bs off (off + n) := by
  have := h.2
  unfold window at this
  unfold Dtf.slice
  rw [show off + n - off = n by omega]
  exact this

theorem unpackAll_take (E : Env) (o : Order) (cs : List Code) (bs : Bytes)
    (h : codesSize cs ≤ bs.length) :
    unpackAll E o cs bs = unpackAll E o cs (bs.take (codesSize cs)) := by
  conv => lhs; rw [← List.take_append_drop (codesSize cs) bs]
  exact unpackAll_append E o cs _ _ (by rw [List.length_take]; omega)

theorem readFrom_same (E : Env) (op : Op) {bs bs' : Bytes} {off : Nat}
    (h : Same bs bs' off (codesSize op.codes)) (hl : codesSize op.codes ≤ (bs.drop off).length) :
    op.readFrom E (bs'.drop off) = op.readFrom E (bs.drop off) := by
  have h1 := h.1
  have hl' : codesSize op.codes ≤ (bs'.drop off).length := by rw [List.length_drop]; omega
  unfold Op.readFrom
  rw [if_neg (by omega), if_neg (by omega), unpackAll_take E _ _ _ hl, unpackAll_take E _ _ _ hl']
  have := h.2
  unfold window at this
  rw [this]

theorem primParse_same (E : Env) (h : Hdr) (k : PrimKind) (s : Size) (u : String) {bs bs' : Bytes}
    {off : Nat} {v : Val} {n : Nat} (hp : primParse E h k s u bs off = .ok (v, n))
    (hs : Same bs bs' off n) : primParse E h k s u bs' off = .ok (v, n) := by
  unfold primParse at *
  cases hf : fixedByteSize s u with
  | none => rw [hf] at hp; cases hp
  | some z =>
    rw [hf] at hp
    simp only at hp ⊢
    split at hp
    · cases hp
    rename_i hts
    split at hp
    · cases hp
    rename_i x hr
    cases hp
    rw [hs.small]
    have hb := not_tooSmall (by simpa using hts)
    have hread : primRead E h.order k s (bs'.drop off) = primRead E h.order k s (bs.drop off) := by
      unfold primRead at hr ⊢
      cases hc : primCode k s with
      | none => rfl
      | some c =>
        have hsz : c.size = z.toNat := by
          unfold fixedByteSize at hf
          split at hf
          · cases hf
          · split at hf
            · cases hf
              have := primCode_size hc
              omega
            · cases hf
        rw [hc] at hr
        simp only at hr ⊢
        split at hr
        · cases hr
        rename_i hlen
        rw [if_neg hlen, if_neg (by have := hs.1; simp only [List.length_drop]; omega), hsz]
        have := hs.2
        unfold window at this
        rw [this]
    rw [hread, hr]
    rfl

theorem uuidParse_same (h : Hdr) (s : Size) (u : String) (h16 : uuid16 (.uuid h s u))
    {bs bs' : Bytes} {off : Nat} {v : Val} {n : Nat} (hp : uuidParse h s u bs off = .ok (v, n))
    (hs : Same bs bs' off n) : uuidParse h s u bs' off = .ok (v, n) := by
  unfold uuidParse at *
  rcases h16 with h16 | h16
  · rw [h16] at hp; cases hp
  · rw [h16] at hp ⊢
    simp only at hp ⊢
    split at hp
    · cases hp
    have hn : n = 16 := by
      split at hp
      · cases hp; rfl
      · split at hp <;> cases hp; rfl
      · split at hp <;> cases hp; rfl
    subst hn
    rw [Same.small (n := 16) hs, hs.slice]
    exact hp

theorem paddingParse_same (a : Option Nat) {bs bs' : Bytes} {off : Nat} {v : Val} {n : Nat}
    (hp : paddingParse a bs off = .ok (v, n)) (hs : Same bs bs' off n) :
    paddingParse a bs' off = .ok (v, n) := by
  unfold paddingParse at *
  split at hp
  · cases hp
  split at hp
  · cases hp
  cases hp
  rw [hs.small, hs.slice]
  rfl

theorem scanTerm_mono (bs : Bytes) (es : Nat) (t : Lit) (n fuel extra cur next : Nat)
    (h : scanTerm bs es t fuel cur next = .found n) :
    scanTerm bs es t (fuel + extra) cur next = .found n := by
  induction fuel generalizing cur next with
  | zero => simp [scanTerm] at h
  | succ fuel ih =>
    rw [show fuel + 1 + extra = fuel + extra + 1 by omega, scanTerm]
    rw [scanTerm] at h
    split at h
    · rename_i hc
      rw [if_pos hc]
      split at h
      · rename_i hi; rw [if_pos hi]; exact h
      · rename_i hi; rw [if_neg hi]; exact ih _ _ h
    · split at h <;> cases h

theorem scanTerm_found_ge (bs : Bytes) (es : Nat) (t : Lit) (n fuel cur next : Nat)
    (h : scanTerm bs es t fuel cur next = .found n) : next ≤ n := by
  induction fuel generalizing cur next with
  | zero => simp [scanTerm] at h
  | succ fuel ih =>
    rw [scanTerm] at h
    split at h
    · split at h
      · cases h; omega
      · have := ih _ _ h; omega
    · split at h <;> cases h

theorem scanTerm_same (bs bs' : Bytes) (es : Nat) (t : Lit) (hes : 0 < es) (n : Nat)
    (hn : n ≤ bs'.length) (hw : bs'.take n = bs.take n) (fuel cur : Nat)
    (h : scanTerm bs es t fuel cur (cur + es) = .found n) :
    scanTerm bs' es t fuel cur (cur + es) = .found n := by
  induction fuel generalizing cur with
  | zero => simp [scanTerm] at h
  | succ fuel ih =>
    have hge := scanTerm_found_ge _ _ _ _ _ _ _ h
    have hsl : slice bs' cur (cur + es) = slice bs cur (cur + es) := by
      unfold slice
      rw [← List.drop_take, ← List.drop_take]
      congr 1
      have := congrArg (List.take (cur + es)) hw
      rwa [List.take_take, List.take_take, Nat.min_eq_left hge] at this
    rw [scanTerm] at h ⊢
    rw [hsl, if_pos (by omega)]
    split at h
    · split at h
      · rename_i hi; rw [if_pos hi]; exact h
      · rename_i hi; rw [if_neg hi]; exact ih _ h
    · split at h <;> cases h

theorem streamParse_same (E : Env) (h : Hdr) (info : SeqInfo) (ei : ElemInfo) (bsz : Option Int)
    (e : DMap) (hk : info.kind ≠ .sequence) (hf : termFull (.seq h info ei bsz e))
    {bs bs' : Bytes} {off : Nat} {ns : Namespace} {b : Bytes} {n : Nat}
    (hp : streamParse E info ei bs off ns = .ok (b, n)) (hs : Same bs bs' off n) :
    streamParse E info ei bs' off ns = .ok (b, n) := by
  unfold streamParse at hp ⊢
  split at hp
  · cases hp
  · split at hp
    · cases hp
    · cases hp
      rw [hs.small, hs.slice]
      rfl
  · rename_i hsz
    split at hp
    · cases hp
    rename_i t ht
    split at hp
    · cases hp
    rename_i es hes
    split at hp
    · rename_i k hsc
      cases hp
      have hnosize : info.hasDataSize = false ∧ info.hasNumElements = false := by
        unfold streamSize at hsz
        rw [hes] at hsz
        cases h1 : info.hasDataSize
        · cases h2 : info.hasNumElements
          · exact ⟨rfl, rfl⟩
          · rw [h1, h2] at hsz
            simp only [Bool.false_eq_true, if_false, if_true] at hsz
            split at hsz <;> cases hsz
        · rw [h1] at hsz
          simp only [if_true] at hsz
          split at hsz <;> cases hsz
      by_cases hbt : ∃ tb, t = .bytes tb
      · obtain ⟨tb, rfl⟩ := hbt
        have hff : tb ≠ [] ∧ ei.byteSize = some (tb.length : Int) :=
          hf hk hnosize.1 hnosize.2 tb ht
        have hpos : 0 < tb.length := List.length_pos_iff.mpr hff.1
        rw [hes] at hff
        have hes' := Option.some.inj hff.2
        subst hes'
        simp only [Int.toNat_natCast] at hsc ⊢
        have hw := hs.2
        have h1 := scanTerm_same (bs.drop off) (bs'.drop off) tb.length (.bytes tb) hpos n
          (by have := hs.1; rw [List.length_drop]; omega) hw _ 0 (by simpa using hsc)
        have h2 := scanTerm_mono _ _ _ _ _ (bs'.length - off + 2) _ _ h1
        rw [Nat.zero_add] at h2
        rw [scanTerm_fuel _ _ _ hpos _ (bs'.length - off + 2) _ _
          (by rw [List.length_drop]; omega) (by rw [List.length_drop]; omega) hpos] at h2
        rw [h2]
        simp only
        rw [hs.slice]
      · exact absurd hsc (scanTerm_lit _ _ t (fun b hb' => hbt ⟨b, hb'⟩) _ _ _ _).1
    · cases hp
    · cases hp
    · cases hp

theorem seqParse_same (step step' : Nat → PRes) (bs bs' : Bytes) (num dataSize : Option Int)
    (term : Option Lit) (hrule : num.isSome = true ∨ term.isSome = true)
    (hmove : ∀ off v, step off ≠ .ok (v, 0))
    (hin : ∀ off v n, step off = .ok (v, n) → n = 0 ∨ off + n ≤ bs.length)
    (hstep : ∀ off v n, step off = .ok (v, n) → Same bs bs' off n → step' off = .ok (v, n))
    (fuel off used index : Nat) (last : Val) (hlast : atTerm term last = false)
    (vs : List Val) (k : Nat)
    (hp : seqParse step bs.length num dataSize term fuel off used index last = .ok (vs, used + k))
    (hs : Same bs bs' off k) :
    seqParse step' bs'.length num dataSize term fuel off used index last = .ok (vs, used + k) := by
  induction fuel generalizing off used index last vs k with
  | zero => cases hp
  | succ fuel ih =>
    rw [seqParse] at hp ⊢
    cases hn : atNumber num index with
    | true => simpa [hn] using hp
    | false =>
      cases hd : atDataSize dataSize used with
      | true => simpa [hn, hd] using hp
      | false =>
        simp only [hn, hd, Bool.or_false, decide_eq_true_eq] at hp ⊢
        by_cases hl : bs.length ≤ off
        · exfalso
          rw [if_pos hl] at hp
          unfold seqEnd at hp
          rw [hn, hd] at hp
          cases num with
          | some n => simp at hp
          | none =>
            cases term with
            | none => simp at hrule
            | some t =>
              simp only [atTerm] at hlast
              simp [hlast] at hp
        · rw [if_neg hl] at hp
          cases hst : step off with
          | error e => rw [hst] at hp; cases hp
          | ok r =>
            obtain ⟨v, n⟩ := r
            rw [hst] at hp
            simp only at hp
            have hn0 : n ≠ 0 := by rintro rfl; exact hmove _ _ hst
            split at hp
            · cases hp
            rename_i vs' u' hr
            have hu : u' = used + k := by cases hp; rfl
            subst hu
            have hk : ∃ k', k = n + k' ∧ (if atTerm term v then
                seqEnd num dataSize term (index + 1) (used + n) v
              else seqParse step' bs'.length num dataSize term fuel (off + n) (used + n) (index + 1) v) =
              .ok (vs', used + k) := by
              cases ht : atTerm term v with
              | true =>
                rw [ht] at hr
                simp only [if_true] at hr ⊢
                have := (seqEnd_used hr).2
                exact ⟨0, by omega, hr⟩
              | false =>
                rw [ht] at hr
                simp only [Bool.false_eq_true, if_false] at hr ⊢
                obtain ⟨k', hk', -⟩ := seqParse_bound step bs.length num dataSize term hin _ _ _ _ _ _ _ hr
                have hkk : k = n + k' := by omega
                refine ⟨k', hkk, ?_⟩
                rw [hk'] at hr ⊢
                exact ih _ _ _ _ ht _ _ hr (hs.sub (by omega) (by omega))
            obtain ⟨k', hkk, hres⟩ := hk
            rw [if_neg (by have := hs.1; omega)]
            rw [hstep _ _ _ hst (hs.sub (by omega) (by omega))]
            simp only
            rw [hres]
            simp only
            exact hp

theorem parseMembers_same (E : Env) (cls : String) (bs bs' : Bytes) (depth : Nat)
    (outer : Namespace) (maps : List DMap)
    (hin : ∀ m ∈ maps, ∀ off depth ns v n, parse E m bs off depth ns = .ok (v, n) →
      n = 0 ∨ off + n ≤ bs.length)
    (hm : ∀ m ∈ maps, ∀ off depth ns v n, parse E m bs off depth ns = .ok (v, n) →
      Same bs bs' off n → parse E m bs' off depth ns = .ok (v, n))
    (infos : List MemInfo) (off used : Nat) (attrs attrs' : List (String × Val)) (k : Nat)
    (hp : parseMembers E cls bs depth outer infos maps off used attrs = .ok (attrs', used + k))
    (hs : Same bs bs' off k) :
    parseMembers E cls bs' depth outer infos maps off used attrs = .ok (attrs', used + k) := by
  induction maps generalizing infos off used attrs k with
  | nil => simpa [parseMembers] using hp
  | cons m maps ih =>
    have ih := ih (fun m hm' => hin m (List.mem_cons_of_mem _ hm'))
      (fun m hm' => hm m (List.mem_cons_of_mem _ hm'))
    cases infos with
    | nil => simpa [parseMembers] using hp
    | cons info infos =>
      rw [parseMembers] at hp ⊢
      split at hp
      · cases hp
      · rename_i hc; exact ih _ _ _ _ _ hp hs
      · rename_i hc
        split at hp
        · cases hp
        rename_i v n hpp
        split at hp
        · cases hp
        rename_i hv
        obtain ⟨k', hk', -⟩ := parseMembers_bound E cls bs depth outer maps
          (fun m hm' => hin m (List.mem_cons_of_mem _ hm')) _ _ _ _ _ _ hp
        have hkk : k = n + k' := by omega
        rw [hm m List.mem_cons_self _ _ _ _ _ hpp (hs.sub (by omega) (by omega))]
        simp only
        rw [if_neg hv]
        rw [hk'] at hp ⊢
        exact ih _ _ _ _ _ hp (hs.sub (by omega) (by omega))

/-- The result depends on the bytes used alone. -/
theorem parse_sameBytes (E : Env) (m : DMap)
    (hf : m.Every fun m => Extendable m ∧ seqMoves E m ∧ groupCovers E m) (bs bs' : Bytes) :
    ∀ off depth ns v n, parse E m bs off depth ns = .ok (v, n) → Same bs bs' off n →
      parse E m bs' off depth ns = .ok (v, n) := by
  have hbound : ∀ m : DMap, m.Every (fun m => Extendable m ∧ seqMoves E m ∧ groupCovers E m) →
      ∀ off depth ns v n, parse E m bs off depth ns = .ok (v, n) → n = 0 ∨ off + n ≤ bs.length :=
    fun m h => parse_bound E m (DMap.Every.imp (fun _ h => h.1.1) m h) bs
  induction m using DMap.ind with
  | missing => intro off depth ns v n h; simp [parse] at h
  | prim h k s u =>
    intro off depth ns v n hp hs
    simp only [parse] at hp ⊢
    exact primParse_same E h k s u hp hs
  | uuid h s u =>
    intro off depth ns v n hp hs
    simp only [parse] at hp ⊢
    exact uuidParse_same h s u hf.self.1.2.2.1 hp hs
  | padding h a =>
    intro off depth ns v n hp hs
    simp only [parse] at hp ⊢
    exact paddingParse_same a hp hs
  | seq h info ei bsz e ih =>
    intro off depth ns v n hp hs
    have hself := hf.self
    simp only [DMap.Every] at hf
    simp only [parse] at hp ⊢
    split
    · rename_i hk
      rw [hk] at hp
      simp only at hp
      split at hp
      · cases hp
      rename_i b k hst
      cases hp
      rw [streamParse_same E h info ei bsz e (by rw [hk]; simp) hself.1.1 hst hs]
    · rename_i hk
      rw [hk] at hp
      simp only at hp
      unfold stringParse at hp ⊢
      split at hp
      · cases hp
      rename_i b k hst
      have hkn : k = n := by
        split at hp
        · cases hp
        split at hp
        · cases hp
        · cases hp; rfl
      subst hkn
      rw [streamParse_same E h info ei bsz e (by rw [hk]; simp) hself.1.1 hst hs]
      exact hp
    · rename_i hk
      rw [hk] at hp
      simp only at hp
      split
      · rename_i hl
        rw [if_pos hl] at hp
        have hop := hself.1.2.2.2
        unfold linearSeqParse at hp ⊢
        cases bsz with
        | none => cases hp
        | some z =>
          simp only at hp ⊢
          split at hp
          · cases hp
          rename_i hts
          have hb := not_tooSmall (by simpa using hts)
          split at hp
          · cases hp
          rename_i xs hx
          have hz : n = z.toNat := by
            split at hp
            · split at hp
              · cases hp
              · cases hp; rfl
            · cases hp
          subst hz
          rw [hs.small]
          have hread : ((DMap.seq h info ei (some z) e).op.bind fun op =>
              op.readFrom E (bs'.drop off)) =
              ((DMap.seq h info ei (some z) e).op.bind fun op => op.readFrom E (bs.drop off)) := by
            cases hopv : (DMap.seq h info ei (some z) e).op with
            | none => rfl
            | some op =>
              have := hop hk hl op z hopv rfl
              exact readFrom_same E op (hs.sub (by omega) (by omega))
                (by rw [List.length_drop]; omega)
          rw [hread, hx]
          exact hp
      · rename_i hl
        rw [if_neg hl] at hp
        unfold compositeSeqParse at hp ⊢
        split at hp
        · cases hp
        rename_i hdep
        rw [if_neg hdep]
        split at hp
        · cases hp
        rename_i ds term num hr
        obtain ⟨h1, h2⟩ := seqRules_ok hr hself.1.2.1
        split at hp
        · cases hp
        rename_i vs k hsp
        cases hp
        rw [seqParse_adequate _ bs.length num ds term off 0 .pyNone
          (seqFuel bs.length off num 0 + seqFuel bs'.length off num 0) (by omega)] at hsp
        rw [seqParse_adequate _ bs'.length num ds term off 0 .pyNone
          (seqFuel bs.length off num 0 + seqFuel bs'.length off num 0) (by omega)]
        have := seqParse_same (fun off => parse E e bs off (depth + 1) [])
          (fun off => parse E e bs' off (depth + 1) []) bs bs' num ds term h1
          (fun off v => hself.2.1 hk (by simpa using hl) bs off _ _ v)
          (fun off v n h => hbound e hf.2 off _ _ v n h)
          (fun off v n h => ih hf.2 off _ _ v n h) _ off 0 0 .pyNone h2 vs n
          (by rw [Nat.zero_add]; exact hsp) hs
        rw [Nat.zero_add] at this
        rw [this]
  | struct h b l io infos maps ih =>
    intro off depth ns v n hp hs
    have hself := hf.self
    simp only [DMap.Every, everyMap_iff] at hf
    simp only [parse] at hp ⊢
    split
    · rename_i hl
      rw [if_pos hl] at hp
      have hop := hself.1.2.2.2
      unfold linearStructParse at hp ⊢
      cases b with
      | none => cases hp
      | some z =>
        simp only at hp ⊢
        split at hp
        · cases hp
        rename_i hts
        have hb := not_tooSmall (by simpa using hts)
        split at hp
        · cases hp
        rename_i xs hx
        have hz : n = z.toNat := by
          split at hp
          · cases hp
          split at hp
          · cases hp
          split at hp
          · cases hp; rfl
          · cases hp
        subst hz
        rw [hs.small]
        have hread : ((DMap.struct h (some z) l io infos maps).op.bind fun op =>
            op.readFrom E (bs'.drop off)) =
            ((DMap.struct h (some z) l io infos maps).op.bind fun op => op.readFrom E (bs.drop off)) := by
          cases hopv : (DMap.struct h (some z) l io infos maps).op with
          | none => rfl
          | some op =>
            have := hop hl op z hopv rfl
            exact readFrom_same E op (hs.sub (by omega) (by omega))
              (by rw [List.length_drop]; omega)
        rw [hread, hx]
        exact hp
    · rename_i hl
      rw [if_neg hl] at hp
      split at hp
      · cases hp
      rename_i hdep
      rw [if_neg hdep]
      split at hp
      · cases hp
      rename_i hio
      rw [if_neg hio]
      split at hp
      · cases hp
      rename_i hin
      rw [if_neg hin]
      split at hp
      · cases hp
      rename_i attrs k hpm
      cases hp
      have := parseMembers_same E h.name bs bs' depth ns maps
        (fun m hm => hbound m (hf.2 m hm)) (fun m hm => ih m hm (hf.2 m hm)) infos off 0
        (newInstance (infos.map (·.name))) attrs n (by rw [Nat.zero_add]; exact hpm) hs
      rw [Nat.zero_add] at this
      rw [this]
  | constant h => intro off depth ns v n h; simp [parse] at h
  | enumeration h vs => intro off depth ns v n h; simp [parse] at h
  | format h l => intro off depth ns v n h; simp [parse] at h
  | group h ident base dflt keys maps ih1 ih2 ih3 =>
    intro off depth ns v n hp hs
    have hcov := hf.self.2.2
    simp only [DMap.Every, everyMap_iff, everyOptMap_iff] at hf
    simp only [parse] at hp ⊢
    split at hp
    · cases hp
    rename_i w k hb
    have finish : ∀ m, (dflt = some m ∨ m ∈ maps) → ∀ r, parse E m bs off depth [] = .ok r →
        r = (v, n) → parse E base bs' off depth [] = .ok (w, k) := by
      intro m hm r hr he
      subst he
      exact ih1 hf.2.1 _ _ _ _ _ hb (hs.sub (by omega) (by
        have := hcov m hm _ _ _ _ _ _ _ hb hr; omega))
    generalize hg : getAttr w ident = g at hp
    cases g with
    | pyNone => cases hp
    | _ =>
      simp only at hp
      split at hp
      · rename_i i hi
        split at hp
        · cases hp
        rename_i hgm
        rw [parseNth_eq] at hp
        split at hp
        · cases hp
        rename_i r hr
        cases hp
        split at hr
        · cases hr
        rename_i m hmi
        have hmem := List.mem_of_getElem? hmi
        rw [finish m (.inr hmem) _ hr rfl]
        simp only [hg, hi]
        rw [if_neg hgm, parseNth_eq, hmi]
        simp only
        rw [ih3 m hmem (hf.2.2.2 m hmem) _ _ _ _ _ hr hs]
      · rename_i hi
        split at hp
        · cases hp
        rename_i hgm
        split at hp
        · cases hp
        rename_i r hr
        cases hp
        cases dflt with
        | none => cases hr
        | some d =>
          simp only [parseOpt] at hr
          rw [finish d (.inl rfl) _ hr rfl]
          simp only [hg, hi]
          rw [if_neg hgm]
          simp only [parseOpt]
          rw [ih2 d rfl (hf.2.2.1 d rfl) _ _ _ _ _ hr hs]

end Dtf
