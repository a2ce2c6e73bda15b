import Verif.Builder
import Verif.Equality
/-!
# Properties C08, C09, C35, C52: definition objects
-/
namespace Dtf

/-! ### C08: GetByteSize is the layout size -/

namespace Spec

/-- A padding definition with an alignment size. -/
def alignment? : Defn → Option Nat
  | .padding _ (some a) => if a = 0 then none else some a
  | _ => none

/-- `StructEnd t ms n`: members `ms` laid out from offset `t` end at offset `n`.
An alignment padding ends at the least multiple of its alignment size that is not
below its start; any other member ends its size after its start. -/
inductive StructEnd : Int → List Defn → Int → Prop
  | nil (t : Int) : StructEnd t [] t
  | pad {t t' n : Int} {d : Defn} {a : Nat} {ms : List Defn} (ha : alignment? d = some a)
      (h1 : t ≤ t') (h2 : (a : Int) ∣ t') (h3 : ∀ x : Int, t ≤ x → (a : Int) ∣ x → t' ≤ x)
      (h : StructEnd t' ms n) : StructEnd t (d :: ms) n
  | member {t s n : Int} {d : Defn} {ms : List Defn} (ha : alignment? d = none)
      (hs : d.byteSize = some s) (h : StructEnd (t + s) ms n) : StructEnd t (d :: ms) n

/-- The members that are kept when a name can be used only once. -/
def keepFirst : List Defn → List Defn
  | ds => ds.foldl (fun acc d => if d.name ∈ acc.map Defn.name then acc else acc ++ [d]) []

end Spec
open Spec

theorem paddingSize_spec (t : Int) (a : Nat) (ha : 0 < a) :
    t ≤ t + paddingSize t a ∧ (a : Int) ∣ t + paddingSize t a ∧
      ∀ x : Int, t ≤ x → (a : Int) ∣ x → t + paddingSize t a ≤ x := by
  have h0 := Int.emod_nonneg t (show (a : Int) ≠ 0 by omega)
  have h1 := Int.emod_lt_of_pos t (show (0 : Int) < a by omega)
  have h2 := Int.emod_add_mul_ediv t a
  have hs : paddingSize t a = if t % a > 0 then a - t % a else t % a := rfl
  generalize t % (a : Int) = r at *
  generalize t / (a : Int) = q at *
  by_cases hr : r > 0
  · rw [if_pos hr] at hs
    refine ⟨by omega, ⟨q + 1, ?_⟩, ?_⟩
    · rw [hs, Int.mul_add]; omega
    · rintro x hx ⟨y, rfl⟩
      rw [hs]
      have : q < y := by
        apply Int.lt_of_mul_lt_mul_left (a := (a : Int)) _ (by omega)
        omega
      have h4 : (a : Int) * (q + 1) ≤ a * y := Int.mul_le_mul_of_nonneg_left (by omega) (by omega)
      rw [Int.mul_add] at h4
      omega
  · rw [if_neg hr] at hs
    have hr0 : r = 0 := by omega
    refine ⟨by omega, ⟨q, by omega⟩, fun x hx _ => by omega⟩

theorem structSize_iff (t : Int) (ms : List Defn) (n : Int) :
    structSize t ms = some n ↔ StructEnd t ms n := by
  induction ms generalizing t with
  | nil =>
    simp only [structSize, Option.some.injEq]
    exact ⟨fun h => h ▸ .nil t, fun h => by cases h; rfl⟩
  | cons d ms ih =>
    have hpad : ∀ h a, d = .padding h (some (a + 1)) →
        (structSize t (d :: ms) = some n ↔ StructEnd t (d :: ms) n) := by
      rintro h a rfl
      have hsp := paddingSize_spec t (a + 1) (by omega)
      rw [structSize]
      constructor
      · intro hh
        exact .pad (a := a + 1) rfl hsp.1 hsp.2.1 hsp.2.2 ((ih _).mp hh)
      · intro hh
        cases hh with
        | @pad _ t' _ _ a' _ ha h1 h2 h3 hr =>
          simp only [alignment?] at ha
          simp at ha
          subst ha
          have e : t' = t + paddingSize t (a + 1) := by
            have x1 := h3 _ hsp.1 hsp.2.1
            have x2 := hsp.2.2 _ h1 h2
            exact Int.le_antisymm x1 x2
          rw [← e]
          exact (ih _).mpr hr
        | member ha => simp [alignment?] at ha
    have hmem : alignment? d = none →
        structSize t (d :: ms) = (match d.byteSize with
          | none => none
          | some s => structSize (t + s) ms) := by
      intro ha
      conv => lhs; unfold structSize
      split
      · simp [alignment?] at ha
      · rfl
    cases hd : alignment? d with
    | some a =>
      cases d <;> simp [alignment?] at hd
      rename_i h al
      rcases al with _ | _ | a
      · simp at hd
      · simp at hd
      · exact hpad h a rfl
    | none =>
      rw [hmem hd]
      cases hs : d.byteSize with
      | none =>
        simp
        intro hh
        cases hh with
        | pad ha => rw [ha] at hd; cases hd
        | member ha hs' => rw [hs'] at hs; cases hs
      | some s =>
        simp only [ih]
        constructor
        · exact fun hh => .member hd hs hh
        · intro hh
          cases hh with
          | pad ha => rw [ha] at hd; cases hd
          | member ha hs' h' =>
            rw [hs'] at hs
            cases hs
            exact h'

/-- **C08a** GetByteSize of a structure with members is `n` exactly when its
members, laid out from 0, end at `n`; it is None when no such `n` exists (a member
of unknown size) or there are no members. -/
theorem C08_struct_size (h : Hdr) (ms : List Defn) (n : Int) :
    (Defn.struct h ms).byteSize = some n ↔ ms ≠ [] ∧ StructEnd 0 ms n := by
  cases ms with
  | nil => simp [Defn.byteSize]
  | cons d ms => simp only [Defn.byteSize, structSize_iff]; simp

/-- **C08b** Without padding the size is the sum of the member sizes. -/
theorem C08_struct_sum (h : Hdr) (ms : List Defn) (sizes : List Int) (hne : ms ≠ [])
    (hp : ∀ d ∈ ms, alignment? d = none) (hs : ms.map Defn.byteSize = sizes.map some) :
    (Defn.struct h ms).byteSize = some sizes.sum := by
  rw [C08_struct_size]
  refine ⟨hne, ?_⟩
  clear hne
  have key : ∀ t, StructEnd t ms (t + sizes.sum) := by
    intro t
    induction ms generalizing t sizes with
    | nil =>
      cases sizes <;> simp at hs
      simp; exact .nil t
    | cons d ms ih =>
      cases sizes with
      | nil => simp at hs
      | cons s sizes =>
        simp only [List.map_cons, List.cons.injEq] at hs
        have := ih sizes (fun d hd => hp d (List.mem_cons_of_mem _ hd)) hs.2 (t + s)
        rw [List.sum_cons, ← Int.add_assoc]
        exact .member (hp d List.mem_cons_self) hs.1 this
  simpa using key 0

/-- **C08c** GetByteSize of a union is the maximum of its member sizes (at least
0) and None if a member size is unknown or there are no members. -/
theorem C08_union_size (h : Hdr) (ms : List Defn) (n : Int) :
    (Defn.union h ms).byteSize = some n ↔
      ms ≠ [] ∧ 0 ≤ n ∧ (∀ d ∈ ms, ∃ s, d.byteSize = some s ∧ s ≤ n) ∧
        (n = 0 ∨ ∃ d ∈ ms, d.byteSize = some n) := by
  have key : ∀ t, unionSize t ms = some n ↔
      t ≤ n ∧ (∀ d ∈ ms, ∃ s, d.byteSize = some s ∧ s ≤ n) ∧
        (n = t ∨ ∃ d ∈ ms, d.byteSize = some n) := by
    induction ms with
    | nil => intro t; simp [unionSize]; omega
    | cons d ms ih =>
      intro t
      rw [unionSize]
      cases hs : d.byteSize with
      | none => simp [hs]
      | some s =>
        simp only [ih, List.mem_cons, forall_eq_or_imp, exists_eq_or_imp, hs, Option.some.injEq]
        constructor
        · rintro ⟨h1, h2, h3⟩
          refine ⟨by omega, ⟨⟨s, rfl, by omega⟩, h2⟩, ?_⟩
          rcases h3 with h3 | h3
          · rcases Int.le_total t s with hts | hts
            · right; left; omega
            · left; omega
          · exact .inr (.inr h3)
        · rintro ⟨h1, ⟨⟨s', rfl, hs'⟩, h2⟩, h3⟩
          refine ⟨by omega, h2, ?_⟩
          rcases h3 with h3 | h3 | h3
          · left; omega
          · left; omega
          · exact .inr h3
  cases ms with
  | nil => simp [Defn.byteSize]
  | cons d ms => simp only [Defn.byteSize, key]; simp

/-- **C08d** GetByteSize of an element sequence is its data size if that is set
and not 0, else the number of elements times the element size if both are known
and not 0, else None. -/
theorem C08_sequence_size (h : Hdr) (info : SeqInfo) (e : Defn) (n : Int) :
    (Defn.seq h info e).byteSize = some n ↔
      (info.dataSize = some n ∧ n ≠ 0) ∨
      ((info.dataSize = none ∨ info.dataSize = some 0) ∧
        ∃ c s, info.numElements = some c ∧ c ≠ 0 ∧ e.byteSize = some s ∧ s ≠ 0 ∧ n = c * s) := by
  rw [Defn.byteSize]
  rcases hds : info.dataSize with _ | ds
  · rcases hne : info.numElements with _ | c
    · simp [truthyInt]
    · cases he : e.byteSize with
      | none => by_cases hc : c = 0 <;> simp [truthyInt, hc]
      | some s =>
        by_cases hc : c = 0 <;> by_cases hs : s = 0 <;>
          simp [truthyInt, hc, hs, Int.mul_comm s c, @eq_comm _ n]
  · by_cases hd0 : ds = 0
    · subst hd0
      rcases hne : info.numElements with _ | c
      · simp [truthyInt]; omega
      · cases he : e.byteSize with
        | none => by_cases hc : c = 0 <;> simp [truthyInt, hc] <;> omega
        | some s =>
          by_cases hc : c = 0 <;> by_cases hs : s = 0 <;>
            simp [truthyInt, hc, hs, Int.mul_comm s c, @eq_comm _ n] <;> omega
    · simp [truthyInt, hd0]; omega

/-- **C08e** A member has the size of its type, and unknown size if it has a
condition. -/
theorem C08_member_size (h : Hdr) (d : Defn) (c dt : Option String) (vs : Option (List Lit)) :
    (Defn.member h d c dt vs).byteSize =
      if c = none ∨ c = some "" then d.byteSize else none := by
  rw [Defn.byteSize]
  rcases c with _ | c
  · rfl
  · by_cases hc : c = "" <;> simp [truthyStr, hc]

/-- **C08f** A fixed-size type has its declared size, unless that is native or not
given in bytes; padding, semantic and layout types have no size. -/
theorem C08_other_sizes (h : Hdr) (k : PrimKind) (n : Nat) (u : String) (a : Option Nat) (v : Lit)
    (vs : List EnumVal) (o : Option Order) (l : List (String × Option Int)) (b : Defn) (ms : List Defn)
    (i : String) (dflt : Option Defn) :
    (Defn.prim h k (.bytes n) "bytes").byteSize = some n ∧
    (Defn.uuid h (.bytes n) "bytes").byteSize = some n ∧
    (Defn.prim h k .native u).byteSize = none ∧ (Defn.uuid h .native u).byteSize = none ∧
    (u ≠ "bytes" → (Defn.prim h k (.bytes n) u).byteSize = none ∧
      (Defn.uuid h (.bytes n) u).byteSize = none) ∧
    (Defn.padding h a).byteSize = none ∧ (Defn.constant h v).byteSize = none ∧
    (Defn.enumeration h vs).byteSize = none ∧ (Defn.format h o l).byteSize = none ∧
    (Defn.family h b ms).byteSize = none ∧ (Defn.group h b i dflt ms).byteSize = none := by
  simp [Defn.byteSize, fixedByteSize]

/-- A byte, padding to 4, a 4 byte number, and a union of the two: 12 bytes. -/
example :
    let b : Defn := .prim { name := "b" } (.integer true) (.bytes 1) "bytes"
    let w : Defn := .prim { name := "w" } (.integer true) (.bytes 4) "bytes"
    (Defn.struct { name := "s" } [b, .padding { name := "p" } (some 4), w,
      .union { name := "u" } [b, w]]).byteSize = some 12 := by decide

/-! ### C09, C52: members, sections and the size cache -/

/-- The members given to AddMemberDefinition, in order. -/
def added : List BuildOp → List Defn
  | [] => []
  | .addMember d :: ops => d :: added ops
  | _ :: ops => added ops

theorem run_append (u : Bool) (a b : List BuildOp) :
    Builder.run u (a ++ b) = b.foldl Builder.step (Builder.run u a) := by
  simp [Builder.run]

theorem step_members (b : Builder) (op : BuildOp) :
    (b.step op).members = match op with
      | .addMember d => if d.name ∈ b.members.map Defn.name then b.members else b.members ++ [d]
      | _ => b.members := by
  cases op with
  | addMember d =>
    simp only [Builder.step, Builder.addMember]
    by_cases hd : d.name ∈ b.members.map Defn.name
    · rw [if_pos hd, if_pos]
      simp only [List.mem_map] at hd
      obtain ⟨x, hx, he⟩ := hd
      exact List.any_eq_true.mpr ⟨x, hx, by simp [he]⟩
    · rw [if_neg hd, if_neg]
      simp only [List.any_eq_true, not_exists, not_and]
      intro x hx
      simp only [List.mem_map, not_exists, not_and] at hd
      simpa using hd x hx
  | addSection n => rfl
  | getByteSize =>
    simp only [Builder.step, Builder.getByteSize]
    split
    · rfl
    · split <;> rfl

theorem foldl_members (b : Builder) (ops : List BuildOp) :
    (ops.foldl Builder.step b).members =
      (added ops).foldl (fun acc d => if d.name ∈ acc.map Defn.name then acc else acc ++ [d])
        b.members := by
  induction ops generalizing b with
  | nil => rfl
  | cons op ops ih =>
    rw [List.foldl_cons, ih, step_members]
    cases op <;> rfl

theorem step_isUnion (b : Builder) (op : BuildOp) : (b.step op).isUnion = b.isUnion := by
  cases op with
  | addMember d => simp only [Builder.step, Builder.addMember]; split <;> rfl
  | addSection n => rfl
  | getByteSize =>
    simp only [Builder.step, Builder.getByteSize]
    split
    · rfl
    · split <;> rfl

/-- The cache holds nothing or the size of the current members. -/
def CacheInv (b : Builder) : Prop :=
  b.byteSize = none ∨ (b.members ≠ [] ∧
    b.byteSize = if b.isUnion then unionSize 0 b.members else structSize 0 b.members)

theorem step_inv (b : Builder) (op : BuildOp) (hb : CacheInv b) : CacheInv (b.step op) := by
  cases op with
  | addMember d =>
    simp only [Builder.step, Builder.addMember]
    split
    · exact hb
    · exact .inl rfl
  | addSection n => exact hb
  | getByteSize =>
    simp only [Builder.step, Builder.getByteSize]
    split
    · exact hb
    · split
      · exact hb
      · rename_i h
        exact .inr ⟨by simpa using h, rfl⟩

theorem run_inv (u : Bool) (ops : List BuildOp) : CacheInv (Builder.run u ops) := by
  have : ∀ b, CacheInv b → CacheInv (ops.foldl Builder.step b) := by
    induction ops with
    | nil => exact fun b hb => hb
    | cons op ops ih => exact fun b hb => ih _ (step_inv b op hb)
  exact this _ (.inl rfl)

theorem run_isUnion (u : Bool) (ops : List BuildOp) : (Builder.run u ops).isUnion = u := by
  have : ∀ b, (ops.foldl Builder.step b).isUnion = b.isUnion := by
    induction ops with
    | nil => exact fun b => rfl
    | cons op ops ih => exact fun b => (ih _).trans (step_isUnion b op)
  exact this _

/-- **C09a** After any history of AddMemberDefinition, AddSectionDefinition and
GetByteSize calls, GetByteSize returns the size of the definition whose members
are the ones added, in order, keeping the first of each name. -/
theorem C09_size_cache_not_stale (u : Bool) (h : Hdr) (ops : List BuildOp) :
    (Builder.run u ops).members = keepFirst (added ops) ∧
    (Builder.run u ops).getByteSize.1 =
      (if u then Defn.union h (keepFirst (added ops))
       else Defn.struct h (keepFirst (added ops))).byteSize := by
  have hm : (Builder.run u ops).members = keepFirst (added ops) := foldl_members _ ops
  refine ⟨hm, ?_⟩
  rw [← hm]
  have hi := run_inv u ops
  have hu := run_isUnion u ops
  generalize Builder.run u ops = b at *
  subst hu
  unfold Builder.getByteSize
  have hsz : ∀ x, b.members ≠ [] →
      x = (if b.isUnion then unionSize 0 b.members else structSize 0 b.members) →
      x = (if b.isUnion then Defn.union h b.members else Defn.struct h b.members).byteSize := by
    intro x hne hx
    subst hx
    cases hms : b.members with
    | nil => exact absurd hms hne
    | cons d ds => cases b.isUnion <;> simp [Defn.byteSize]
  split
  · rename_i n hn
    rcases hi with hi | ⟨hne, hi⟩
    · rw [hi] at hn; cases hn
    · rw [hn] at hi
      exact hsz _ hne hi
  · split
    · rename_i h0
      have : b.members = [] := by simpa using h0
      rw [this]
      cases b.isUnion <;> rfl
    · rename_i h0
      exact hsz _ (by simpa using h0) rfl

/-- **C09b** Adding a member whose name is taken raises KeyError and changes
nothing; adding any other member succeeds and appends it. -/
theorem C09_duplicate_member (b : Builder) (d : Defn) :
    (if d.name ∈ b.members.map Defn.name then b.addMember d = (.error .key, b)
     else (b.addMember d).1 = .ok () ∧ (b.addMember d).2.members = b.members ++ [d]) := by
  have hs := step_members b (.addMember d)
  simp only [Builder.step] at hs
  split
  · rename_i h
    unfold Builder.addMember
    simp only [List.mem_map] at h
    obtain ⟨x, hx, he⟩ := h
    rw [if_pos (List.any_eq_true.mpr ⟨x, hx, by simp [he]⟩)]
  · rename_i h
    rw [if_neg h] at hs
    refine ⟨?_, hs⟩
    unfold Builder.addMember
    split
    · rename_i hc
      simp only [List.any_eq_true] at hc
      obtain ⟨x, hx, he⟩ := hc
      exact absurd (List.mem_map.mpr ⟨x, hx, by simpa using he⟩) h
    · rfl

/-- A size asked for between two additions is not remembered; a repeated name is
ignored. -/
example :
    let b : Defn := .prim { name := "b" } (.integer true) (.bytes 1) "bytes"
    let w : Defn := .prim { name := "w" } (.integer true) (.bytes 4) "bytes"
    (Builder.run false [.addMember b, .getByteSize, .addMember w, .addMember b]).getByteSize.1 =
      some 5 := by decide

theorem appendLast_concat (d : Defn) (l : List Section) (s : Section) :
    appendLast d (l ++ [s]) = l ++ [{ s with members := s.members ++ [d] }] := by
  induction l with
  | nil => rfl
  | cons a l ih =>
    cases l with
    | nil => rfl
    | cons b l =>
      simp only [List.cons_append] at ih ⊢
      rw [← ih]; rfl

/-- Whether the call is not AddSectionDefinition. -/
def noSection : BuildOp → Bool
  | .addSection _ => false
  | _ => true

theorem step_sections (b : Builder) (l : List Section) (s : Section) (base : List Defn)
    (hb : b.sections = l ++ [s]) (hm : b.members = base ++ s.members) (op : BuildOp)
    (hop : noSection op = true) :
    ∃ s', (b.step op).sections = l ++ [s'] ∧ s'.name = s.name ∧
      (b.step op).members = base ++ s'.members := by
  cases op with
  | addMember d =>
    simp only [Builder.step, Builder.addMember]
    split
    · exact ⟨s, hb, rfl, hm⟩
    · refine ⟨{ s with members := s.members ++ [d] }, ?_, rfl, ?_⟩
      · simp only [hb, appendLast_concat]
      · simp only [hm, List.append_assoc]
  | addSection n => simp [noSection] at hop
  | getByteSize =>
    simp only [Builder.step, Builder.getByteSize]
    split
    · exact ⟨s, hb, rfl, hm⟩
    · split
      · exact ⟨s, hb, rfl, hm⟩
      · exact ⟨s, hb, rfl, hm⟩

/-- **C52** Members before the first section marker belong to no section; a
section holds, in order, exactly the members added after its marker and before
the next one, and later calls do not change earlier sections. -/
theorem C52_sections_partition (u : Bool) (ops : List BuildOp) :
    (ops.all noSection = true → (Builder.run u ops).sections = []) ∧
    ∀ ops₁ n ops₂, ops = ops₁ ++ .addSection n :: ops₂ → ops₂.all noSection = true →
      (Builder.run u ops).sections = (Builder.run u ops₁).sections ++
        [⟨n, (Builder.run u ops).members.drop (Builder.run u ops₁).members.length⟩] := by
  constructor
  · intro hall
    have : ∀ b : Builder, b.sections = [] → (ops.foldl Builder.step b).sections = [] := by
      induction ops with
      | nil => exact fun b hb => hb
      | cons op ops ih =>
        intro b hb
        simp only [List.all_cons, Bool.and_eq_true] at hall
        apply ih hall.2
        cases op with
        | addMember d =>
          simp only [Builder.step, Builder.addMember]
          split
          · exact hb
          · simp [hb, appendLast]
        | addSection n => simp [noSection] at hall
        | getByteSize =>
          simp only [Builder.step, Builder.getByteSize]
          split
          · exact hb
          · split <;> exact hb
    exact this _ rfl
  · rintro ops₁ n ops₂ rfl hall
    rw [run_append, List.foldl_cons]
    generalize hb : (Builder.run u ops₁).step (.addSection n) = b
    have h1 : b.sections = (Builder.run u ops₁).sections ++ [⟨n, []⟩] := by rw [← hb]; rfl
    have h2 : b.members = (Builder.run u ops₁).members ++ [] := by rw [← hb]; simp [Builder.step,
      Builder.addSection]
    have key : ∀ (s : Section) (b : Builder),
        b.sections = (Builder.run u ops₁).sections ++ [s] →
        b.members = (Builder.run u ops₁).members ++ s.members →
        ∃ s', (ops₂.foldl Builder.step b).sections = (Builder.run u ops₁).sections ++ [s'] ∧
          s'.name = s.name ∧
          (ops₂.foldl Builder.step b).members = (Builder.run u ops₁).members ++ s'.members := by
      clear h1 h2 hb b
      induction ops₂ with
      | nil => exact fun s b h1 h2 => ⟨s, h1, rfl, h2⟩
      | cons op ops ih =>
        intro s b h1 h2
        simp only [List.all_cons, Bool.and_eq_true] at hall
        obtain ⟨s', g1, g2, g3⟩ := step_sections b _ s _ h1 h2 op hall.1
        obtain ⟨s'', k1, k2, k3⟩ := ih hall.2 s' _ g1 g3
        exact ⟨s'', k1, k2.trans g2, k3⟩
    obtain ⟨s', k1, k2, k3⟩ := key _ b h1 h2
    rw [k1, k3, List.drop_left]
    cases s'
    simp_all

/-- Two sections, one member before them. -/
example :
    let f (n : String) : Defn := .prim { name := n } (.integer true) (.bytes 1) "bytes"
    (Builder.run false [.addMember (f "a"), .addSection "x", .addMember (f "b"),
      .addMember (f "c"), .addSection "y", .addMember (f "d")]).sections.map
        (fun s => (s.name, s.members.map Defn.name)) = [("x", ["b", "c"]), ("y", ["d"])] := by decide

/-! ### C35: enumerations -/

/-- The three dictionaries list exactly the names, numbers and aliases of the
values. -/
structure EnumInv (b : EnumBuilder) : Prop where
  names : b.perName = b.values.map fun v => (v.name, v)
  numbers : b.perNumber = b.values.map fun v => (v.number, v)
  aliases : ∀ a, (b.perAlias.any (·.1 == a)) = true ↔ ∃ v ∈ b.values, a ∈ v.aliases
  distinct : b.values.Pairwise fun v w => v.name ≠ w.name ∧ litEq v.number w.number = false ∧
    ∀ a ∈ v.aliases, a ∉ w.aliases

theorem dictSet_keys {α : Type} (l : List (String × α)) (k : String) (v : α) (a : String) :
    ((dictSet l k v).any (·.1 == a)) = (l.any (·.1 == a) || k == a) := by
  unfold dictSet
  split
  · rename_i h
    rw [List.any_map]
    have e : ((fun p : String × α => p.1 == a) ∘ fun p => if p.1 == k then (p.1, v) else p) =
        fun p => p.1 == a := by
      funext p
      simp only [Function.comp]
      split <;> rfl
    rw [e]
    by_cases hk : k = a
    · subst hk; simp [h]
    · have : (k == a) = false := by simpa using hk
      rw [this, Bool.or_false]
  · simp

theorem foldl_dictSet_keys {α : Type} (l : List (String × α)) (ks : List String) (v : α)
    (a : String) :
    ((ks.foldl (fun l k => dictSet l k v) l).any (·.1 == a)) = true ↔
      l.any (·.1 == a) = true ∨ a ∈ ks := by
  induction ks generalizing l with
  | nil => simp
  | cons k ks ih =>
    rw [List.foldl_cons, ih, dictSet_keys]
    simp [or_assoc, @eq_comm _ a]

/-- What makes AddValue succeed, in terms of the values accepted so far. -/
def Acceptable (vs : List EnumVal) (name : String) (number : Lit) (aliases : List String) : Prop :=
  number.isHashable = true ∧
  ∀ v ∈ vs, v.name ≠ name ∧ litEq v.number number = false ∧ ∀ a ∈ v.aliases, a ∉ aliases

theorem addValue_spec (b : EnumBuilder) (hb : EnumInv b) (name : String) (number : Lit)
    (aliases : List String) :
    (Acceptable b.values name number aliases ∧ (b.addValue name number aliases).1 = .ok () ∧
      (b.addValue name number aliases).2.values = b.values ++ [⟨name, number, aliases⟩] ∧
      EnumInv (b.addValue name number aliases).2) ∨
    (¬ Acceptable b.values name number aliases ∧ (∃ e, (b.addValue name number aliases) =
      (.error e, b))) := by
  unfold EnumBuilder.addValue
  split
  · rename_i h
    right
    refine ⟨?_, _, rfl⟩
    rintro ⟨-, ha⟩
    rw [hb.names, List.any_map, List.any_eq_true] at h
    obtain ⟨v, hv, hn⟩ := h
    exact (ha v hv).1 (by simpa using hn)
  rename_i hname
  split
  · rename_i h
    right
    refine ⟨?_, _, rfl⟩
    rintro ⟨hh, -⟩
    simp [hh] at h
  rename_i hhash
  split
  · rename_i h
    right
    refine ⟨?_, _, rfl⟩
    rintro ⟨-, ha⟩
    rw [hb.numbers, List.any_map, List.any_eq_true] at h
    obtain ⟨v, hv, hn⟩ := h
    have := (ha v hv).2.1
    simp only [Function.comp] at hn
    rw [this] at hn; cases hn
  rename_i hnum
  split
  · rename_i h
    right
    refine ⟨?_, _, rfl⟩
    rintro ⟨-, ha⟩
    rw [List.any_eq_true] at h
    obtain ⟨a, ha', h⟩ := h
    obtain ⟨v, hv, hav⟩ := (hb.aliases a).mp h
    exact (ha v hv).2.2 a hav ha'
  rename_i hal
  left
  have hacc : Acceptable b.values name number aliases := by
    refine ⟨by simpa using hhash, fun v hv => ⟨?_, ?_, ?_⟩⟩
    · intro he
      apply hname
      rw [hb.names, List.any_map, List.any_eq_true]
      exact ⟨v, hv, by simpa using he⟩
    · cases hq : litEq v.number number with
      | false => rfl
      | true =>
        exact absurd (by rw [hb.numbers, List.any_map, List.any_eq_true]; exact ⟨v, hv, hq⟩) hnum
    · intro a hav haa
      exact hal (List.any_eq_true.mpr ⟨a, haa, (hb.aliases a).mpr ⟨v, hv, hav⟩⟩)
  refine ⟨hacc, rfl, rfl, ?_⟩
  constructor
  · simp [hb.names]
  · simp [hb.numbers]
  · intro a
    rw [foldl_dictSet_keys, hb.aliases]
    simp only [List.mem_append, List.mem_singleton]
    constructor
    · rintro (⟨v, hv, ha⟩ | ha)
      · exact ⟨v, .inl hv, ha⟩
      · exact ⟨_, .inr rfl, ha⟩
    · rintro ⟨v, hv | rfl, ha⟩
      · exact .inl ⟨v, hv, ha⟩
      · exact .inr ha
  · simp only [List.pairwise_append, List.pairwise_cons, List.not_mem_nil, List.mem_singleton]
    exact ⟨hb.distinct, ⟨fun _ h => h.elim, List.Pairwise.nil⟩, fun v hv w hw => hw ▸ hacc.2 v hv⟩

theorem enum_run_inv (calls : List AddCall) : EnumInv (EnumBuilder.run calls) := by
  have : ∀ b, EnumInv b →
      EnumInv (calls.foldl (fun b c => (b.addValue c.name c.number c.aliases).2) b) := by
    induction calls with
    | nil => exact fun b hb => hb
    | cons c cs ih =>
      intro b hb
      apply ih
      show EnumInv (b.addValue c.name c.number c.aliases).2
      rcases addValue_spec b hb c.name c.number c.aliases with h | ⟨-, e, h⟩
      · exact h.2.2.2
      · rw [h]; exact hb
  exact this _ ⟨rfl, rfl, by simp, .nil⟩

/-- **C35a** After any history of AddValue calls the accepted values have distinct
names, distinct numbers and no common alias. -/
theorem C35_values_distinct (calls : List AddCall) :
    (EnumBuilder.run calls).values.Pairwise fun v w =>
      v.name ≠ w.name ∧ ¬ Alike v.number w.number ∧ ∀ a ∈ v.aliases, a ∉ w.aliases := by
  simp only [← litEq_iff, Bool.not_eq_true]
  exact (enum_run_inv calls).distinct

/-- **C35b** After any history, a further call is accepted exactly when its number
can be a dictionary key and neither its name, nor its number, nor any alias of it
occurs in an accepted value; then its value is appended. A rejected call raises an
error and changes nothing. -/
theorem C35_add_value (calls : List AddCall) (name : String) (number : Lit)
    (aliases : List String) :
    let b := EnumBuilder.run calls
    let accepted := number.isHashable = true ∧ ∀ v ∈ b.values,
        v.name ≠ name ∧ ¬ Alike v.number number ∧ ∀ a ∈ v.aliases, a ∉ aliases
    (accepted → (b.addValue name number aliases).1 = .ok () ∧
      (b.addValue name number aliases).2.values = b.values ++ [⟨name, number, aliases⟩]) ∧
    (¬ accepted → ∃ e, b.addValue name number aliases = (.error e, b)) := by
  intro b
  simp only [← litEq_iff, Bool.not_eq_true]
  rcases addValue_spec b (enum_run_inv calls) name number aliases with h | h
  · unfold Acceptable at h; exact ⟨fun _ => ⟨h.2.1, h.2.2.1⟩, fun hn => absurd h.1 hn⟩
  · unfold Acceptable at h; exact ⟨fun hp => absurd hp h.1, fun _ => h.2⟩

/-- **C35c** GetName(n) is the name of the only accepted value whose number equals
`n`, and None when there is none. -/
theorem C35_get_name (calls : List AddCall) (n : Lit) :
    let b := EnumBuilder.run calls
    (∀ v ∈ b.values, Alike v.number n → b.getName n = some v.name ∧
      ∀ w ∈ b.values, Alike w.number n → w = v) ∧
    ((∀ v ∈ b.values, ¬ Alike v.number n) → b.getName n = none) := by
  intro b
  simp only [← litEq_iff, Bool.not_eq_true]
  have hb : EnumInv b := enum_run_inv calls
  have huniq : ∀ v ∈ b.values, ∀ w ∈ b.values, litEq v.number n = true →
      litEq w.number n = true → w = v := by
    have hd := hb.distinct
    generalize b.values = vs at *
    induction hd with
    | nil => simp
    | @cons x vs hx hd ih =>
      have hcon : ∀ y ∈ vs, litEq x.number n = true → litEq y.number n = true → False := by
        intro y hy h1 h2
        have := (hx y hy).2.1
        rw [litEq_trans h1 (litEq_symm h2)] at this
        cases this
      intro v hv w hw h1 h2
      simp only [List.mem_cons] at hv hw
      rcases hv with rfl | hv <;> rcases hw with rfl | hw
      · rfl
      · exact (hcon w hw h1 h2).elim
      · exact (hcon v hv h2 h1).elim
      · exact ih v hv w hw h1 h2
  constructor
  · intro v hv hn
    refine ⟨?_, fun w hw hn' => huniq v hv w hw hn hn'⟩
    unfold EnumBuilder.getName
    rw [hb.numbers, List.find?_map, Option.map_map]
    cases hf : b.values.find? ((fun x : Lit × EnumVal => litEq x.1 n) ∘ fun v => (v.number, v)) with
    | none =>
      rw [List.find?_eq_none] at hf
      exact absurd hn (hf v hv)
    | some w =>
      have hw := List.find?_some hf
      have hm := List.mem_of_find?_eq_some hf
      have := huniq v hv w hm hn hw
      subst this; rfl
  · intro hnone
    unfold EnumBuilder.getName
    rw [hb.numbers, List.find?_map, Option.map_map]
    rw [List.find?_eq_none.mpr]
    · rfl
    · intro v hv
      simp [hnone v hv]

/-- The second value is rejected because of its number, the third because of its
alias. -/
example :
    let b := EnumBuilder.run [⟨"a", .int 1, ["x"]⟩, ⟨"b", .bool true, []⟩, ⟨"c", .int 2, ["x"]⟩,
      ⟨"d", .int 2, ["y"]⟩]
    b.getName (.int 1) = some "a" ∧ b.getName (.int 2) = some "d" ∧ b.getName (.int 3) = none ∧
      b.values.length = 2 := by decide

end Dtf
