import Verif.Props.Access
/-!
# Property C120: rows, data sizes and numbers of elements
-/
namespace Dtf
open Spec

/-- Rows, read one after another, are the elements read one after another. -/
theorem readable_rows {E : Env} {rm em : DMap} {bs : Bytes} {d d' k : Nat} (hk : 0 < k)
    (h : ∀ q v n, ((mapStream E rm bs q d {}).1 = .ok v ∧ (mapStream E rm bs q d {}).2.byteSize = some n) ↔
      ∃ us, v = .tuple us ∧ us.length = k ∧ Readable E em bs d' bs.length q us (q + n)) {p e : Nat} {vs : List Val} :
    Readable E rm bs d bs.length p vs e ↔
      ∃ rows : List (List Val), vs = rows.map .tuple ∧ (∀ r ∈ rows, r.length = k) ∧
        Readable E em bs d' bs.length p rows.flatten e := by
  constructor
  · intro hr
    induction hr with
    | nil p => exact ⟨[], rfl, by simp, .nil p⟩
    | cons hp hv hn _ ih =>
      obtain ⟨rows, rfl, h1, h2⟩ := ih
      obtain ⟨us, rfl, h3, h4⟩ := (h _ _ _).1 ⟨hv, hn⟩
      refine ⟨us :: rows, rfl, ?_, readable_append.2 ⟨_, h4, h2⟩⟩
      intro r hr
      rcases List.mem_cons.1 hr with rfl | hr
      · exact h3
      · exact h1 r hr
  · rintro ⟨rows, rfl, h1, h2⟩
    induction rows generalizing p with
    | nil => cases h2; exact .nil _
    | cons us rows ih =>
      obtain ⟨q, h3, h4⟩ := readable_append.1 h2
      have h5 := h1 us List.mem_cons_self
      have hp : p < bs.length := by
        cases h3 with
        | nil => simp at h5; omega
        | cons hp _ _ _ => exact hp
      obtain ⟨n, rfl⟩ := Nat.exists_eq_add_of_le (readable_mono h3)
      obtain ⟨h6, h7⟩ := (h p (.tuple us) n).2 ⟨us, rfl, h5, h3⟩
      exact .cons hp h6 h7 (ih (fun r hr => h1 r (List.mem_cons_of_mem _ hr)) h4)

theorem readable_free {E : Env} {em : DMap} {bs : Bytes} {d d' : Nat} (h1 : em.levels + d ≤ 11) (h2 : em.levels + d' ≤ 11)
    {stop p e : Nat} {vs : List Val} (h : Readable E em bs d stop p vs e) : Readable E em bs d' stop p vs e := by
  induction h with
  | nil p => exact .nil p
  | @cons p k _ v _ hp hv hn _ ih =>
    have := (mapped_iff (c := {}) (Ctx.clean_fresh [])).1 ⟨hv, hn⟩
    rw [parse_free E em bs d (by omega), ← parse_free E em bs d' (by omega)] at this
    obtain ⟨h3, h4⟩ := (mapped_iff (c := {}) (Ctx.clean_fresh [])).2 this
    exact .cons hp h3 h4 ih

/-- **C120** A sequence of `j` rows of `k` elements each can be mapped exactly if the sequence of all `j * k` elements
can: the rows are the elements cut into rows, and the number of bytes is the same. -/
theorem C120_rows (E : Env) (nm nm' : String) (o : Order) (h hr h' : Hdr) (info infoR info' : SeqInfo) (e : Defn)
    (hmem : ∀ h i c t v, e ≠ .member h i c t v) (hlev : e.levels ≤ 9) (m m' : DMap)
    (hm : createAs E nm o (.seq h info (.seq hr infoR e)) = .ok m)
    (hm' : createAs E nm' (elementOrder o (.seq hr infoR e)) (.seq h' info' e) = .ok m')
    (hi : ∀ i ∈ [info, infoR, info'], i.kind = .sequence ∧ i.dataSize = none ∧ i.dataSizeExpr = none ∧
      i.terminator = none)
    (bs : Bytes) (off : Nat) (c : Ctx) (hc : c.Clean) (j k : Nat) (hk : 0 < k)
    (hn : Amounts E info.numElements info.numElementsExpr c.values j)
    (hnR : Amounts E infoR.numElements infoR.numElementsExpr [] k)
    (hn' : Amounts E info'.numElements info'.numElementsExpr c.values (j * k : Nat)) (v : Val) (n : Nat) :
    ((mapStream E m bs off 0 c).1 = .ok v ∧ (mapStream E m bs off 0 c).2.byteSize = some n) ↔
      ∃ rows : List (List Val), v = .tuple (rows.map .tuple) ∧ rows.length = j ∧ (∀ r ∈ rows, r.length = k) ∧
        (mapStream E m' bs off 0 c).1 = .ok (.tuple rows.flatten) ∧
        (mapStream E m' bs off 0 c).2.byteSize = some n := by
  obtain ⟨k1, d1, d2, d3⟩ := hi info (by simp)
  obtain ⟨k2, e1, e2, e3⟩ := hi infoR (by simp)
  obtain ⟨k3, f1, f2, f3⟩ := hi info' (by simp)
  obtain ⟨en, rm, hen, hrm, hiff⟩ := C85_number E nm o h info k1 _ m hm (fun _ _ _ _ _ => Defn.noConfusion) bs off 0
    (by omega) c hc d1 d2 d3 _ hn
  obtain ⟨en', em, hen', hem, hiff'⟩ := C85_number E nm' _ h' info' k3 e m' hm' hmem bs off 0
    (by omega) c hc f1 f2 f3 _ hn'
  have hlv : em.levels ≤ 9 := Nat.le_trans (levels_createAs e _ _ em hem) hlev
  have hrow : ∀ q v n, ((mapStream E rm bs q 1 {}).1 = .ok v ∧ (mapStream E rm bs q 1 {}).2.byteSize = some n) ↔
      ∃ us, v = .tuple us ∧ us.length = k ∧ Readable E em bs 1 bs.length q us (q + n) := by
    intro q v n
    obtain ⟨en2, em2, hen2, hem2, hiff2⟩ := C85_number E en _ hr infoR k2 e rm hrm hmem bs q 1
      (by omega) {} rfl e1 e2 e3 _ hnR
    have hs := fun q => elements_alike hen2 hen' hem2 hem bs q 2 {}
    rw [hiff2]
    constructor
    · rintro ⟨us, h1, h2, h3⟩
      exact ⟨us, h1, h2, readable_free (by omega) (by omega) (readable_congr hs h3)⟩
    · rintro ⟨us, h1, h2, h3⟩
      exact ⟨us, h1, h2, readable_congr (fun q => (hs q).symm) (readable_free (by omega) (by omega) h3)⟩
  have hlen : ∀ rows : List (List Val), (∀ r ∈ rows, r.length = k) → rows.flatten.length = rows.length * k := by
    intro rows
    induction rows with
    | nil => simp
    | cons r rows ih =>
      intro h
      rw [List.flatten_cons, List.length_append, h r List.mem_cons_self,
        ih fun r hr => h r (List.mem_cons_of_mem _ hr), List.length_cons, Nat.succ_mul, Nat.add_comm]
  rw [hiff]
  constructor
  · rintro ⟨vs, rfl, h1, h2⟩
    obtain ⟨rows, rfl, h3, h4⟩ := (readable_rows hk hrow).1 h2
    rw [List.length_map] at h1
    exact ⟨rows, rfl, h1, h3, (hiff' _ n).2 ⟨_, rfl, by rw [hlen rows h3, h1], h4⟩⟩
  · rintro ⟨rows, rfl, h1, h2, h3⟩
    obtain ⟨vs, he, h4, h5⟩ := (hiff' _ n).1 h3
    cases he
    exact ⟨_, rfl, by rw [List.length_map, h1], (readable_rows hk hrow).2 ⟨rows, rfl, h2, h5⟩⟩

/-- **C120** For elements of a fixed size `es`, a sequence of the data size `ds` and a sequence of `ds / es` elements
are the same. -/
theorem C120_data_size (E : Env) (nm nm' : String) (o : Order) (h h' : Hdr) (info info' : SeqInfo) (e : Defn)
    (he : e.Every Plain) (hmem : ∀ h i c t v, e ≠ .member h i c t v) (m m' : DMap)
    (hm : createAs E nm o (.seq h info e) = .ok m) (hm' : createAs E nm' o (.seq h' info' e) = .ok m')
    (hk : info.kind = .sequence) (hk' : info'.kind = .sequence) (ds es : Nat) (hes : e.byteSize = some (es : Int))
    (hpos : 0 < es) (bs : Bytes) (off depth : Nat) (hd : depth ≤ 10) (c : Ctx) (hc : c.Clean)
    (hds : Amounts E info.dataSize info.dataSizeExpr c.values ds)
    (hdvd : info.dataSize ≠ none → es ∣ ds ∧ info.numElements = none)
    (h1 : info'.dataSize = none) (h2 : info'.dataSizeExpr = none) (h3 : info'.terminator = none)
    (hn : Amounts E info'.numElements info'.numElementsExpr c.values (ds / es : Nat)) (v : Val) (n : Nat) :
    ((mapStream E m bs off depth c).1 = .ok v ∧ (mapStream E m bs off depth c).2.byteSize = some n) ↔
      ((mapStream E m' bs off depth c).1 = .ok v ∧ (mapStream E m' bs off depth c).2.byteSize = some n) := by
  obtain ⟨en, em, hen, hem, hiff⟩ :=
    C85_data_size E nm o h info hk e m hm hmem bs off depth hd c hc ds es hds hes hpos hdvd
  obtain ⟨en', em', hen', hem', hiff'⟩ :=
    C85_number E nm' o h' info' hk' e m' hm' hmem bs off depth hd c hc h1 h2 h3 _ hn
  have hs := fun q => elements_alike hen hen' hem hem' bs q (depth + 1) {}
  have hx : ∀ q v k, (mapStream E em bs q (depth + 1) {}).1 = .ok v →
      (mapStream E em bs q (depth + 1) {}).2.byteSize = some k → k = es := by
    intro q v k hv hk
    have hex := (parse_exact E bs e he es hes).2 _ _ em hem q (depth + 1) []
    obtain ⟨k', hp, hb⟩ := mapStream_ok (c := {}) rfl hv
    rw [hp] at hex
    rw [hk] at hb
    cases hb
    have h4 := hex.1
    have h5 := hex.2
    omega
  have grow : ∀ {p stop e vs}, stop ≤ bs.length → Readable E em bs (depth + 1) stop p vs e →
      Readable E em bs (depth + 1) bs.length p vs e := by
    intro p stop e vs hle hr
    induction hr with
    | nil p => exact .nil p
    | cons hp hv hk _ ih => exact .cons (by omega) hv hk ih
  have shrink : ∀ {p e vs}, Readable E em bs (depth + 1) bs.length p vs e → p + vs.length * es ≤ off + ds →
      Readable E em bs (depth + 1) (min bs.length (off + ds)) p vs e := by
    intro p e vs hr hle
    induction hr with
    | nil p => exact .nil p
    | cons hp hv hk _ ih =>
      have := hx _ _ _ hv hk
      rw [List.length_cons, Nat.succ_mul] at hle
      exact .cons (by omega) hv hk (ih (by omega))
  rw [hiff, hiff']
  constructor
  · rintro ⟨vs, h4, h5, h6⟩
    exact ⟨vs, h4, h5, readable_congr hs (grow (by omega) h6)⟩
  · rintro ⟨vs, h4, h5, h6⟩
    refine ⟨vs, h4, h5, shrink (readable_congr (fun q => (hs q).symm) h6) ?_⟩
    have := Nat.div_mul_le_self ds es
    rw [h5]
    omega

/-- `j` rows of `k` bytes each, and all their bytes. -/
def exGrid (j k : Int) : Defn :=
  .seq { name := "grid" } { kind := .sequence, elementDataType := some "line", numElements := some j }
    (.seq { name := "line" } { kind := .sequence, elementDataType := some "uint8", numElements := some k } exU8)

def exCells (info : SeqInfo) : Defn := .seq { name := "cells" } { info with elementDataType := some "uint8" } exU8

/-- The hypotheses and both sides of `C120_rows`. -/
example : ∃ m m', createMap exEnv (exGrid 2 3) = .ok m ∧
    createMap exEnv (exCells { kind := .sequence, numElements := some 6 }) = .ok m' ∧ exU8.levels ≤ 9 ∧
    Amounts exEnv (some 2) none [] (2 : Nat) ∧ Amounts exEnv (some 3) none [] (3 : Nat) ∧
    Amounts exEnv (some 6) none [] (2 * 3 : Nat) ∧
    (mapStream exEnv m [9, 1, 2, 3, 4, 5, 6] 1 0 {}).1 =
      .ok (.tuple [.tuple [.int 1, .int 2, .int 3], .tuple [.int 4, .int 5, .int 6]]) ∧
    (mapStream exEnv m' [9, 1, 2, 3, 4, 5, 6] 1 0 {}).1 =
      .ok (.tuple [.int 1, .int 2, .int 3, .int 4, .int 5, .int 6]) := by
  exact ⟨_, _, rfl, rfl, by decide, ⟨by decide, .inl ⟨rfl, by decide⟩⟩, ⟨by decide, .inl ⟨rfl, by decide⟩⟩,
    ⟨by decide, .inl ⟨rfl, by decide⟩⟩, rfl, rfl⟩

/-- The hypotheses and both sides of `C120_data_size`. -/
example : ∃ m m', createMap exEnv (exCells { kind := .sequence, dataSize := some 3 }) = .ok m ∧
    createMap exEnv (exCells { kind := .sequence, numElements := some 3 }) = .ok m' ∧ exU8.Every Plain ∧
    exU8.byteSize = some (1 : Nat) ∧ Amounts exEnv (some 3) none [] (3 : Nat) ∧
    Amounts exEnv (some 3) none [] (3 / 1 : Nat) ∧
    (mapStream exEnv m [9, 1, 2, 3] 1 0 {}).1 = .ok (.tuple [.int 1, .int 2, .int 3]) ∧
    (mapStream exEnv m' [9, 1, 2, 3] 1 0 {}).1 = .ok (.tuple [.int 1, .int 2, .int 3]) := by
  exact ⟨_, _, rfl, rfl, by simp [Defn.Every, exU8, Plain], rfl, ⟨by decide, .inl ⟨rfl, by decide⟩⟩,
    ⟨by decide, .inl ⟨rfl, by decide⟩⟩, rfl, rfl⟩

/-- Rows without elements are not nothing: none of them may begin at the end of the byte stream, where the sequence of
all their elements, which has no elements, can be mapped. -/
theorem C120_empty_rows : ∃ (E : Env) (h hr h' : Hdr) (info infoR info' : SeqInfo) (m m' : DMap),
    createAs E "rows" .native (.seq h info (.seq hr infoR exU8)) = .ok m ∧
    createAs E "cells" .native (.seq h' info' exU8) = .ok m' ∧
    Amounts E info.numElements info.numElementsExpr [] (2 : Nat) ∧
    Amounts E infoR.numElements infoR.numElementsExpr [] (0 : Nat) ∧
    Amounts E info'.numElements info'.numElementsExpr [] (2 * 0 : Nat) ∧
    (mapStream E m [] 0 0 {}).1 = .error .tooSmall ∧ (mapStream E m' [] 0 0 {}).1 = .ok (.tuple []) := by
  refine ⟨exHollowEnv, { name := "rows" }, { name := "row" }, { name := "cells" },
    { kind := .sequence, elementDataType := some "row", numElements := some 2 },
    { kind := .sequence, elementDataType := some "uint8", numElementsExpr := some "0" },
    { kind := .sequence, elementDataType := some "uint8", numElementsExpr := some "0" },
    _, _, rfl, rfl, ⟨by decide, .inl ⟨rfl, by decide⟩⟩, ?_, ?_, rfl, rfl⟩
  all_goals exact ⟨by decide, .inr ⟨rfl, "0", .int 0, rfl, by decide, rfl, .int⟩⟩

end Dtf
