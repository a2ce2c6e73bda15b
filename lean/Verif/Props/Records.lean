import Verif.Props.Complete
import Verif.Props.FoldBack

/-!
# Property C103: records written one after another

Values folded one by one and written one after another can be read back, one by one or
as a sequence.
-/

namespace Dtf
open Spec

namespace Spec

/-- `b` are the bytes of the values `vs`, each of which agrees with the type of `m` where it
is put and is folded by `m`, one after another from position `p` on. -/
inductive Written (E : Env) (m : DMap) (depth : Nat) : Nat → List Val → Bytes → Prop
  | nil (p : Nat) : Written E m depth p [] []
  | cons {p n : Nat} {v : Val} {vs : List Val} {b bs : Bytes} {fs : Namespace}
      (hv : Fits E m p depth [] v n) (hf : fold E m v fs = .ok (.bytes b)) (hb : b ≠ [])
      (h : Written E m depth (p + b.length) vs bs) : Written E m depth p (v :: vs) (b ++ bs)

end Spec

theorem written_readable {E : Env} {m : DMap} (hok : m.Every NodeOk) {depth p : Nat} {vs : List Val} {b : Bytes}
    (h : Written E m depth p vs b) (pre post : Bytes) (hp : pre.length = p) (stop : Nat)
    (hs : p + b.length ≤ stop) :
    Readable E m (pre ++ b ++ post) depth stop p vs (p + b.length) := by
  induction h generalizing pre with
  | nil p => exact .nil _
  | @cons p n v vs b bs fs hv hf hb _ ih =>
    subst hp
    have h := fold_forth m hok pre.length depth [] fs v n b hv hf pre (bs ++ post) rfl
    obtain ⟨h1, h2⟩ := h
    subst h1
    have e1 : pre ++ (b ++ bs) ++ post = pre ++ b ++ (bs ++ post) := by simp
    have e2 : pre ++ (b ++ bs) ++ post = pre ++ b ++ bs ++ post := by simp
    have hm := mapStream_of_parse (c := {}) rfl h2
    have hlen : 0 < b.length := by
      cases b with
      | nil => exact absurd rfl hb
      | cons => simp
    refine .cons (k := b.length) (by simp at hs; omega) (by rw [e1]; exact hm.1) (by rw [e1]; exact hm.2) ?_
    have := ih (pre ++ b) (by simp) (by simp at hs; omega)
    rw [e2]
    simpa [Nat.add_assoc] using this

theorem readable_elements {E : Env} {m : DMap} {bs : Bytes} {depth stop p e : Nat} {vs : List Val}
    (h : Readable E m bs depth stop p vs e) : Elements E m bs depth p vs e := by
  induction h with
  | nil p => exact .nil p
  | cons _ hv hk _ ih => exact .cons hv hk ih

theorem elements_unique {E : Env} {m : DMap} {bs : Bytes} {depth p e e' : Nat} {vs ws : List Val}
    (h : Elements E m bs depth p vs e) (h' : Elements E m bs depth p ws e') (hl : vs.length = ws.length) :
    vs = ws ∧ e = e' := by
  induction h generalizing ws with
  | nil p =>
    cases ws with
    | nil => cases h'; exact ⟨rfl, rfl⟩
    | cons => simp at hl
  | cons hv hk _ ih =>
    cases h' with
    | nil => simp at hl
    | cons hv' hk' t' =>
      rw [hv] at hv'
      cases hv'
      rw [hk] at hk'
      cases hk'
      obtain ⟨rfl, rfl⟩ := ih t' (by simpa using hl)
      exact ⟨rfl, rfl⟩

/-- **C103** Values folded and written one after another, anywhere in a byte stream, are read
back by mapping at the first and then, as often as there are values, where the last value
ended; the reading ends where the writing did. No other values can be read so. -/
theorem C103_records (E : Env) (d : Defn) (hd : d.Every TypesDistinct) (m : DMap) (hm : createMap E d = .ok m)
    (depth : Nat) (pre post b : Bytes) (vs : List Val) (hw : Written E m depth pre.length vs b) :
    Elements E m (pre ++ b ++ post) depth pre.length vs (pre.length + b.length) ∧
      ∀ ws e, Elements E m (pre ++ b ++ post) depth pre.length ws e → ws.length = vs.length →
        ws = vs ∧ e = pre.length + b.length := by
  have hok := createAs_every (Q := NodeOk) (fun d nm o m => nodeOk_of_create d nm o m) d _ _ _ hm hd
  have h := readable_elements (written_readable hok hw pre post rfl _ (Nat.le_refl _))
  exact ⟨h, fun ws e hws hl => elements_unique hws h hl⟩

/-- **C103** They are also what a sequence of that number of elements maps to, although
FoldByteStream of the sequence itself may give `None` (C31_sequence_refuted). -/
theorem C103_sequence (E : Env) (nm : String) (o : Order) (h : Hdr) (info : SeqInfo)
    (hk : info.kind = .sequence) (e : Defn) (he : e.Every TypesDistinct) (m : DMap)
    (hm : createAs E nm o (.seq h info e) = .ok m) (hmem : ∀ h i c t v, e ≠ .member h i c t v)
    (depth : Nat) (hd : depth ≤ 10) (c : Ctx) (hc : c.Clean)
    (h1 : info.dataSize = none) (h2 : info.dataSizeExpr = none) (h3 : info.terminator = none)
    (vs : List Val) (hn : Amounts E info.numElements info.numElementsExpr c.values vs.length)
    (pre b post : Bytes) :
    ∃ en em, (e.isComposite = true → en = e.name) ∧ createAs E en (elementOrder o e) e = .ok em ∧
      (Written E em (depth + 1) pre.length vs b →
        (mapStream E m (pre ++ b ++ post) pre.length depth c).1 = .ok (.tuple vs) ∧
        (mapStream E m (pre ++ b ++ post) pre.length depth c).2.byteSize = some b.length) := by
  obtain ⟨en, em, hen, hem, hiff⟩ :=
    C85_number E nm o h info hk e m hm hmem (pre ++ b ++ post) pre.length depth hd c hc h1 h2 h3 vs.length hn
  refine ⟨en, em, hen, hem, fun hw => (hiff _ _).mpr ⟨vs, rfl, rfl, ?_⟩⟩
  have hok := createAs_every (Q := NodeOk) (fun d nm o m => nodeOk_of_create d nm o m) e _ _ _ hem he
  exact written_readable hok hw pre post rfl _ (by simp)

/-- **C103** So does a terminated sequence, if the last value and no other equals the
terminator. -/
theorem C103_terminated (E : Env) (nm : String) (o : Order) (h : Hdr) (info : SeqInfo)
    (hk : info.kind = .sequence) (e : Defn) (he : e.Every TypesDistinct) (m : DMap)
    (hm : createAs E nm o (.seq h info e) = .ok m) (hmem : ∀ h i c t v, e ≠ .member h i c t v)
    (depth : Nat) (hd : depth ≤ 10) (c : Ctx) (hc : c.Clean)
    (h1 : info.dataSize = none) (h2 : info.dataSizeExpr = none) (t : Lit)
    (ht : info.terminator = some t) (hnull : t ≠ .null)
    (vs : List Val) (x : Val) (hx : Equals x t) (hvs : ∀ y ∈ vs, ¬ Equals y t) (pre b post : Bytes) :
    ∃ en em, (e.isComposite = true → en = e.name) ∧ createAs E en (elementOrder o e) e = .ok em ∧
      (Written E em (depth + 1) pre.length (vs ++ [x]) b →
        (mapStream E m (pre ++ b ++ post) pre.length depth c).1 = .ok (.tuple (vs ++ [x])) ∧
        (mapStream E m (pre ++ b ++ post) pre.length depth c).2.byteSize = some b.length) := by
  obtain ⟨en, em, hen, hem, hiff⟩ :=
    C85_terminator E nm o h info hk e m hm hmem (pre ++ b ++ post) pre.length depth hd c hc h1 h2 t ht hnull
  refine ⟨en, em, hen, hem, fun hw => (hiff _ _).mpr ⟨vs, x, rfl, hx, hvs, ?_⟩⟩
  have hok := createAs_every (Q := NodeOk) (fun d nm o m => nodeOk_of_create d nm o m) e _ _ _ hem he
  exact written_readable hok hw pre post rfl _ (by simp)

/-- **C103** And a sequence given by the size of its data, if that is the number of bytes
written and the bytes are those of as many elements as GetByteSize of the element says. -/
theorem C103_data_size (E : Env) (nm : String) (o : Order) (h : Hdr) (info : SeqInfo)
    (hk : info.kind = .sequence) (e : Defn) (he : e.Every TypesDistinct) (m : DMap)
    (hm : createAs E nm o (.seq h info e) = .ok m) (hmem : ∀ h i c t v, e ≠ .member h i c t v)
    (depth : Nat) (hd : depth ≤ 10) (c : Ctx) (hc : c.Clean) (pre b post : Bytes)
    (hds : Amounts E info.dataSize info.dataSizeExpr c.values b.length)
    (hone : info.dataSize ≠ none → info.numElements = none)
    (es : Nat) (hes : e.byteSize = some (es : Int)) (hpos : 0 < es)
    (vs : List Val) (hl : b.length = vs.length * es) :
    ∃ en em, (e.isComposite = true → en = e.name) ∧ createAs E en (elementOrder o e) e = .ok em ∧
      (Written E em (depth + 1) pre.length vs b →
        (mapStream E m (pre ++ b ++ post) pre.length depth c).1 = .ok (.tuple vs) ∧
        (mapStream E m (pre ++ b ++ post) pre.length depth c).2.byteSize = some b.length) := by
  obtain ⟨en, em, hen, hem, hiff⟩ :=
    C85_data_size E nm o h info hk e m hm hmem (pre ++ b ++ post) pre.length depth hd c hc b.length es hds hes hpos
      (fun hx => ⟨⟨vs.length, by rw [hl, Nat.mul_comm]⟩, hone hx⟩)
  refine ⟨en, em, hen, hem, fun hw => (hiff _ _).mpr ⟨vs, rfl, ?_, ?_⟩⟩
  · rw [hl, Nat.mul_div_cancel _ hpos]
  have hok := createAs_every (Q := NodeOk) (fun d nm o m => nodeOk_of_create d nm o m) e _ _ _ hem he
  exact written_readable hok hw pre post rfl _ (by simp)

/-- Two records of two numbers each, written behind one byte and read back one by one. -/
def exRecord : Defn :=
  .struct { name := "R" }
    [.member { name := "x" } exU8 none (some "uint8") none,
      .member { name := "y" } exU16 none (some "uint16") none]

example : ∃ m, createMap exEnv exRecord = .ok m ∧ exRecord.Every TypesDistinct ∧
    Written exEnv m 0 1 [.struct "R" [("x", .int 1), ("y", .int 2)], .struct "R" [("x", .int 3), ("y", .int 4)]]
      [1, 2, 0, 3, 4, 0] := by
  have hfit : ∃ m, createMap exEnv exRecord = .ok m ∧
      (∀ x y : Int, ∀ p, Fits exEnv m p 0 [] (.struct "R" [("x", .int x), ("y", .int y)]) 3) ∧
      fold exEnv m (.struct "R" [("x", .int 1), ("y", .int 2)]) [] = .ok (.bytes [1, 2, 0]) ∧
      fold exEnv m (.struct "R" [("x", .int 3), ("y", .int 4)]) [] = .ok (.bytes [3, 4, 0]) := by
    refine ⟨_, rfl, ?_, rfl, rfl⟩
    intro x y p
    rw [Fits]
    refine ⟨rfl, [.int x, .int y], rfl, ?_⟩
    rw [if_pos rfl]
    exact ⟨rfl, .cons ⟨x, rfl⟩ (by intro vs h; cases h) (.cons ⟨y, rfl⟩ (by intro vs h; cases h) .nil)⟩
  obtain ⟨m, hm, hfit, h1, h2⟩ := hfit
  refine ⟨m, hm, ?_, ?_⟩
  · simp [exRecord, Defn.Every, everyDefn, TypesDistinct, DistinctTypes, Defn.target, Defn.name, Defn.hdr,
      exU8, exU16]
  · exact .cons (hfit 1 2 1) h1 (by simp) (.cons (hfit 3 4 4) h2 (by simp) (.nil _))

/-- The same as a sequence of two records, and as one of six bytes. -/
example : ∃ m, createMap exEnv (.seq { name := "rs" } { kind := .sequence, numElements := some 2 } exRecord) = .ok m ∧
    (mapStream exEnv m [9, 1, 2, 0, 3, 4, 0] 1 0 {}).1 =
      .ok (.tuple [.struct "R" [("x", .int 1), ("y", .int 2)], .struct "R" [("x", .int 3), ("y", .int 4)]]) :=
  ⟨_, rfl, rfl⟩

example : ∃ m, createMap exEnv (.seq { name := "rs" } { kind := .sequence, dataSize := some 6 } exRecord) = .ok m ∧
    exRecord.byteSize = some 3 ∧
    (mapStream exEnv m [9, 1, 2, 0, 3, 4, 0] 1 0 {}).1 =
      .ok (.tuple [.struct "R" [("x", .int 1), ("y", .int 2)], .struct "R" [("x", .int 3), ("y", .int 4)]]) :=
  ⟨_, rfl, rfl, rfl⟩

/-- Numbers up to the first 0. -/
example : ∃ m, createMap exEnv (.seq { name := "ns" } { kind := .sequence, terminator := some (.int 0) } exU16) = .ok m ∧
    Equals (.int 0) (.int 0) ∧ ¬ Equals (.int 7) (.int 0) ∧
    (mapStream exEnv m [9, 7, 0, 0, 0] 1 0 {}).1 = .ok (.tuple [.int 7, .int 0]) :=
  ⟨_, rfl, (pyEq_iff _ _).mp rfl, fun h => absurd ((pyEq_iff _ _).mpr h) (by decide), rfl⟩

end Dtf
