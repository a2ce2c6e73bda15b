import Verif.Props.SequenceLinear
/-!
# Property C53: struct format strings
-/
namespace Dtf

namespace Spec

/-- The format string of the map is `f`, and `struct.calcsize` of it is `n`. -/
def CalcSize (m : DMap) (f : List Char) (n : Nat) : Prop :=
  m.fmt = .ok (some f) ∧ ∃ codes, parseCodes none f = some codes ∧ codesSize codes = n

end Spec
open Spec

/-! ### C53 -/

/-- The format string of a structure read in one go describes as many bytes as
GetByteSize says. Missing for the full claim: structures with two member types of
the same name, see `C37_refuted`, and members whose size is not given in bytes, for
which GetByteSize is None. -/
theorem C53_structure_partial (E : Env) (nm : String) (o : Order) (h : Hdr) (ms : List Defn)
    (hdt : DistinctTypes ms) (hd : Hdr) (bsz : Option Int) (io : Bool) (infos : List MemInfo)
    (maps : List DMap) (hm : createAs E nm o (.struct h ms) = .ok (.struct hd bsz true io infos maps))
    (op : Op) (hop : (DMap.struct hd bsz true io infos maps).op = some op) (n : Int)
    (hn : (Defn.struct h ms).byteSize = some n) :
    ∃ (f : List Char) (k : Nat), CalcSize (.struct hd bsz true io infos maps) f k ∧ (k : Int) = n := by
  obtain ⟨io', infos', maps', l, -, -, -, heq, -⟩ := createAs_struct hm
  simp only [DMap.struct.injEq] at heq
  obtain ⟨-, rfl, -⟩ := heq
  rw [hn] at hm hop ⊢
  obtain ⟨f, ho, hf, hne, hp⟩ := op_some hop
  exact ⟨f, codesSize op.codes, ⟨hf, op.codes, hp, rfl⟩, struct_op_size hdt hm op hop⟩

/-- The format string of a sequence read in one go describes the bytes of a whole
number of elements: all bytes GetByteSize says except a remainder that is smaller
than an element. There is no remainder if the number of elements is given. -/
theorem C53_sequence_partial (E : Env) (nm : String) (o : Order) (h : Hdr) (info : SeqInfo) (e : Defn) (m : DMap)
    (hk : info.kind = .sequence) (hm : createAs E nm o (.seq h info e) = .ok m)
    (hlin : seqLinear info ⟨e.byteSize, e.isComposite, e.terminator?⟩ = true) (op : Op)
    (hop : m.op = some op) (n es : Int) (hn : (Defn.seq h info e).byteSize = some n)
    (hes : e.byteSize = some es) :
    ∃ (f : List Char) (k : Nat), CalcSize m f k ∧ (k : Int) = n - n % es ∧
      (info.dataSize = none → (k : Int) = n) := by
  have hlin' : e.isComposite = false := by
    simp [seqLinear] at hlin; simp_all
  obtain ⟨f, ho, hf, hne, hp⟩ := op_some hop
  obtain ⟨h', k, sz, u, c, cnt, ec, rfl, rfl, hord, hc, hcs, hcodes, hcnt, h1, h2⟩ :=
    seq_op hk hm hlin' op hop
  refine ⟨f, codesSize op.codes, ⟨hf, op.codes, hp, rfl⟩, ?_⟩
  have hsz : codesSize op.codes = cnt * c.size := by
    rw [hcodes, codesSize_replicate]
  have hez : es = sz := by
    simp only [Defn.byteSize, fixedByteSize] at hes
    split at hes <;> simp_all
  have hcs0 : c.size ≠ 0 := by cases c <;> simp [Code.size]
  have hpos : (0 : Int) < es := by omega
  rw [hsz]
  cases hds : truthyInt info.dataSize with
  | false =>
    have hnum := h2 hds
    have hcnt0 : cnt ≠ 0 := by omega
    have hn' : n = sz * cnt := by
      rw [Defn.byteSize, if_neg (by simp [hds]), hnum, if_pos (by simp [truthyInt, hcnt0]), hes] at hn
      simp only [hez] at hn
      rw [if_neg (by omega)] at hn
      simp at hn
      exact hn.symm
    subst hn'
    have : ((cnt * c.size : Nat) : Int) = sz * cnt := by
      rw [← hcs]; push_cast; exact Int.mul_comm _ _
    rw [this, hez, Int.mul_emod_right]
    simp
  | true =>
    obtain ⟨-, hdiv⟩ := h1 hds
    cases hd : info.dataSize with
    | none => rw [hd] at hds; cases hds
    | some ds =>
      rw [Defn.byteSize, if_pos hds, hd] at hn
      injection hn with hn
      subst hn
      rw [hd] at hdiv
      simp only [Option.map_some, Option.some.injEq] at hdiv
      refine ⟨?_, by simp⟩
      have e1 : Int.fdiv ds sz = ds / sz := Int.fdiv_eq_ediv_of_nonneg _ (by omega)
      have e2 := Int.mul_ediv_add_emod ds sz
      rw [e1] at hdiv
      rw [hdiv] at e2
      have : ((cnt * c.size : Nat) : Int) = sz * cnt := by
        rw [← hcs]; push_cast; exact Int.mul_comm _ _
      rw [this, hez]
      omega

/-- **C53** is false for a sequence of 5 bytes with elements of 2 bytes: the format
string is `2H`. -/
theorem C53_refuted : ∃ (d : Defn) (m : DMap) (op : Op), createMap exEnv d = .ok m ∧ m.op = some op ∧ d.byteSize = some 5 ∧
    CalcSize m ['2', 'H'] 4 :=
  ⟨.seq { name := "b" } { kind := .sequence, elementDataType := some "uint16", dataSize := some 5 } exU16,
    _, _, rfl, rfl, rfl, rfl, _, rfl, rfl⟩

/-- A sequence of three 2-byte integers: `3H`, 6 bytes. -/
example : ∃ m op, createMap exEnv exSeq = .ok m ∧ m.op = some op ∧ exSeq.byteSize = some 6 ∧
    CalcSize m ['3', 'H'] 6 := ⟨_, _, rfl, rfl, rfl, rfl, _, rfl, rfl⟩

/-- `exLin` is read in one go. -/
example : ∃ hd bsz io infos maps op, createMap exEnv exLin = .ok (.struct hd bsz true io infos maps) ∧
    (DMap.struct hd bsz true io infos maps).op = some op := ⟨_, _, _, _, _, _, rfl, rfl⟩

end Dtf
