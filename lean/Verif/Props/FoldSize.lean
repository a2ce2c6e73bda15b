import Verif.Fold
import Verif.ParseSize
import Verif.Props.FoldStreams
import Verif.Props.Formats
import Verif.Props.Classes
import Verif.FoldMap
/-!
# Property C88: the number of bytes FoldByteStream gives

GetByteSize says how many bytes a value of a fixed-size type takes when it is mapped
(C10). Here: how many bytes FoldByteStream makes of a value.
-/
namespace Dtf

namespace Spec

mutual
/-- A value that has something for every member: the members of structures have
values other than None, UUIDs are UUIDs, and padding holds as many bytes as are
missing to the next multiple of its alignment size, counted from the beginning of
the structure. -/
def Complete (d : Defn) (v : Val) : Prop :=
  match d with
  | .uuid _ _ _ => ∃ b : Bytes, b.length = 16 ∧ v = .uuid b
  | .struct _ ms => completeFrom 0 ms v
  | .member _ d _ _ _ => Complete d v
  | _ => True
termination_by structural d
/-- The members from the byte `pos` of the structure on. -/
def completeFrom (pos : Int) (ds : List Defn) (v : Val) : Prop :=
  match ds with
  | [] => True
  | d :: ds =>
    match d with
    | .padding h (some (a + 1)) =>
      (∃ b : Bytes, getAttr v h.name = .bytes b ∧ (b.length : Int) = paddingSize pos (a + 1)) ∧
        completeFrom (pos + paddingSize pos (a + 1)) ds v
    | d =>
      getAttr v d.name ≠ .pyNone ∧ Complete d (getAttr v d.name) ∧
        completeFrom (pos + d.byteSize.getD 0) ds v
termination_by structural ds
end

/-- Definitions of which FoldByteStream writes as many bytes as GetByteSize says: no
unions, UUIDs of 16 bytes, members of types (not of members); declared sizes are positive and not given twice; the size
of the elements of a sequence divides its data size; structure members with the same
type name have the same type. -/
def Writable : Defn → Prop
  | .union _ _ => False
  | .uuid h s u => ∀ n, (Defn.uuid h s u).byteSize = some n → n = 16
  | .seq _ info e =>
    (∀ k, info.dataSize = some k → 0 < k) ∧ (∀ k, info.numElements = some k → 0 < k) ∧
    (info.numElements.isSome → info.dataSize = none ∧ info.dataSizeExpr = none) ∧
    (info.kind = .sequence → ∀ k, info.dataSize = some k → ∃ s, e.byteSize = some s ∧ 0 < s ∧ s ∣ k)
  | .struct _ ms => DistinctTypes ms
  | .member _ d _ _ _ => d.target = d
  | _ => True

end Spec
open Spec

/-- A result that has `n` bytes if it is a byte string. -/
def Folds (r : Except Err Val) (n : Int) : Prop :=
  ∀ b : Bytes, r = .ok (.bytes b) → (b.length : Int) = n

theorem streamFold_folds {E : Env} {info : SeqInfo} {ei : ElemInfo} {v : Val} {ns : Namespace} {n : Int}
    (h : streamSize E info ei ns = .ok (some n)) : Folds (streamFold E info ei v ns) n := by
  intro b hb
  unfold streamFold at hb
  rw [streamFold_size, h] at hb
  simp only at hb
  split at hb
  · cases hb
  · rename_i l hl
    split at hb
    · cases hb
    · rename_i hnl
      cases hb
      simp only [Val.len, Option.some.injEq] at hl
      omega

theorem uuidSwap_length {b : Bytes} (h : b.length = 16) : (uuidSwap b).length = 16 := by
  unfold uuidSwap
  simp only [List.length_append, List.length_reverse, List.length_take, List.length_drop, h]
  omega

/-- The sizes a writable sequence definition of known size can have. -/
theorem writable_byteSize {h : Hdr} {info : SeqInfo} {e : Defn} {n : Int} (hp : Writable (.seq h info e))
    (hs : (Defn.seq h info e).byteSize = some n) :
    (info.dataSize = some n ∧ 0 < n) ∨
    (∃ k s, info.dataSize = none ∧ info.dataSizeExpr = none ∧ info.numElements = some k ∧ 0 < k ∧
      e.byteSize = some s ∧ s ≠ 0 ∧ n = s * k) := by
  obtain ⟨h1, h2, h3, -⟩ := hp
  simp only [Defn.byteSize] at hs
  split at hs
  · exact .inl ⟨hs, h1 n hs⟩
  · split at hs
    · split at hs
      · split at hs
        · cases hs
        · rename_i hnum s hes hs0
          simp only [Option.map_eq_some_iff] at hs
          obtain ⟨k, hk, rfl⟩ := hs
          have := h3 (by rw [hk]; rfl)
          exact .inr ⟨k, s, this.1, this.2, hk, h2 k hk, hes, hs0, rfl⟩
      · cases hs
    · cases hs

theorem complete_target {d : Defn} {v : Val} (h : Complete d v) : Complete d.target v := by
  cases d <;> simp only [Defn.target] <;> exact h

/-- The members of a structure. -/
theorem foldMembers_folds (E : Env) (cls : String) (so : Order) (v : Val) (ms : List Defn)
    (hw : ∀ d ∈ ms, d.Every Writable)
    (hms : ∀ d ∈ ms, ∀ s, d.target.byteSize = some s → ∀ n o m, createAs E n o d.target = .ok m →
      ∀ x ns, Complete d.target x → Folds (fold E m x ns) s)
    (maps : List DMap) (hmo : All2 (MapOf E cls so) ms maps) (tot n : Int)
    (hsz : structSize tot ms = some n) (hc : completeFrom tot ms v) (parts : List Val)
    (hf : foldMembers E v (ms.map Defn.memInfo) maps = .ok (some parts)) (b : Bytes)
    (hb : joinBytes parts = some b) : (b.length : Int) = n - tot := by
  induction hmo generalizing tot parts b with
  | nil =>
    simp [structSize] at hsz
    subst hsz
    simp [foldMembers] at hf
    subst hf
    simp [joinBytes] at hb
    subst hb
    simp
  | @cons d m ms maps hm hmo ih =>
    have ih := ih (fun d hd => hw d (List.mem_cons_of_mem _ hd))
      (fun d hd => hms d (List.mem_cons_of_mem _ hd))
    have hwd := hw d List.mem_cons_self
    have hmd := hms d List.mem_cons_self
    obtain ⟨n', o', -, hcr⟩ := hm
    rw [List.map_cons] at hf
    by_cases hpad : ∃ h a, d = .padding h (some (a + 1))
    · obtain ⟨h, a, rfl⟩ := hpad
      simp only [structSize] at hsz
      simp only [completeFrom] at hc
      obtain ⟨⟨p, hp, hpl⟩, hc⟩ := hc
      simp only [Defn.target, createAs, Except.ok.injEq] at hcr
      subst hcr
      obtain ⟨x, rest, hx, hr, rfl⟩ := foldMembers_inv
        (m := .padding { h with name := n', order := o' } (some (a + 1))) (by exact nofun)
        (show getAttr v h.name ≠ .pyNone by rw [hp]; exact nofun) hf
      simp only [fold, Except.ok.injEq] at hx
      obtain ⟨p', q, rfl, hq, rfl⟩ := joinBytes_cons.mp hb
      have hpp : p' = p := by
        have : getAttr v h.name = .bytes p' := hx
        rw [hp] at this
        exact (Val.bytes.inj this).symm
      subst hpp
      have := ih _ hsz hc rest hr q hq
      rw [List.length_append]
      omega
    · have hstep : structSize tot (d :: ms) = (match d.byteSize with
          | none => none
          | some s => structSize (tot + s) ms) := by
        conv => lhs; unfold structSize
        split
        · exact absurd ⟨_, _, rfl⟩ hpad
        · rfl
      have hcstep : completeFrom tot (d :: ms) v = (getAttr v d.name ≠ .pyNone ∧
          Complete d (getAttr v d.name) ∧ completeFrom (tot + d.byteSize.getD 0) ms v) := by
        conv => lhs; unfold completeFrom
        split
        · exact absurd ⟨_, _, rfl⟩ hpad
        · rfl
      rw [hstep] at hsz
      rw [hcstep] at hc
      split at hsz
      · cases hsz
      rename_i s hs
      obtain ⟨hc1, hc2, hc3⟩ := hc
      rw [hs, Option.getD_some] at hc3
      have htgt : d.target.byteSize = some s := by
        cases d <;> simp only [Defn.target] <;> try exact hs
        simp only [Defn.byteSize] at hs
        split at hs
        · cases hs
        · exact hs
      have hmiss : m ≠ .missing := by
        rintro rfl
        have ht := hwd.target
        have htt : d.target.target = d.target := by
          cases d <;> try rfl
          exact hwd.self
        generalize d.target = t at *
        cases t with
        | union => exact ht.self
        | member h d c x vs =>
          simp only [Defn.target] at htt
          have := congrArg sizeOf htt
          simp at this
          omega
        | prim h k s u =>
          simp only [createAs] at hcr
          split at hcr <;> cases hcr
        | seq h info e =>
          obtain ⟨_, _, _, _, _, hh, _⟩ := createAs_seq hcr
          cases hh
        | struct h ms =>
          obtain ⟨_, _, _, _, _, _, _, hh, _⟩ := createAs_struct hcr
          cases hh
        | group => simp [Defn.byteSize] at htgt
        | _ => first | (simp [Defn.byteSize] at htgt; done) | (simp [createAs] at hcr; done)
      obtain ⟨x, rest, hx, hr, rfl⟩ := foldMembers_inv hmiss (by rw [memInfo_name]; exact hc1) hf
      obtain ⟨p, q, rfl, hq, rfl⟩ := joinBytes_cons.mp hb
      rw [memInfo_name] at hx
      have h1 := hmd s htgt _ _ _ hcr _ _ (complete_target hc2) p hx
      have h2 := ih _ hsz hc3 rest hr q hq
      rw [List.length_append]
      omega

/-- FoldByteStream of a complete value of a writable definition of size `n` gives
`n` bytes. -/
theorem fold_exact (E : Env) (d : Defn) (hd : d.Every Writable) (n : Int)
    (hn : d.byteSize = some n) : ∀ nm o m, createAs E nm o d = .ok m →
      ∀ v ns, Complete d v → Folds (fold E m v ns) n := by
  revert n
  suffices h : (∀ n, d.byteSize = some n → ∀ nm o m, createAs E nm o d = .ok m →
      ∀ v ns, Complete d v → Folds (fold E m v ns) n) ∧
    (∀ n, d.target.byteSize = some n → ∀ nm o m, createAs E nm o d.target = .ok m →
      ∀ v ns, Complete d.target v → Folds (fold E m v ns) n) from h.1
  induction d using Defn.ind with
  | prim h k s u =>
    refine and_self_iff.mpr ?_
    intro n hn nm o m hm v ns hv b hb
    simp only [Defn.byteSize] at hn
    simp only [createAs] at hm
    split at hm
    · cases hm
    cases hm
    simp only [fold, primFold] at hb
    split at hb
    · rename_i x c hx hc
      split at hb
      · rename_i p hp
        cases hb
        rw [packOne_length _ _ _ _ _ hp]
        cases s with
        | native => simp [fixedByteSize] at hn
        | bytes s =>
          simp only [fixedByteSize] at hn
          split at hn
          · cases hn
            rw [primCode_size hc]
          · cases hn
      · cases hb
    · cases hb
  | uuid h s u =>
    refine and_self_iff.mpr ?_
    intro n hn nm o m hm v ns hv b hb
    have hp := hd.self n hn
    simp only [createAs, Except.ok.injEq] at hm
    subst hm
    rw [Complete] at hv
    obtain ⟨p, hl, rfl⟩ := hv
    simp only [fold, uuidFold] at hb
    split at hb
    · cases hb
    · simp only [uuidAttr] at hb
      cases hb
      simp only [id]
      omega
    · simp only [uuidAttr] at hb
      cases hb
      rw [uuidSwap_length hl]
      omega
  | seq h info e ih =>
    refine and_self_iff.mpr ?_
    intro n hn nm o m hm v ns hv
    have hp := hd.self
    have hcases := writable_byteSize hp hn
    obtain ⟨hp1, hp2, hp3, hp4⟩ := hp
    have hstream : info.kind ≠ .sequence →
        streamSize E info ⟨e.byteSize, e.isComposite, e.terminator?⟩ ns = .ok (some n) := by
      intro _
      rcases hcases with ⟨h1, hn0⟩ | ⟨k, s, h1, h2, h3, hk, hs, hs0, rfl⟩
      · simp [streamSize, SeqInfo.hasDataSize, h1, evalDataSize_pos E info ns n hn0 h1]
      · simp [streamSize, SeqInfo.hasDataSize, SeqInfo.hasNumElements, h1, h2, h3, hs,
          evalNumElements_pos E info ns k hk h3, Int.mul_comm s k]
    obtain ⟨n', eo, em, hem, -, hmm, -⟩ := createAs_seq hm
    rw [hmm]
    simp only [fold]
    split
    · rename_i hk
      exact streamFold_folds (hstream (by rw [hk]; exact nofun))
    · rename_i enc hk
      intro b hb
      unfold stringFold at hb
      split at hb
      · split at hb
        · cases hb
        · exact streamFold_folds (hstream (by rw [hk]; exact nofun)) b hb
      · cases hb
    · rename_i hk
      split
      · rename_i hlin
        intro b hb
        rw [← hmm] at hb
        unfold linearSeqFold at hb
        split at hb
        · rename_i op vs hop hvs
          split at hb
          · rename_i p hpk
            cases hb
            have hlin' : e.isComposite = false := by
              simp [seqLinear] at hlin; simp_all
            obtain ⟨h', k, sz, u, c, cnt, ec, rfl, rfl, hord, hc, hcs, hcodes, hcnt, h1, h2⟩ :=
              seq_op hk hm hlin' op hop
            have := packAll_length _ _ _ _ _ hpk
            rw [this, hcodes, codesSize_replicate]
            rcases hcases with ⟨hd1, hn0⟩ | ⟨k', s, hd1, hd2, hd3, hk', hs, hs0, rfl⟩
            · obtain ⟨s, hs, hspos, q, rfl⟩ := hp4 hk n hd1
              have hez : s = sz := by
                simp only [Defn.byteSize, fixedByteSize] at hs
                split at hs <;> simp_all
              subst hez
              obtain ⟨-, hdiv⟩ := h1 (by rw [hd1]; simp only [truthyInt, bne_iff_ne]; exact Int.ne_of_gt hn0)
              rw [hd1, Option.map_some, Option.some.injEq, Int.mul_fdiv_cancel_left q (by omega)] at hdiv
              rw [hcs, hdiv]
              push_cast
              exact Int.mul_comm _ _
            · have hez : s = sz := by
                simp only [Defn.byteSize, fixedByteSize] at hs
                split at hs <;> simp_all
              have := h2 (by rw [hd1]; rfl)
              rw [hd3, Option.some.injEq] at this
              rw [this, hez, hcs]
              push_cast
              exact Int.mul_comm _ _
          · cases hb
        · cases hb
      · intro b hb
        cases hb
  | struct h ms ih =>
    refine and_self_iff.mpr ?_
    intro n hn nm o m hm v ns hv b hb
    have hp := hd.self
    simp only [Defn.Every, everyDefn_iff] at hd
    have ih := fun d hdm => (ih d hdm (hd.2 d hdm)).2
    have hsz : structSize 0 ms = some n := by
      cases ms with
      | nil => simp [Defn.byteSize] at hn
      | cons d ms => simpa only [Defn.byteSize] using hn
    obtain ⟨io, infos, maps, l, -, hmem, -, rfl, -⟩ := createAs_struct hm
    have hinf := (createMembers_all E nm o (fun _ => True) ms (by simp) [] (by simp) infos maps hmem).1
    have hmo := createMembers_mapOf E nm o ms hp ms (fun d hd => hd) [] (by simp) _ _ hmem
    simp only [fold] at hb
    split at hb
    · rename_i hl
      subst hl
      unfold linearStructFold at hb
      split at hb
      · cases hb
      · rename_i op hop
        split at hb
        · rename_i p hpk
          cases hb
          rw [hn] at hm hop
          rw [packAll_length _ _ _ _ _ hpk]
          exact struct_op_size hp hm op hop
        · cases hb
    · split at hb
      · cases hb
      · cases hb
      · rename_i parts hparts
        split at hb
        · cases hb
        · rename_i p hpj
          cases hb
          rw [hinf] at hparts
          rw [Complete] at hv
          have := foldMembers_folds E nm o v ms hd.2 ih maps hmo 0 n hsz hv parts hparts b hpj
          omega
  | member h d c dt vs ih =>
    simp only [Defn.Every] at hd
    have ih := ih hd.2
    refine ⟨?_, ih.1⟩
    intro n hn nm o m hm v ns hv b hb
    simp only [createAs, Except.ok.injEq] at hm
    subst hm
    simp [fold] at hb
  | union => exact absurd hd.self id
  | _ =>
    refine and_self_iff.mpr ?_
    intro n hn
    simp [Defn.byteSize] at hn

/-- **C88** When GetByteSize of a definition is `n` and FoldByteStream makes bytes of a
complete value, it makes `n` bytes. -/
theorem C88_size_partial (E : Env) (d : Defn) (hd : d.Every Writable) (n : Int)
    (hn : d.byteSize = some n) (m : DMap) (hm : createMap E d = .ok m) (v : Val)
    (hv : Complete d v) (ns : Namespace) (b : Bytes) (hb : fold E m v ns = .ok (.bytes b)) :
    (b.length : Int) = n :=
  fold_exact E d hd n hn _ _ m hm v ns hv b hb

/-- A structure of a byte, a padding to a multiple of four and a UUID. -/
def exPadded : Defn :=
  .struct { name := "record", order := .little }
    [.member { name := "kind" } exU8 none (some "uint8") none,
      .padding { name := "fill" } (some 4),
      .member { name := "id", order := .big } exUuid none (some "uuid") none]

theorem exPadded_writable : exPadded.Every Writable := by
  simp only [exPadded, Defn.Every, everyDefn_iff, exU8, exUuid]
  refine ⟨?_, ?_⟩
  · refine ⟨?_, ?_⟩
    · intro x hx y hy
      simp only [List.mem_cons, List.not_mem_nil, or_false] at hx hy
      rcases hx with rfl | rfl | rfl <;> rcases hy with rfl | rfl | rfl <;>
        simp [Defn.target, Defn.name, Defn.hdr]
    · intro x hx
      simp only [List.mem_cons, List.not_mem_nil, or_false] at hx
      rcases hx with rfl | rfl | rfl <;> decide
  · intro d hd
    simp only [List.mem_cons, List.not_mem_nil, or_false] at hd
    rcases hd with rfl | rfl | rfl
    · exact ⟨rfl, trivial⟩
    · exact trivial
    · refine ⟨rfl, ?_⟩
      intro n hn
      simp [Defn.byteSize, fixedByteSize] at hn
      omega

/-- A value of `exPadded`. -/
def exPaddedValue (kind : Val) (fill : Bytes) : Val :=
  .struct "record" [("kind", kind), ("fill", .bytes fill),
    ("id", .uuid [0, 1, 2, 3, 4, 5, 6, 7, 8, 9, 10, 11, 12, 13, 14, 15])]

/-- The hypotheses of `C88_size_partial` are met by a structure of 20 bytes. -/
example : exPadded.Every Writable ∧ exPadded.byteSize = some 20 ∧
    Complete exPadded (exPaddedValue (.int 7) [0, 0, 0]) ∧
    ∃ m, createMap exEnv exPadded = .ok m ∧
      fold exEnv m (exPaddedValue (.int 7) [0, 0, 0]) [] =
        .ok (.bytes [7, 0, 0, 0, 0, 1, 2, 3, 4, 5, 6, 7, 8, 9, 10, 11, 12, 13, 14, 15]) := by
  refine ⟨?_, rfl, ?_, _, rfl, rfl⟩
  · exact exPadded_writable
  · refine ⟨?_, trivial, ⟨[0, 0, 0], rfl, rfl⟩, ?_, ⟨_, ?_, rfl⟩, trivial⟩
    · exact nofun
    · exact nofun
    · rfl

/-- **C88** The claim without a condition on the value is false: members that are None
are left out without an error. Of a value that CreateStructureValues makes of all members
but the padding, 17 bytes are written though GetByteSize is 20. -/
theorem C88_absent_refuted : exPadded.Every Writable ∧ exPadded.byteSize = some 20 ∧
    ∃ m v b, createMap exEnv exPadded = .ok m ∧
      createValues m [] [("kind", .int 7), ("id", .uuid (List.replicate 16 1))] = .ok v ∧
      fold exEnv m v [] = .ok (.bytes b) ∧ b.length = 17 :=
  ⟨exPadded_writable, rfl, _, _, _, rfl, rfl, rfl, rfl⟩

/-- A structure of a byte and a union of two bytes. -/
def exWithUnion : Defn :=
  .struct { name := "record", order := .little }
    [.member { name := "kind" } exU8 none (some "uint8") none,
      .union { name := "either" } [.member { name := "word" } exU16 none (some "uint16") none]]

/-- **C88** Unions are left out, too, whatever the value: one byte is written of a
structure of three bytes. -/
theorem C88_union_refuted : exWithUnion.byteSize = some 3 ∧
    ∃ m, createMap exEnv exWithUnion = .ok m ∧ ∀ x,
      fold exEnv m (.struct "record" [("kind", .int 7), ("either", x)]) [] = .ok (.bytes [7]) :=
  ⟨rfl, _, rfl, fun _ => rfl⟩

/-- **C88** Padding is written as it is: of one byte too few, 19 bytes are written. -/
theorem C88_padding_refuted : exPadded.byteSize = some 20 ∧
    ∃ m b, createMap exEnv exPadded = .ok m ∧
      fold exEnv m (exPaddedValue (.int 7) [0, 0]) [] = .ok (.bytes b) ∧ b.length = 19 :=
  ⟨rfl, _, _, rfl, rfl, rfl⟩

end Dtf
