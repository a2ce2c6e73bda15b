import Verif.Text
import Verif.Props.FoldStreams
/-!
# Property C61: terminated strings

`Uses E enc K` says that the encoding called `enc` is ASCII, UTF-8, UTF-16-LE or
UTF-16-BE (`K`), with the codec of CPython as defined in Text.lean.
-/
namespace Dtf
open Spec

theorem lossless_uses {E : Env} {enc : String} {K : Encoding} (h : Uses E enc K) : Lossless E enc := by
  intro b cs hd
  rw [h.decode] at hd
  rw [h.encode]
  exact K.encode_decode hd

/-- **C61** Text without U+0000 that the encoding can represent folds to a string that ends
at a zero code unit, and mapping the folded bytes gives the text back and takes all of
them, wherever they are put. -/
theorem C61_fold_map (E : Env) (nm : String) (o : Order) (h : Hdr) (info : SeqInfo) (enc : String)
    (K : Encoding) (hK : Uses E enc K) (ht : OnlyTerminator info K.nul) (e : Defn)
    (hes : e.byteSize = some (K.unit : Int)) (m : DMap)
    (hm : createAs E nm o (.seq h { info with kind := .string enc } e) = .ok m) (c : Ctx) (hc : c.Clean)
    (cs : List Nat) (hcs : ∀ x ∈ cs, K.Has x ∧ x ≠ 0) (pre post : Bytes) (depth : Nat) :
    ∃ b, fold E m (.str cs) c.values = .ok (.bytes b) ∧
      (mapStream E m (pre ++ b ++ post) pre.length depth c).1 = .ok (.str cs) ∧
      (mapStream E m (pre ++ b ++ post) pre.length depth c).2.byteSize = some b.length := by
  obtain ⟨b, hb⟩ := (K.encode_has cs).mpr (fun x hx => (hcs x hx).1)
  have hno : NoTerminatorIn K.nul b := K.encode_units hb (fun x hx => (hcs x hx).2)
  obtain ⟨h1, h2, h3⟩ := C58_string_back E nm o h info enc K.nul ht e (by rw [K.nul_length]; exact hes) m hm c hc
    cs b (by rw [hK.encode]; exact hb) (by rw [hK.decode]; exact K.decode_encode hb) hno pre post depth
  exact ⟨_, h1, h2, by rw [h3, List.length_append]⟩

/-- The part of a byte string before the first terminator. -/
theorem before_terminator {bs t : Bytes} {off k : Nat} (ht : t ≠ []) (h : FirstTerminator bs off t k) :
    NoTerminatorIn t (window bs off (k * t.length)) ∧
      window bs off ((k + 1) * t.length) = window bs off (k * t.length) ++ t := by
  have hpos : 0 < t.length := List.length_pos_iff.mpr ht
  obtain ⟨h1, h2⟩ := h
  have hfull := window_full ht h1
  have hlen : (window bs off (k * t.length)).length = k * t.length := window_length (by omega)
  refine ⟨⟨⟨k, by rw [hlen, Nat.mul_comm]⟩, ?_⟩, ?_⟩
  · intro j hj
    have hj' := window_full ht hj
    rw [hlen] at hj'
    have hjk : j < k := by
      apply Classical.byContradiction
      intro hn
      have := Nat.mul_le_mul_right t.length (Nat.le_of_not_lt hn)
      omega
    refine h2 j hjk ?_
    unfold TerminatorAt window at hj ⊢
    rw [Nat.zero_add, List.drop_take, List.take_take, List.drop_drop] at hj
    rwa [Nat.min_eq_left (by omega)] at hj
  · unfold TerminatorAt window at h1
    unfold window
    rw [Nat.add_mul, Nat.one_mul, List.take_add, List.drop_drop, h1]

/-- **C61** What such a string gives is text without U+0000 that the encoding can
represent, and folding it gives back exactly the bytes that were taken. -/
theorem C61_map_text (E : Env) (nm : String) (o : Order) (h : Hdr) (info : SeqInfo) (enc : String)
    (K : Encoding) (hK : Uses E enc K) (ht : OnlyTerminator info K.nul) (e : Defn)
    (hes : e.byteSize = some (K.unit : Int)) (m : DMap)
    (hm : createAs E nm o (.seq h { info with kind := .string enc } e) = .ok m) (c : Ctx) (hc : c.Clean)
    (bs : Bytes) (off depth : Nat) (v : Val) (hv : (mapStream E m bs off depth c).1 = .ok v) :
    ∃ cs n, v = .str cs ∧ (∀ x ∈ cs, K.Has x ∧ x ≠ 0) ∧
      (mapStream E m bs off depth c).2.byteSize = some n ∧
      fold E m v c.values = .ok (.bytes (window bs off n)) := by
  obtain ⟨ms, hms⟩ := stream_of_string hm
  have ht' : OnlyTerminator { info with kind := .stream } K.nul := ht
  obtain ⟨h1, h2, h3, h4, h5, h6⟩ := ht'
  have hes' : e.byteSize = some (K.nul.length : Int) := by rw [K.nul_length]; exact hes
  obtain ⟨a1, a2, a3⟩ := C21_terminated_stream E nm o h { info with kind := .stream } rfl ⟨h1, h2⟩ ⟨h3, h4⟩ K.nul h6
    h5 e hes' ms hms bs off depth c hc
  obtain ⟨b1, b2⟩ := C22_string E nm o h info enc e ms m (.inr ⟨K.nul, h6, h5⟩) hms hm bs off depth c hc
  rcases a3 with ⟨k, hk⟩ | hno
  · obtain ⟨g1, g2⟩ := a1 k hk
    obtain ⟨b, r, hbe, -, hcut, hok, hbad⟩ := b2 _ _ g1 g2
    cases hbe
    obtain ⟨n1, n2⟩ := before_terminator h6 hk
    have hr := hcut K.nul h5
    rw [n2] at hr
    have hr := cutAt_end h6 n1 hr
    cases hd : E.decode enc r with
    | none => rw [hbad hd] at hv; cases hv
    | some cs =>
      obtain ⟨o1, o2⟩ := hok cs hd
      rw [hv] at o1
      cases o1
      have he := lossless_uses hK _ _ hd
      refine ⟨cs, _, rfl, ?_, o2, ?_⟩
      · rw [hK.encode] at he
        intro x hx
        refine ⟨(K.encode_has cs).mp ⟨_, he⟩ x hx, ?_⟩
        rw [← hr] at n1
        exact K.units_encode he n1.2 x hx
      · rw [n2, ← hr]
        rw [← hr] at n1
        exact (C58_string_back E nm o h info enc K.nul ht e hes' m hm c hc cs r he hd n1 [] [] depth).1
  · have := b1 _ (a2.mpr hno)
    rw [hv] at this
    cases this

/-- **C61** Folding text with a code point the encoding cannot represent raises
FoldingError, for strings of any kind. -/
theorem C61_unrepresentable (E : Env) (nm : String) (o : Order) (h : Hdr) (info : SeqInfo) (enc : String)
    (K : Encoding) (hK : Uses E enc K) (e : Defn) (m : DMap)
    (hm : createAs E nm o (.seq h { info with kind := .string enc } e) = .ok m) (ns : Namespace)
    (cs : List Nat) (x : Nat) (hx : x ∈ cs) (hbad : ¬ K.Has x) :
    fold E m (.str cs) ns = .error .folding := by
  obtain ⟨ms, hms⟩ := stream_of_string hm
  refine (C58_string E nm o h info enc e ms m hms hm ns).2.1 cs ?_
  rw [hK.encode]
  cases he : K.encode cs with
  | none => rfl
  | some b => exact absurd ((K.encode_has cs).mp ⟨b, he⟩ x hx) hbad

/-- **C61** Text folded to a string of a declared size without terminator maps back to the
same text, wherever it is put. -/
theorem C61_sized (E : Env) (nm : String) (o : Order) (h : Hdr) (info : SeqInfo) (enc : String)
    (K : Encoding) (hK : Uses E enc K) (ht : info.terminator = none) (e : Defn) (m : DMap)
    (hm : createAs E nm o (.seq h { info with kind := .string enc } e) = .ok m) (c : Ctx) (hc : c.Clean)
    (n : Int) (hn : Sized E info e.byteSize c.values n) (cs : List Nat) (r : Bytes)
    (hf : fold E m (.str cs) c.values = .ok (.bytes r)) (pre post : Bytes) (depth : Nat) :
    (mapStream E m (pre ++ r ++ post) pre.length depth c).1 = .ok (.str cs) ∧
    (mapStream E m (pre ++ r ++ post) pre.length depth c).2.byteSize = some r.length := by
  obtain ⟨ms, hms⟩ := stream_of_string hm
  cases he : E.encode enc cs with
  | none =>
    rw [(C58_string E nm o h info enc e ms m hms hm c.values).2.1 cs he] at hf
    cases hf
  | some b =>
    refine C58_sized_string_back E nm o h info enc ht e m hm c hc n hn cs b he ?_ r hf pre post depth
    rw [hK.encode] at he
    rw [hK.decode]
    exact K.decode_encode he

/-! ### Examples -/

/-- An environment with the four codecs. -/
def exEnvT : Env :=
  { exEnv with
    encode := fun enc cs =>
      if enc = "ascii" then Encoding.ascii.encode cs
      else if enc = "utf-8" then Encoding.utf8.encode cs
      else if enc = "utf-16-le" then (Encoding.utf16 true).encode cs
      else if enc = "utf-16-be" then (Encoding.utf16 false).encode cs
      else none
    decode := fun enc b =>
      if enc = "ascii" then Encoding.ascii.decode b
      else if enc = "utf-8" then Encoding.utf8.decode b
      else if enc = "utf-16-le" then (Encoding.utf16 true).decode b
      else if enc = "utf-16-be" then (Encoding.utf16 false).decode b
      else none }

example : Uses exEnvT "utf-16-le" (.utf16 true) ∧ Uses exEnvT "utf-8" .utf8 ∧ Uses exEnvT "ascii" .ascii ∧
    Uses exEnvT "utf-16-be" (.utf16 false) := ⟨⟨rfl, rfl⟩, ⟨rfl, rfl⟩, ⟨rfl, rfl⟩, ⟨rfl, rfl⟩⟩

/-- A string of 16-bit code units that ends at a zero one. -/
def exWideText : Defn :=
  .seq { name := "text" }
    { kind := .string "utf-16-le", elementDataType := some "uint16", terminator := some (.bytes [0, 0]) } exU16

/-- `A€😀` with a zero byte inside a code unit and a surrogate pair. -/
example : ∃ m, createMap exEnvT exWideText = .ok m ∧
    OnlyTerminator { kind := .string "utf-16-le", elementDataType := some "uint16", terminator := some (.bytes [0, 0]) }
      (Encoding.utf16 true).nul ∧ exU16.byteSize = some 2 ∧
    fold exEnvT m (.str [0x41, 0x20AC, 0x1F600]) [] =
      .ok (.bytes [0x41, 0, 0xAC, 0x20, 0x3D, 0xD8, 0, 0xDE, 0, 0]) ∧
    (mapStream exEnvT m [9, 0x41, 0, 0xAC, 0x20, 0x3D, 0xD8, 0, 0xDE, 0, 0, 7] 1 0 {}).1 =
      .ok (.str [0x41, 0x20AC, 0x1F600]) ∧
    (mapStream exEnvT m [0, 0xD8, 0, 0] 0 0 {}).1 = .error .mapping ∧
    ¬ (Encoding.utf16 true).Has 0xD800 ∧ fold exEnvT m (.str [0x41, 0xD800]) [] = .error .folding :=
  ⟨_, rfl, ⟨rfl, rfl, rfl, rfl, rfl, by decide⟩, rfl, rfl, rfl, rfl, by unfold Encoding.Has; decide, rfl⟩

/-- The encodings of some code points; an overlong form and a surrogate are refused. -/
example : Encoding.utf8.encode [0x41, 0xE9, 0x20AC, 0x1F600] =
      some [0x41, 0xC3, 0xA9, 0xE2, 0x82, 0xAC, 0xF0, 0x9F, 0x98, 0x80] ∧
    Encoding.utf8.decode [0x41, 0xC3, 0xA9, 0xE2, 0x82, 0xAC, 0xF0, 0x9F, 0x98, 0x80] =
      some [0x41, 0xE9, 0x20AC, 0x1F600] ∧
    Encoding.utf8.decode [0xC0, 0x80] = none ∧ Encoding.utf8.decode [0xED, 0xA0, 0x80] = none ∧
    Encoding.utf8.encode [0xD800] = none ∧ Encoding.ascii.encode [0x80] = none := by decide

end Dtf
