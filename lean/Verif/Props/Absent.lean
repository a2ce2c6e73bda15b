import Verif.Props.Loosen
import Verif.Props.Extract
import Verif.Props.Sequences
import Verif.Props.Groups

/-!
# Property C108: None means absent

A member of a mapped object is `None` exactly if it has a condition that does not hold.
-/

namespace Dtf
open Spec

namespace Spec

/-- A type that, read in byte order `o`, is never `None`: all but UUIDs without a byte order, and the
structure groups that have one for default. -/
inductive Definite : Order → Defn → Prop
  | uuid {o : Order} {h : Hdr} {s : Size} {u : String} (ho : o ≠ .native) : Definite o (.uuid h s u)
  | group {o : Order} {h : Hdr} {base : Defn} {ident : String} {dflt : Option Defn} {ms : List Defn}
      (hd : ∀ d, dflt = some d → Definite d.orderOrNative d) : Definite o (.group h base ident dflt ms)
  | other {o : Order} {d : Defn} (hu : ∀ h s u, d ≠ .uuid h s u) (hg : ∀ h b i x ms, d ≠ .group h b i x ms) :
      Definite o d

/-- The byte order the type of a member is read in: its own, or that of the structure. -/
def memberOrder (so : Order) (d : Defn) : Order :=
  match d.target.order? with
  | some .little => .little
  | some .big => .big
  | _ => so

end Spec

theorem groupValues_struct {ident : String} {g : Defn} {vs : List Lit} (h : groupValues ident g = .ok vs) :
    (∃ hd ms, g = .struct hd ms) ∨ ∃ hd ms, g = .union hd ms := by
  cases g with
  | struct hd ms => exact .inl ⟨hd, ms, rfl⟩
  | union hd ms => exact .inr ⟨hd, ms, rfl⟩
  | _ => cases h

/-- The maps of the members of a group are maps of structures. -/
theorem createGroup_noNone (E : Env) (ident : String) (gs : List Defn) (keys ks : List Lit) (maps : List DMap)
    (h : createGroup E ident keys gs = .ok (ks, maps)) : ∀ m ∈ maps, NoNone m := by
  induction gs generalizing keys ks maps with
  | nil =>
    rw [createGroup] at h
    cases h
    simp
  | cons g gs ih =>
    rw [createGroup] at h
    cases hg : groupValues ident g with
    | error x => rw [hg] at h; cases h
    | ok vs =>
      rw [hg] at h
      cases vs with
      | nil => exact ih _ _ _ h
      | cons v vs =>
        dsimp only at h
        split at h
        · cases h
        split at h
        · cases h
        rename_i m hm
        split at h
        · cases h
        split at h
        · cases h
        rename_i ks' maps' hr
        cases h
        intro x hx
        rw [List.mem_append, List.mem_replicate] at hx
        rcases hx with ⟨-, rfl⟩ | hx
        · rcases groupValues_struct hg with ⟨hd, ms, rfl⟩ | ⟨hd, ms, rfl⟩
          · exact noNone_created (d := .struct hd ms) trivial hm
          · exact noNone_created (d := .union hd ms) trivial hm
        · exact ih _ _ _ hr x hx

theorem definite_parse {E : Env} {nm : String} {o : Order} {d : Defn} (hd : Definite o d) {m : DMap}
    (hm : createAs E nm o d = .ok m) {bs : Bytes} {off depth : Nat} {ns : Namespace} {v : Val} {n : Nat}
    (h : parse E m bs off depth ns = .ok (v, n)) : v ≠ .pyNone := by
  induction hd generalizing nm m v n ns with
  | @uuid o hd s u ho =>
    rw [createAs] at hm
    cases hm
    simp only [parse, uuidParse] at h
    split at h
    · cases h
    · split at h
      · cases h
      · cases o with
        | native => exact absurd rfl ho
        | big =>
          dsimp only at h
          split at h
          · cases h; exact fun h => nomatch h
          · cases h
        | little =>
          dsimp only at h
          split at h
          · cases h; exact fun h => nomatch h
          · cases h
  | @group o hd base ident dflt ms hdf ih =>
    obtain ⟨dm, bm, keys, maps, hdm, hbm, -, hg, rfl⟩ := createAs_group hm
    simp only [parse] at h
    split at h
    · cases h
    split at h
    · cases h
    split at h
    · split at h
      · cases h
      rw [parseNth_eq] at h
      split at h
      · cases h
      · rename_i r hr
        cases h
        split at hr
        · cases hr
        · rename_i x hx
          exact parse_present (createGroup_noNone E ident ms _ _ _ hg _ (List.mem_of_getElem? hx)) hr
    · split at h
      · cases h
      split at h
      · cases h
      · rename_i r hr
        cases h
        cases dflt with
        | none =>
          rw [createOpt] at hdm
          cases hdm
          rw [parseOpt] at hr
          cases hr
        | some d =>
          rw [createOpt] at hdm
          split at hdm
          · cases hdm
          · rename_i x hx
            cases hdm
            rw [parseOpt] at hr
            exact ih d rfl hx hr
  | @other o d hu hg =>
    refine parse_present (noNone_created ?_ hm) h
    cases d with
    | uuid => exact absurd rfl (hu _ _ _)
    | group => exact absurd rfl (hg _ _ _ _ _)
    | _ => trivial

/-- **C108** No byte stream is mapped to `None`. -/
theorem C108_value_partial (E : Env) (nm : String) (o : Order) (d : Defn) (hd : Definite o d) (m : DMap)
    (hm : createAs E nm o d = .ok m) (bs : Bytes) (off depth : Nat) {c : Ctx} (hc : c.Clean) :
    (mapStream E m bs off depth c).1 ≠ .ok .pyNone := by
  intro hv
  obtain ⟨n, hp, -⟩ := mapStream_ok hc hv
  exact definite_parse hd hm hp rfl

/-- **C108** No element of a sequence is `None`. -/
theorem C108_element_partial (E : Env) (nm : String) (o : Order) (h : Hdr) (info : SeqInfo)
    (hk : info.kind = .sequence) (e : Defn) (he : Definite (elementOrder o e) e) (m : DMap)
    (hm : createAs E nm o (.seq h info e) = .ok m) (bs : Bytes) (off depth : Nat) {c : Ctx} (hc : c.Clean)
    (vs : List Val) (hv : (mapStream E m bs off depth c).1 = .ok (.tuple vs)) : .pyNone ∉ vs := by
  obtain ⟨en, em, vs', p, n, -, hem, heq, -, hel, -, -⟩ := C17_elements E nm o h info hk e m hm bs off depth c hc _ hv
  cases heq
  clear hv
  induction hel with
  | nil => simp
  | cons hv _ _ ih =>
    rw [List.mem_cons, not_or]
    exact ⟨fun h => C108_value_partial E en _ e he em hem bs _ _ (Ctx.clean_fresh []) (h ▸ hv), ih⟩

theorem memberOrder_eq {sname : String} {so : Order} {d : Defn} {n : String} {o : Order}
    (h : memberNameOrder sname so d.target = .ok (n, o)) : o = memberOrder so d := by
  unfold memberNameOrder at h
  unfold memberOrder
  split at h
  · rename_i hso
    cases h
    subst hso
    unfold Defn.orderOrNative
    cases d.target.order? with
    | none => rfl
    | some x => cases x <;> rfl
  · split at h
    · cases h
    · rename_i hx; rw [hx]; cases h; rfl
    · rename_i x hno hx
      rw [hx]
      cases h
      cases o with
      | native => exact (hno rfl).elim
      | _ => rfl

theorem getAttr_fill_map {cls : String} {pre : List String} {us : List Val} (hl : us.length = pre.length)
    {post : List String} {rest : List Val} (hnd : (pre ++ post).Nodup) :
    pre.map (getAttr (.struct cls (fill (pre ++ post) (us ++ rest)))) = us := by
  apply List.ext_getElem?
  intro i
  rw [List.getElem?_map]
  by_cases hi : i < pre.length
  · obtain ⟨x, hx⟩ : ∃ x, us[i]? = some x := ⟨us[i]'(by omega), by simp [hl, hi]⟩
    rw [hx, List.getElem?_eq_getElem hi, Option.map_some]
    congr 1
    have hs : us = us.take i ++ x :: us.drop (i + 1) := by
      have : us[i]'(by omega) = x := by simpa [hl, hi] using hx
      rw [← this, ← List.drop_eq_getElem_cons, List.take_append_drop]
    have hp : pre = pre.take i ++ pre[i] :: pre.drop (i + 1) := by
      rw [← List.drop_eq_getElem_cons, List.take_append_drop]
    have := fill_get (pre.take i) pre[i] (pre.drop (i + 1) ++ post) (us.take i) x (us.drop (i + 1) ++ rest)
      (by simp [hl]) (by
        rw [← List.cons_append, ← List.append_assoc, ← hp]; exact hnd)
    rw [← List.cons_append, ← List.append_assoc, ← hp, ← List.cons_append, ← List.append_assoc, ← hs] at this
    rw [getAttr, this, Option.getD_some]
  · rw [List.getElem?_eq_none (by omega), List.getElem?_eq_none (by omega), Option.map_none]

/-- **C108** A member of a mapped object is `None` exactly if it has a condition that is false for the
object with the members before it (the others being `None`). -/
theorem C108_member_partial (E : Env) (nm : String) (o : Order) (h : Hdr) (pre : List Defn) (d : Defn) (post : List Defn)
    (hdt : DistinctTypes (pre ++ d :: post)) (ho : OneOrder E o (pre ++ d :: post))
    (hd : Definite (memberOrder o d) d.target) (m : DMap)
    (hm : createAs E nm o (.struct h (pre ++ d :: post)) = .ok m) (bs : Bytes) (off depth : Nat) {c : Ctx} (hc : c.Clean)
    (v : Val) (hv : (mapStream E m bs off depth c).1 = .ok v) :
    getAttr v d.name = .pyNone ↔ ∃ cond, d.memInfo.condition = some cond ∧ cond ≠ "" ∧
      E.evalExpr cond (withBuiltins (scope nm ((pre ++ d :: post).map Defn.name)
        (pre.map fun x => getAttr v x.name) c.values)) = some (.bool false) := by
  obtain ⟨vs, n, hl, -, rfl, -⟩ := C16_layout E nm o h _ hdt ho m hm bs off depth c hc v hv
  obtain ⟨io, infos, maps, l, hcls, -, -, -, -⟩ := createAs_struct hm
  have hnd := (createClass_nodup hcls).1
  obtain ⟨us, q, h1, h2⟩ := layout_append.1 hl
  have hus : us.length = pre.length := by simpa using (layout_length h1).1
  have key : ∀ x, (∃ q' e', Layout E bs depth c.values nm o ((pre ++ d :: post).map Defn.name) (us ++ [x]) post q' vs e') →
      getAttr (.struct nm (fill ((pre ++ d :: post).map Defn.name) vs)) d.name = x ∧
      pre.map (fun y => getAttr (.struct nm (fill ((pre ++ d :: post).map Defn.name) vs)) y.name) = us := by
    intro x ⟨q', e', h3⟩
    obtain ⟨h4, h5, -⟩ := layout_length h3
    obtain ⟨rest, rfl⟩ : ∃ rest, vs = (us ++ [x]) ++ rest := ⟨vs.drop (us ++ [x]).length, by
      conv => lhs; rw [← List.take_append_drop (us ++ [x]).length vs, h5]⟩
    simp only [List.map_append, List.map_cons, List.append_assoc, List.singleton_append] at hnd ⊢
    refine ⟨?_, ?_⟩
    · rw [getAttr, fill_get _ _ _ _ _ _ (by simp [hus]) hnd, Option.getD_some]
    · have := getAttr_fill_map (cls := nm) (pre := pre.map Defn.name) (us := us) (by simp [hus]) (rest := x :: rest) hnd
      rw [List.map_map] at this
      exact this
  cases h2 with
  | absent hcd h3 =>
    obtain ⟨k1, k2⟩ := key _ ⟨_, _, h3⟩
    rw [k1, k2]
    refine iff_of_true rfl ?_
    cases hcd with
    | cond hc hn he => exact ⟨_, hc, hn, he⟩
  | @present _ _ _ _ _ _ k mt x hcd hmo hvm hk hs h3 =>
    obtain ⟨k1, k2⟩ := key _ ⟨_, _, h3⟩
    rw [k1, k2]
    refine iff_of_false ?_ ?_
    · obtain ⟨n1, o1, hno, hcr⟩ := hmo
      obtain rfl := memberOrder_eq hno
      intro hx
      subst hx
      exact C108_value_partial E n1 _ _ hd mt hcr bs _ _ (c := { values := _ }) (by rfl) hvm
    · rintro ⟨cond, hc', hn, he⟩
      cases hcd with
      | always hor => rcases hor with hor | hor <;> rw [hor] at hc' <;> cases hc'; exact hn rfl
      | cond hc hn' he' =>
        rw [hc] at hc'
        cases hc'
        rw [he] at he'
        cases he'

/-- A UUID that has no byte order, in a structure that has none either, is mapped to `None`. -/
theorem C108_refuted : ∃ m, createMap exEnv (.struct { name := "T" }
      [.member { name := "id" } (.uuid { name := "uuid" } (.bytes 16) "bytes") none (some "uuid") none]) = .ok m ∧
    (mapStream exEnv m (List.replicate 16 7) 0 0 {}).1 = .ok (.struct "T" [("id", .pyNone)]) ∧
    (mapStream exEnv m (List.replicate 16 7) 0 0 {}).2.byteSize = some 16 :=
  ⟨_, rfl, rfl, rfl⟩

/-! ### Examples -/

/-- `exPre` and `exPost`: `struct { uint8 a; uint16 d if T.a == 1; }` -/
example : DistinctTypes (exPre ++ exPost) ∧ OneOrder exEnvE .little (exPre ++ exPost) ∧
    ∀ d ∈ exPre ++ exPost, Definite (memberOrder .little d) d.target := by
  refine ⟨?_, ?_, ?_⟩
  · simp [DistinctTypes, exPre, exPost, exU8, exU16, Defn.target, Defn.name, Defn.hdr]
  · intro hh
    have := hh (.member { name := "d" } exU16 (some "T.a == 1") (some "uint16") none) (by simp [exPost])
    simp [Defn.isComposite, truthyStr] at this
  · intro d hd
    refine .other ?_ ?_ <;> intros <;> intro he <;> simp [exPre, exPost] at hd <;> rcases hd with rfl | rfl <;> cases he

example : ∃ m, createMap exEnvE (.struct { name := "T", order := .little } (exPre ++ exPost)) = .ok m ∧
    (mapStream exEnvE m [1, 6, 0] 0 0 {}).1 = .ok (.struct "T" [("a", .int 1), ("d", .int 6)]) ∧
    (mapStream exEnvE m [3, 6, 0] 0 0 {}).1 = .ok (.struct "T" [("a", .int 3), ("d", .pyNone)]) :=
  ⟨_, rfl, rfl, rfl⟩

/-- UUIDs in the byte order of the structure; a group of structures. -/
example : Definite (memberOrder .big (.member { name := "id" } (.uuid { name := "uuid" } (.bytes 16) "bytes") none none none))
    (.uuid { name := "uuid" } (.bytes 16) "bytes") :=
  .uuid (by decide)

example : Definite .native (exGroup (some exDef) [exOne, exTwo]) := by
  refine .group fun d hd => ?_
  cases hd
  exact .other (by intros; simp [exDef]) (by intros; simp [exDef])

end Dtf
