import Verif.ParseFacts
import Verif.Spec
import Verif.SpecLemmas
/-!
The layout of structures: what a successful mapping of a structure means for its
members, for the composite and the linear path.
-/
namespace Dtf

namespace Spec

/-- The attributes of a structure object some of whose members have been read: the
members that follow are `None`. -/
def fill : List String → List Val → List (String × Val)
  | [], _ => []
  | n :: ns, [] => (n, .pyNone) :: fill ns []
  | n :: ns, v :: vs => (n, v) :: fill ns vs

/-- The names expressions in a structure can use: the structure object read so far
under the name of the structure, replaced by the values of the context. -/
def scope (cls : String) (names : List String) (read : List Val) (outer : Namespace) : Namespace :=
  nsUpdate [(cls, .struct cls (fill names read))] outer

/-- Whether a member is present, given the names its condition can use. -/
inductive Present (E : Env) (ns : Namespace) (d : Defn) : Bool → Prop
  | always (h : d.memInfo.condition = none ∨ d.memInfo.condition = some "") : Present E ns d true
  | cond {c : String} {b : Bool} (h : d.memInfo.condition = some c) (hc : c ≠ "")
      (he : E.evalExpr c (withBuiltins ns) = some (.bool b)) : Present E ns d b

/-- The value of a member is one of its supported values, if it declares any. -/
def Supported (d : Defn) (v : Val) : Prop :=
  ∀ vs, d.memInfo.values = some vs → vs ≠ [] → ∃ x ∈ vs, pyEq v x = true

/-- `Layout … read ms p vs e`: after the values `read`, the members `ms` laid out
from position `p` on complete the values to `vs` and end at position `e`. -/
inductive Layout (E : Env) (bs : Bytes) (depth : Nat) (outer : Namespace) (cls : String) (so : Order)
    (names : List String) : List Val → List Defn → Nat → List Val → Nat → Prop
  | done (read : List Val) (p : Nat) : Layout E bs depth outer cls so names read [] p read p
  | absent {read vs : List Val} {d : Defn} {ms : List Defn} {p e : Nat}
      (hc : Present E (scope cls names read outer) d false)
      (h : Layout E bs depth outer cls so names (read ++ [.pyNone]) ms p vs e) :
      Layout E bs depth outer cls so names read (d :: ms) p vs e
  | present {read vs : List Val} {d : Defn} {ms : List Defn} {p e k : Nat} {m : DMap} {v : Val}
      (hc : Present E (scope cls names read outer) d true)
      (hm : MapOf E cls so d m)
      (hv : (mapStream E m bs p (depth + 1) { values := scope cls names read outer }).1 = .ok v)
      (hk : (mapStream E m bs p (depth + 1) { values := scope cls names read outer }).2.byteSize = some k)
      (hs : Supported d v)
      (h : Layout E bs depth outer cls so names (read ++ [v]) ms (p + k) vs e) :
      Layout E bs depth outer cls so names read (d :: ms) p vs e

/-- Every member that declares a byte order declares that of the structure. -/
def OrdersAgree (E : Env) (so : Order) (ms : List Defn) : Prop :=
  ∀ d ∈ ms, ∀ o, d.target.order? = some o → o ≠ .native → (LeastFirst E o ↔ LeastFirst E so)

end Spec
open Spec

/-! ### Attributes -/

theorem fill_nil (names : List String) : fill names [] = newInstance names := by
  induction names with
  | nil => rfl
  | cons n ns ih => simp [fill, newInstance, ih]

theorem fill_keys (names : List String) (vs : List Val) : (fill names vs).map (·.1) = names := by
  induction names generalizing vs with
  | nil => simp [fill]
  | cons n ns ih => cases vs <;> simp [fill, ih]

theorem nsSet_cons_ne {n k : String} (v x : Val) (l : Namespace) (h : n ≠ k) :
    nsSet ((n, v) :: l) k x = (n, v) :: nsSet l k x := by
  have hb : (n == k) = false := by simpa using h
  unfold nsSet
  simp only [List.any_cons, hb, Bool.false_or, List.map_cons]
  split <;> simp

theorem nsSet_head {n : String} (v x : Val) (l : Namespace) (h : n ∉ l.map (·.1)) :
    nsSet ((n, v) :: l) n x = (n, x) :: l := by
  unfold nsSet
  rw [if_pos (by simp)]
  simp only [List.map_cons, beq_self_eq_true, if_true]
  congr 1
  conv => rhs; rw [← List.map_id l]
  apply List.map_congr_left
  intro p hp
  have : p.1 ≠ n := fun he => h (by rw [List.mem_map]; exact ⟨p, hp, he⟩)
  simp [this]

theorem fill_set (pre : List String) (n : String) (post : List String) (read : List Val)
    (hl : read.length = pre.length) (hn : (pre ++ n :: post).Nodup) (v : Val) :
    setAttr (fill (pre ++ n :: post) read) n v = fill (pre ++ n :: post) (read ++ [v]) := by
  unfold setAttr
  induction pre generalizing read with
  | nil =>
    cases read with
    | cons => simp at hl
    | nil =>
      simp only [List.nil_append, fill]
      apply nsSet_head
      rw [fill_keys]
      simp only [List.nil_append, List.nodup_cons] at hn
      exact hn.1
  | cons a pre ih =>
    cases read with
    | nil => simp at hl
    | cons r read =>
      simp only [List.cons_append, fill, List.nodup_cons, List.length_cons, Nat.add_right_cancel_iff] at *
      rw [nsSet_cons_ne]
      · rw [ih read hl hn.2]
      · rintro rfl
        exact hn.1 (by simp)

theorem fill_none (names : List String) (read : List Val) (h : read.length < names.length) :
    fill names (read ++ [.pyNone]) = fill names read := by
  induction names generalizing read with
  | nil => simp at h
  | cons n ns ih =>
    cases read with
    | nil => simp [fill]
    | cons r read => simp [fill]; exact ih read (by simpa using h)

theorem newInstanceArgs_fill (names : List String) (xs : List Val) (h : xs.length ≤ names.length) :
    newInstanceArgs names xs = some (fill names xs) := by
  induction names generalizing xs with
  | nil => cases xs <;> simp_all [newInstanceArgs, fill, newInstance]
  | cons n ns ih =>
    cases xs with
    | nil => simp [newInstanceArgs, fill, fill_nil]; rfl
    | cons x xs => simp [newInstanceArgs, fill, ih xs (by simpa using h)]

theorem attrNamesOk_nodup (E : Env) (seen names : List String) (h : attrNamesOk E seen names = true) :
    names.Nodup ∧ ∀ n ∈ names, n ∉ seen := by
  induction names generalizing seen with
  | nil => simp
  | cons n ns ih =>
    simp only [attrNamesOk, attrNameOk, Bool.and_eq_true, Bool.not_eq_true', List.contains_eq_mem,
      decide_eq_false_iff_not] at h
    obtain ⟨h1, h2⟩ := ih _ h.2
    refine ⟨List.nodup_cons.mpr ⟨fun hm => h2 n hm List.mem_cons_self, h1⟩, ?_⟩
    intro x hx
    rw [List.mem_cons] at hx
    rcases hx with rfl | hx
    · exact h.1.2
    · exact fun hs => h2 x hx (List.mem_cons_of_mem _ hs)

/-- A structure map can be created only if the member names differ. -/
theorem createClass_nodup {E : Env} {nm : String} {ds : Option String} {ms : List Defn} {b : Bool}
    (h : createClass E nm ds ms = .ok b) : (ms.map Defn.name).Nodup ∧ ms ≠ [] := by
  unfold createClass at h
  simp only at h
  split at h
  · cases h
  rename_i hv
  unfold validateClass at hv
  split at hv
  · cases hv
  split at hv
  · cases hv
  split at hv
  · cases hv
  rename_i hne
  split at hv
  · cases hv
  rename_i hok
  simp only [Bool.not_eq_true', Bool.not_eq_false] at hok
  refine ⟨(attrNamesOk_nodup E [] _ hok).1, ?_⟩
  rintro rfl
  simp at hne

theorem memInfo_name (d : Defn) : d.memInfo.name = d.name := by
  cases d <;> rfl

/-! ### The composite path -/

theorem evalCondition_iff {E : Env} {d : Defn} {ns : Namespace} {b : Bool} :
    evalCondition E d.memInfo ns = .ok b ↔ Present E ns d b := by
  unfold evalCondition
  cases hc : d.memInfo.condition with
  | none =>
    simp only [truthyStr, Bool.false_eq_true, if_false, Except.ok.injEq]
    constructor
    · rintro rfl; exact .always (.inl hc)
    · intro h
      cases h with
      | always => rfl
      | cond h => rw [hc] at h; cases h
  | some c =>
    by_cases h0 : c = ""
    · subst h0
      simp only [truthyStr, bne_self_eq_false, Bool.false_eq_true, if_false, Except.ok.injEq]
      constructor
      · rintro rfl; exact .always (.inr hc)
      · intro h
        cases h with
        | always => rfl
        | cond h h1 => rw [hc] at h; cases h; exact absurd rfl h1
    · have : truthyStr (some c) = true := by simp [truthyStr, h0]
      simp only [this, if_true, Option.bind_some]
      constructor
      · intro h
        split at h
        · rename_i b' he
          cases h
          exact .cond hc h0 he
        · cases h
      · intro h
        cases h with
        | always h => rw [hc] at h; simp [h0] at h
        | cond h _ he => rw [hc] at h; cases h; rw [he]

theorem valueOk_iff {d : Defn} {v : Val} : valueOk d.memInfo v = true ↔ Supported d v := by
  unfold valueOk Supported
  split
  · rename_i h; rw [h]; simp
  · rename_i h; rw [h]; simp
  · rename_i vs hne h
    rw [h]
    simp only [Option.some.injEq]
    unfold pyIn
    rw [List.any_eq_true]
    constructor
    · rintro ⟨x, hx, he⟩ vs' rfl _; exact ⟨x, hx, he⟩
    · intro hh
      obtain ⟨x, hx, he⟩ := hh vs rfl (by rintro rfl; exact hne rfl)
      exact ⟨x, hx, he⟩

theorem layout_of_members (E : Env) (cls : String) (so : Order) (bs : Bytes) (depth : Nat)
    (outer : Namespace) (names : List String) (ms : List Defn) (maps : List DMap)
    (hmo : All2 (MapOf E cls so) ms maps) (pre : List String)
    (hn : names = pre ++ ms.map Defn.name) (hnd : names.Nodup) (read : List Val)
    (hl : read.length = pre.length) (p used u : Nat) (attrs : List (String × Val))
    (h : parseMembers E cls bs depth outer (ms.map Defn.memInfo) maps p used (fill names read) =
      .ok (attrs, u)) :
    ∃ vs e, Layout E bs depth outer cls so names read ms p vs e ∧ attrs = fill names vs ∧
      e + used = p + u ∧ vs.length = names.length := by
  induction hmo generalizing pre read p used with
  | nil =>
    simp [parseMembers] at h
    obtain ⟨rfl, rfl⟩ := h
    exact ⟨read, p, .done read p, rfl, rfl, by simp [hn, hl]⟩
  | @cons d m ms maps hm hmo ih =>
    have hn' : names = (pre ++ [d.name]) ++ ms.map Defn.name := by simp [hn]
    rw [List.map_cons, parseMembers] at h
    split at h
    · cases h
    · rename_i hc
      rw [← fill_none names read (by rw [hn]; simp [hl])] at h
      obtain ⟨vs, e, h1, h2, h3, h4⟩ := ih (pre ++ [d.name]) hn' (read ++ [.pyNone]) (by simp [hl]) _ _ h
      exact ⟨vs, e, .absent (evalCondition_iff.mp hc) h1, h2, h3, h4⟩
    · rename_i hc
      split at h
      · cases h
      · rename_i v k hp
        split at h
        · cases h
        · rename_i hv
          rw [memInfo_name, hn, List.map_cons, fill_set pre d.name _ read hl
            (by rw [hn, List.map_cons] at hnd; exact hnd) v, ← List.map_cons, ← hn] at h
          obtain ⟨vs, e, h1, h2, h3, h4⟩ := ih (pre ++ [d.name]) hn' (read ++ [v]) (by simp [hl]) _ _ h
          have hr := refines E m bs p (depth + 1) { values := structNs cls (fill names read) outer } rfl
          simp only at hr
          rw [hp] at hr
          exact ⟨vs, e, .present (evalCondition_iff.mp hc) hm hr.1 hr.2.1
            (valueOk_iff.mp (by simpa using hv)) h1, h2, by omega, h4⟩

theorem members_of_layout (E : Env) (cls : String) (so : Order) (bs : Bytes) (depth : Nat)
    (outer : Namespace) (names : List String) (ms : List Defn) (maps : List DMap)
    (hmo : All2 (MapOf E cls so) ms maps) (pre : List String)
    (hn : names = pre ++ ms.map Defn.name) (hnd : names.Nodup) (read : List Val)
    (hl : read.length = pre.length) (p used : Nat) (vs : List Val) (e : Nat)
    (h : Layout E bs depth outer cls so names read ms p vs e) :
    p ≤ e ∧ parseMembers E cls bs depth outer (ms.map Defn.memInfo) maps p used (fill names read) =
      .ok (fill names vs, used + (e - p)) := by
  induction hmo generalizing pre read p used with
  | nil =>
    cases h
    simp [parseMembers]
  | @cons d m ms maps hm hmo ih =>
    have hn' : names = (pre ++ [d.name]) ++ ms.map Defn.name := by simp [hn]
    rw [List.map_cons, parseMembers]
    cases h with
    | absent hc h =>
      have hc' : evalCondition E d.memInfo (structNs cls (fill names read) outer) = .ok false :=
        evalCondition_iff.mpr hc
      simp only [hc']
      obtain ⟨h1, h2⟩ := ih (pre ++ [d.name]) hn' (read ++ [.pyNone]) (by simp [hl]) p used h
      rw [fill_none names read (by rw [hn]; simp [hl])] at h2
      exact ⟨h1, h2⟩
    | @present _ _ _ _ _ _ k m' v hc hm' hv hk hs h =>
      have hc' : evalCondition E d.memInfo (structNs cls (fill names read) outer) = .ok true :=
        evalCondition_iff.mpr hc
      obtain ⟨n1, o1, e1, c1⟩ := hm
      obtain ⟨n2, o2, e2, c2⟩ := hm'
      rw [e1] at e2; cases e2
      rw [c1] at c2; cases c2
      simp only [hc']
      have hp : parse E m bs p (depth + 1) (structNs cls (fill names read) outer) = .ok (v, k) := by
        have hr := refines E m bs p (depth + 1) { values := structNs cls (fill names read) outer } rfl
        simp only at hr
        rcases hq : parse E m bs p (depth + 1) (structNs cls (fill names read) outer) with e | ⟨v', k'⟩
          <;> rw [hq] at hr
        · have hr : _ = _ := hr
          have hv : _ = _ := hv
          unfold scope at hv
          unfold structNs at hr
          rw [hv] at hr; cases hr
        · obtain ⟨r1, r2, -⟩ := hr
          unfold scope at hv hk
          unfold structNs at r1 r2
          rw [hv] at r1; cases r1
          rw [hk] at r2; cases r2
          rfl
      simp only [hp]
      rw [if_neg (by simp [valueOk_iff.mpr hs])]
      obtain ⟨h1, h2⟩ := ih (pre ++ [d.name]) hn' (read ++ [v]) (by simp [hl]) (p + k) (used + k) h
      refine ⟨by omega, ?_⟩
      have hset : setAttr (fill names read) d.memInfo.name v = fill names (read ++ [v]) := by
        rw [memInfo_name, hn, List.map_cons]
        exact fill_set pre d.name _ read hl (by rw [hn, List.map_cons] at hnd; exact hnd) v
      rw [hset, h2, show used + k + (e - (p + k)) = used + (e - p) by omega]

/-- The members read before a given one. -/
theorem parseMembers_prefix (E : Env) (cls : String) (so : Order) (bs : Bytes) (depth : Nat)
    (outer : Namespace) (names : List String) (pre post : List Defn) (maps : List DMap)
    (hmo : All2 (MapOf E cls so) (pre ++ post) maps) (npre : List String)
    (hn : names = npre ++ (pre ++ post).map Defn.name) (hnd : names.Nodup) (read : List Val)
    (hl : read.length = npre.length) (p used : Nat) (vs : List Val) (e : Nat)
    (h : Layout E bs depth outer cls so names read pre p vs e) :
    p ≤ e ∧ vs.length = read.length + pre.length ∧ ∃ maps', All2 (MapOf E cls so) post maps' ∧
      parseMembers E cls bs depth outer ((pre ++ post).map Defn.memInfo) maps p used (fill names read) =
      parseMembers E cls bs depth outer (post.map Defn.memInfo) maps' e (used + (e - p)) (fill names vs) := by
  induction pre generalizing maps npre read p used with
  | nil =>
    cases h
    exact ⟨Nat.le_refl _, rfl, maps, hmo, by simp⟩
  | cons d pre ih =>
    cases hmo with
    | @cons _ m _ maps hm hmo =>
    have hn' : names = (npre ++ [d.name]) ++ (pre ++ post).map Defn.name := by simp [hn]
    rw [List.cons_append, List.map_cons, parseMembers]
    cases h with
    | absent hc h =>
      have hc' : evalCondition E d.memInfo (structNs cls (fill names read) outer) = .ok false :=
        evalCondition_iff.mpr hc
      simp only [hc']
      obtain ⟨h1, h2, maps', h3, h4⟩ := ih maps hmo (npre ++ [d.name]) hn' (read ++ [.pyNone]) (by simp [hl]) p used h
      rw [fill_none names read (by rw [hn]; simp [hl])] at h4
      exact ⟨h1, by simp at h2 ⊢; omega, maps', h3, h4⟩
    | @present _ _ _ _ _ _ k m' v hc hm' hv hk hs h =>
      have hc' : evalCondition E d.memInfo (structNs cls (fill names read) outer) = .ok true :=
        evalCondition_iff.mpr hc
      obtain ⟨n1, o1, e1, c1⟩ := hm
      obtain ⟨n2, o2, e2, c2⟩ := hm'
      rw [e1] at e2; cases e2
      rw [c1] at c2; cases c2
      simp only [hc']
      have hp : parse E m bs p (depth + 1) (structNs cls (fill names read) outer) = .ok (v, k) := by
        have hr := refines E m bs p (depth + 1) { values := structNs cls (fill names read) outer } rfl
        simp only at hr
        rcases hq : parse E m bs p (depth + 1) (structNs cls (fill names read) outer) with e | ⟨v', k'⟩
          <;> rw [hq] at hr
        · have hr : _ = _ := hr
          unfold scope at hv
          unfold structNs at hr
          rw [hv] at hr; cases hr
        · obtain ⟨r1, r2, -⟩ := hr
          unfold scope at hv hk
          unfold structNs at r1 r2
          rw [hv] at r1; cases r1
          rw [hk] at r2; cases r2
          rfl
      simp only [hp]
      rw [if_neg (by simp [valueOk_iff.mpr hs])]
      obtain ⟨h1, h2, maps', h3, h4⟩ := ih maps hmo (npre ++ [d.name]) hn' (read ++ [v]) (by simp [hl]) (p + k) (used + k) h
      refine ⟨by omega, by simp at h2 ⊢; omega, maps', h3, ?_⟩
      have hset : setAttr (fill names read) d.memInfo.name v = fill names (read ++ [v]) := by
        rw [memInfo_name, hn, List.cons_append, List.map_cons]
        exact fill_set npre d.name _ read hl (by rw [hn, List.cons_append, List.map_cons] at hnd; exact hnd) v
      rw [hset, h4, show used + k + (e - (p + k)) = used + (e - p) by omega]

/-! ### The linear path -/

/-- A primitive map of known size read in byte order `o`, with struct code `c`. -/
def PrimFits (E : Env) (o : Order) (m : DMap) (c : Code) : Prop :=
  ∃ h k s u, m = .prim h k s u ∧ primCode k s = some c ∧
    fixedByteSize s u = some (c.size : Int) ∧ E.isLittle h.order = E.isLittle o

theorem unpackOne_order {E : Env} {o o' : Order} (h : E.isLittle o = E.isLittle o') (c : Code)
    (bs : Bytes) : unpackOne E o c bs = unpackOne E o' c bs := by
  unfold unpackOne; rw [h]

theorem linearValues_length {infos : List MemInfo} {maps : List DMap} {vs xs : List Val}
    (h : linearValues infos maps vs = some xs) : xs.length = vs.length := by
  induction vs generalizing infos maps xs with
  | nil => simp [linearValues] at h; simp [h]
  | cons v vs ih =>
    cases infos <;> cases maps <;> simp only [linearValues] at h <;> try cases h
    split at h <;> try cases h
    split at h <;> try cases h
    split at h <;> try cases h
    rw [Option.map_eq_some_iff] at h
    obtain ⟨ys, h1, rfl⟩ := h
    simp [ih h1]

/-- Reading members one by one, when there are enough bytes. -/
theorem linear_members (E : Env) (cls : String) (o : Order) (bs : Bytes) (depth : Nat)
    (outer : Namespace) (names : List String) (maps : List DMap) (cs : List Code)
    (hp : All2 (PrimFits E o) maps cs) (infos : List MemInfo) (hi : infos.length = maps.length)
    (hc : ∀ i ∈ infos, i.condition.all (· == "") = true) (pre : List String)
    (hn : names = pre ++ infos.map (·.name)) (hnd : names.Nodup) (read : List Val)
    (hl : read.length = pre.length) (off used : Nat) (hb : off + codesSize cs ≤ bs.length) :
    parseMembers E cls bs depth outer infos maps off used (fill names read) =
      match linearValues infos maps (unpackAll E o cs (bs.drop off)) with
      | none => .error .mapping
      | some xs => .ok (fill names (read ++ xs), used + codesSize cs) := by
  induction hp generalizing infos pre read off used with
  | nil =>
    cases infos with
    | cons => simp at hi
    | nil => simp [parseMembers, unpackAll, linearValues, codesSize]
  | @cons m c maps cs hm hp ih =>
    cases infos with
    | nil => simp at hi
    | cons i infos =>
    obtain ⟨h, k, s, u, rfl, hpc, hfs, ho⟩ := hm
    have hec : evalCondition E i (structNs cls (fill names read) outer) = .ok true := by
      have := hc i List.mem_cons_self
      unfold evalCondition
      cases hcd : i.condition with
      | none => simp [truthyStr]
      | some x => rw [hcd] at this; simp at this; simp [truthyStr, this]
    simp only [codesSize] at hb
    have hts : tooSmall bs off (c.size : Int) = false := by
      simp [tooSmall]; omega
    have hlen : ¬ (bs.drop off).length < c.size := by simp; omega
    rw [parseMembers]
    simp only [hec, parse, primParse, hfs, hts, Bool.false_eq_true, if_false, primRead, hpc, if_neg hlen,
      unpackAll, linearValues, unpackOne_order ho]
    cases hv : mapValue k (unpackOne E o c ((bs.drop off).take c.size)) with
    | none => simp [wrapErr]
    | some x =>
      simp only [Int.toNat_natCast]
      by_cases hvo : valueOk i x = true
      · simp only [hvo, Bool.not_true, Bool.false_eq_true, if_false, if_true, List.drop_drop]
        have hset : setAttr (fill names read) i.name x = fill names (read ++ [x]) := by
          rw [hn, List.map_cons]
          exact fill_set pre i.name _ read hl (by rw [hn, List.map_cons] at hnd; exact hnd) x
        rw [hset, ih infos (by simpa using hi) (fun j hj => hc j (List.mem_cons_of_mem _ hj))
          (pre ++ [i.name]) (by simp [hn]) (read ++ [x]) (by simp [hl]) (off + c.size) (used + c.size)
          (by omega)]
        cases linearValues infos maps (unpackAll E o cs (bs.drop (off + c.size))) with
        | none => rfl
        | some xs => simp [codesSize, Nat.add_assoc]
      · simp only [Bool.not_eq_true] at hvo
        simp [hvo]

/-- Reading members one by one fails when there are not enough bytes. -/
theorem linear_members_short (E : Env) (cls : String) (o : Order) (bs : Bytes) (depth : Nat)
    (outer : Namespace) (maps : List DMap) (cs : List Code)
    (hp : All2 (PrimFits E o) maps cs) (infos : List MemInfo) (hi : infos.length = maps.length)
    (hc : ∀ i ∈ infos, i.condition.all (· == "") = true)
    (attrs : List (String × Val))
    (off used : Nat) (r) (hr : parseMembers E cls bs depth outer infos maps off used attrs = .ok r) :
    cs = [] ∨ off + codesSize cs ≤ bs.length := by
  induction hp generalizing infos attrs off used with
  | nil => exact .inl rfl
  | @cons m c maps cs hm hp ih =>
    right
    cases infos with
    | nil => simp at hi
    | cons i infos =>
    obtain ⟨h, k, s, u, rfl, hpc, hfs, ho⟩ := hm
    have hec : evalCondition E i (structNs cls attrs outer) = .ok true := by
      have := hc i List.mem_cons_self
      unfold evalCondition
      cases hcd : i.condition with
      | none => simp [truthyStr]
      | some x => rw [hcd] at this; simp at this; simp [truthyStr, this]
    rw [parseMembers] at hr
    simp only [hec, parse, primParse, hfs] at hr
    by_cases hts : tooSmall bs off (c.size : Int) = true
    · simp [hts] at hr
    · simp only [Bool.not_eq_true] at hts
      simp only [hts, Bool.false_eq_true, if_false] at hr
      have hle : off + c.size ≤ bs.length := by
        simp [tooSmall] at hts; omega
      split at hr
      · cases hr
      · rename_i v n hv
        split at hv
        · cases hv
        cases hv
        split at hr
        · cases hr
        · rcases ih infos (by simpa using hi) (fun j hj => hc j (List.mem_cons_of_mem _ hj)) _ _ _ hr
            with rfl | h'
          · simpa [codesSize] using hle
          · simp at h'; simp [codesSize]; omega

theorem fmts_of_prims {maps : List DMap} {cs : List Code} (h : All2 IsPrim maps cs) :
    fmts maps = .ok (some (cs.map Code.char)) := by
  induction h with
  | nil => simp [fmts]
  | @cons m c maps cs hm h ih =>
    rw [fmts.eq_def]
    simp only
    split
    · obtain ⟨_, _, _, _, h, _⟩ := hm; cases h
    · rw [fmt_prim_iff hm, ih]
      simp

theorem struct_op_of_prims {hd : Hdr} {bsz : Option Int} {l io : Bool} {infos : List MemInfo}
    {maps : List DMap} {cs : List Code} (h : All2 IsPrim maps cs) (hne : cs ≠ []) :
    (DMap.struct hd bsz l io infos maps).op = some ⟨hd.order, cs⟩ := by
  unfold DMap.op DMap.operation
  simp only [DMap.orderStr, DMap.fmt, fmts_of_prims h]
  cases cs with
  | nil => exact absurd rfl hne
  | cons c cs =>
    have := parseCodes_chars (c :: cs)
    simp only [List.map_cons] at this ⊢
    simp [mkOp, this]

theorem isLittle_of_agree {E : Env} {a b : Order} (h : LeastFirst E a ↔ LeastFirst E b) :
    E.isLittle a = E.isLittle b := by
  rw [leastFirst_iff, leastFirst_iff] at h
  cases ha : E.isLittle a <;> cases hb : E.isLittle b <;> simp_all

theorem member_order {E : Env} {nm n : String} {so o : Order} {d : Defn}
    (h : memberNameOrder nm so d = .ok (n, o)) (hp : d.order? ≠ none)
    (ha : ∀ x, d.order? = some x → x ≠ .native → (LeastFirst E x ↔ LeastFirst E so)) :
    E.isLittle o = E.isLittle so := by
  unfold memberNameOrder at h
  split at h
  · rename_i hso
    cases h
    cases ho : d.order? with
    | none => exact absurd ho hp
    | some x =>
      have : d.orderOrNative = x := by simp [Defn.orderOrNative, ho]
      rw [this]
      by_cases hx : x = .native
      · rw [hx, hso]
      · exact isLittle_of_agree (ha x ho hx)
  · split at h
    · cases h
    · cases h; rfl
    · rename_i x hne hx
      cases h
      exact isLittle_of_agree (ha o hx (hne))

/-- What the members of a linear structure that can be read look like. -/
theorem members_fit {E : Env} {nm : String} {so : Order} {ms : List Defn} {maps : List DMap}
    (hmo : All2 (MapOf E nm so) ms maps) (hnc : ∀ d ∈ ms, d.target.isComposite = false)
    (hag : OrdersAgree E so ms) (cs : List Code) (hp : All2 IsPrim maps cs)
    (hs : ∀ m ∈ maps, ∀ h k s u, m = .prim h k s u → (fixedByteSize s u).isSome) :
    All2 (PrimFits E so) maps cs := by
  induction hmo generalizing cs with
  | nil => cases hp; exact .nil
  | @cons d m ms maps hm hmo ih =>
    cases hp with
    | @cons _ c _ cs hmp hp =>
    refine .cons ?_ (ih (fun d hd => hnc d (List.mem_cons_of_mem _ hd))
      (fun d hd => hag d (List.mem_cons_of_mem _ hd)) cs hp
      (fun m hm => hs m (List.mem_cons_of_mem _ hm)))
    obtain ⟨h, k, s, u, rfl, hpc⟩ := hmp
    obtain ⟨n, o, hno, hcr⟩ := hm
    have hfs := hs _ List.mem_cons_self h k s u rfl
    refine ⟨h, k, s, u, rfl, hpc, ?_, ?_⟩
    · cases s with
      | native => simp [fixedByteSize] at hfs
      | bytes s =>
        rw [primCode_size hpc]
        unfold fixedByteSize at hfs ⊢
        simp only at hfs ⊢
        split at hfs
        · rename_i h; rw [if_pos h]
        · simp at hfs
    · rcases noncomposite_map (hnc d List.mem_cons_self) hcr with ⟨h1, k1, s1, u1, e1, e2⟩ | hno'
      · cases e2
        apply member_order hno
        · rw [e1]; simp [Defn.order?]
        · exact hag d List.mem_cons_self
      · exact absurd (by simp [DMap.fmt, hpc]) (hno' [c.char])

/-- Members of a structure of known size have a known size. -/
theorem prim_sizes {E : Env} {nm : String} {so : Order} {ms : List Defn} {maps : List DMap}
    (hmo : All2 (MapOf E nm so) ms maps)
    (hnc : ∀ d ∈ ms, d.target.isComposite = false ∧ d.memInfo.condition.all (· == "") = true ∧
      ∀ hd a, d ≠ .padding hd a)
    (t n : Int) (hs : structSize t ms = some n) :
    ∀ m ∈ maps, ∀ h k s u, m = .prim h k s u → (fixedByteSize s u).isSome := by
  induction hmo generalizing t with
  | nil => simp
  | @cons d m ms maps hm hmo ih =>
    obtain ⟨n', o, hno, hcr⟩ := hm
    obtain ⟨d1, d2, d3⟩ := hnc d List.mem_cons_self
    rw [structSize.eq_def] at hs
    simp only at hs
    split at hs
    · exact absurd rfl (d3 _ _)
    split at hs
    · cases hs
    rename_i sz hbsz
    have hrest := ih (fun d hd => hnc d (List.mem_cons_of_mem _ hd)) _ hs
    intro m' hm' h k s u he
    rw [List.mem_cons] at hm'
    rcases hm' with rfl | hm'
    · subst he
      have : d.byteSize = d.target.byteSize := by
        cases d with
        | member _ d c _ _ =>
          simp only [Defn.memInfo] at d2
          have : truthyStr c = false := by
            cases c with
            | none => rfl
            | some x => simp at d2; simp [truthyStr, d2]
          simp [Defn.byteSize, this, Defn.target]
        | _ => rfl
      rw [this] at hbsz
      generalize d.target = t at hbsz hcr d1
      cases t <;> simp [Defn.isComposite] at d1
      case prim h k s u =>
        simp only [createAs] at hcr
        split at hcr
        · cases hcr
        · cases hcr
          rw [Defn.byteSize] at hbsz
          simp [hbsz]
      all_goals simp [createAs] at hcr
    · exact hrest m' hm' h k s u he

/-- Members that can be read one by one are primitive and of known size. -/
theorem members_prims {E : Env} {nm cls : String} {so : Order} {ms : List Defn} {maps : List DMap}
    (hmo : All2 (MapOf E nm so) ms maps) (hnc : ∀ d ∈ ms, d.target.isComposite = false)
    (hpad : ∀ d ∈ ms, ∀ h a, d.target ≠ .padding h a)
    (hc : ∀ d ∈ ms, d.memInfo.condition.all (· == "") = true)
    (bs : Bytes) (depth : Nat) (outer : Namespace) (attrs : List (String × Val)) (off used : Nat) (r)
    (hr : parseMembers E cls bs depth outer (ms.map Defn.memInfo) maps off used attrs = .ok r) :
    ∃ cs, All2 IsPrim maps cs ∧
      ∀ m ∈ maps, ∀ h k s u, m = .prim h k s u → (fixedByteSize s u).isSome := by
  induction hmo generalizing attrs off used with
  | nil => exact ⟨[], .nil, by simp⟩
  | @cons d m ms maps hm hmo ih =>
    obtain ⟨n, o, hno, hcr⟩ := hm
    have hec : evalCondition E d.memInfo (structNs cls attrs outer) = .ok true := by
      have := hc d List.mem_cons_self
      unfold evalCondition
      cases hcd : d.memInfo.condition with
      | none => simp [truthyStr]
      | some x => rw [hcd] at this; simp at this; simp [truthyStr, this]
    rw [List.map_cons, parseMembers] at hr
    simp only [hec] at hr
    split at hr
    · cases hr
    rename_i v k hv
    split at hr
    · cases hr
    obtain ⟨cs, h1, h2⟩ := ih (fun d hd => hnc d (List.mem_cons_of_mem _ hd))
      (fun d hd => hpad d (List.mem_cons_of_mem _ hd))
      (fun d hd => hc d (List.mem_cons_of_mem _ hd)) _ _ _ hr
    have hd := hnc d List.mem_cons_self
    have hp := hpad d List.mem_cons_self
    generalize d.target = t at hcr hd hp
    cases t <;> simp [Defn.isComposite] at hd
    case prim h k s u =>
      simp only [createAs] at hcr
      split at hcr
      · cases hcr
      · cases hcr
        simp only [parse, primParse] at hv
        split at hv
        · cases hv
        rename_i n hfs
        split at hv
        · cases hv
        split at hv
        · cases hv
        rename_i x hx
        unfold primRead at hx
        split at hx
        · cases hx
        rename_i c hpc
        refine ⟨c :: cs, .cons ⟨_, _, _, _, rfl, hpc⟩ h1, ?_⟩
        intro m hm h k s u he
        rw [List.mem_cons] at hm
        rcases hm with rfl | hm
        · cases he; simp [hfs]
        · exact h2 m hm h k s u he
    case padding h a => exact absurd rfl (hp h a)
    all_goals
      simp [createAs] at hcr
      subst hcr
      simp [parse] at hv

theorem structSize_fits {E : Env} {nm : String} {so : Order} {ms : List Defn} {maps : List DMap}
    {cs : List Code}
    (hmo : All2 (MapOf E nm so) ms maps)
    (hnc : ∀ d ∈ ms, d.target.isComposite = false ∧ d.memInfo.condition.all (· == "") = true ∧
      ∀ hd a, d ≠ .padding hd a)
    (hf : All2 (PrimFits E so) maps cs) (t : Int) : structSize t ms = some (t + codesSize cs) := by
  induction hmo generalizing t cs with
  | nil => cases hf; simp [structSize, codesSize]
  | @cons d m ms maps hm hmo ih =>
    cases hf with
    | @cons _ c _ cs hmf hf =>
    obtain ⟨h, k, s, u, rfl, hpc, hfs, -⟩ := hmf
    obtain ⟨n, o, hno, hcr⟩ := hm
    obtain ⟨d1, d2, d3⟩ := hnc d List.mem_cons_self
    have ht : d.byteSize = some (c.size : Int) := by
      have : d.byteSize = d.target.byteSize := by
        cases d with
        | member _ d c _ _ =>
          simp only [Defn.memInfo] at d2
          have : truthyStr c = false := by
            cases c with
            | none => rfl
            | some x => simp at d2; simp [truthyStr, d2]
          simp [Defn.byteSize, this, Defn.target]
        | _ => rfl
      rw [this]
      rcases noncomposite_map d1 hcr with ⟨h1, k1, s1, u1, e1, e2⟩ | hno'
      · cases e2
        rw [e1, Defn.byteSize, hfs]
      · exact absurd (by simp [DMap.fmt, hpc]) (hno' [c.char])
    have : structSize t (d :: ms) = structSize (t + c.size) ms := by
      rw [structSize.eq_def]
      simp only
      split
      · exact absurd rfl (d3 _ _)
      · rw [ht]
    rw [this, ih (fun d hd => hnc d (List.mem_cons_of_mem _ hd)) hf]
    simp only [codesSize]
    congr 1
    omega

/-- The linear path of a structure map reads the same as the composite path. -/
theorem linear_iff {E : Env} {nm : String} {o : Order} {h : Hdr} {ms : List Defn} {hd : Hdr}
    {bsz : Option Int} {io : Bool} {infos : List MemInfo} {maps : List DMap}
    (hdt : DistinctTypes ms) (hag : OrdersAgree E o ms)
    (hpad : ∀ d ∈ ms, ∀ h a, d.target ≠ .padding h a)
    (hm : createAs E nm o (.struct h ms) = .ok (.struct hd bsz true io infos maps))
    (bs : Bytes) (off depth : Nat) (outer : Namespace) (v : Val) (k : Nat) :
    linearStructParse E hd bsz (DMap.struct hd bsz true io infos maps).op io infos maps bs off =
        .ok (v, k) ↔
      io = true ∧ ∃ attrs, parseMembers E hd.name bs depth outer infos maps off 0
        (newInstance (infos.map (·.name))) = .ok (attrs, k) ∧ v = .struct hd.name attrs := by
  have hm0 := hm
  obtain ⟨io', infos', maps', l, hcls, hmem, hlin, heq, -⟩ := createAs_struct hm
  have hmo := createMembers_mapOf E nm o ms hdt ms (fun d hd => hd) [] (by simp) _ _ hmem
  have hinf := (createMembers_all E nm o (fun _ => True) ms
    (fun _ _ _ _ _ _ => trivial) [] (by simp) _ _ hmem).1
  simp only [DMap.struct.injEq] at heq
  obtain ⟨rfl, hbs, rfl, rfl, rfl, rfl⟩ := heq
  subst hinf
  have hnc := checkLinear_true hlin
  obtain ⟨hnd, hne⟩ := createClass_nodup hcls
  have hnames : (ms.map Defn.memInfo).map (·.name) = ms.map Defn.name := by
    simp [memInfo_name]
  have hcond : ∀ i ∈ ms.map Defn.memInfo, i.condition.all (· == "") = true := by
    intro i hi
    rw [List.mem_map] at hi
    obtain ⟨d, hd, rfl⟩ := hi
    exact (hnc d hd).2.2.1
  have hlen : (ms.map Defn.memInfo).length = maps.length := by simp [hmo.length_eq]
  simp only
  constructor
  · intro hp
    unfold linearStructParse at hp
    split at hp
    · cases hp
    rename_i n
    split at hp
    · cases hp
    rename_i hts
    cases hop : (DMap.struct { h with name := nm, order := o } (some n) true io
      (ms.map Defn.memInfo) maps).op with
    | none => rw [hop] at hp; simp at hp
    | some op =>
      obtain ⟨hoo, hpr⟩ := struct_op hm0 op hop
      have hsz := struct_op_size hdt hm0 op hop
      have hfit : All2 (PrimFits E o) maps op.codes := by
        apply members_fit hmo (fun d hd => (hnc d hd).2.1) hag _ hpr
        cases ms with
        | nil => exact absurd rfl hne
        | cons d ms =>
          simp only [Defn.byteSize] at hbs
          exact prim_sizes hmo (fun d hd => ⟨(hnc d hd).2.1, (hnc d hd).2.2⟩) 0 _ hbs.symm
      rw [hop] at hp
      simp only [Option.bind_some] at hp
      split at hp
      · cases hp
      rename_i vs hvs
      unfold Op.readFrom at hvs
      split at hvs
      · cases hvs
      rename_i hl
      cases hvs
      split at hp
      · cases hp
      rename_i xs hxs
      split at hp
      · cases hp
      rename_i attrs hattrs
      split at hp
      · rename_i hio
        cases hp
        refine ⟨hio, attrs, ?_, rfl⟩
        have hxl := linearValues_length hxs
        rw [← fill_nil, linear_members E nm o bs depth outer ((ms.map Defn.memInfo).map (·.name)) maps op.codes hfit _ hlen hcond [] rfl
          (by rw [hnames]; exact hnd) [] rfl off 0 (by simp at hl hts; simp [tooSmall] at hts; omega)]
        rw [hoo] at hxs
        simp only [hxs, List.nil_append]
        have hul : xs.length ≤ ((ms.map Defn.memInfo).map (·.name)).length := by
          rw [hxl]
          have : ∀ (cs : List Code) b, (unpackAll E op.order cs b).length = cs.length := by
            intro cs
            induction cs with
            | nil => simp [unpackAll]
            | cons c cs ih => simp [unpackAll, ih]
          rw [this, ← hfit.length_eq, ← hlen]
          simp
        rw [newInstanceArgs_fill _ _ hul] at hattrs
        cases hattrs
        congr 2
        omega
      · cases hp
  · rintro ⟨rfl, attrs, hp, rfl⟩
    obtain ⟨cs, hpr, hsz⟩ := members_prims hmo (fun d hd => (hnc d hd).2.1) hpad
      (fun d hd => (hnc d hd).2.2.1) bs depth outer _ off 0 _ hp
    have hfit := members_fit hmo (fun d hd => (hnc d hd).2.1) hag cs hpr hsz
    have hcne : cs ≠ [] := by
      rintro rfl
      cases hpr
      cases hmo
      exact hne rfl
    have hsm := linear_members_short E nm o bs depth outer maps cs hfit _ hlen hcond _ off 0 _ hp
    have hle : off + codesSize cs ≤ bs.length := by
      rcases hsm with h | h
      · exact absurd h hcne
      · exact h
    have hb : bsz = some (codesSize cs : Int) := by
      rw [hbs]
      cases ms with
      | nil => exact absurd rfl hne
      | cons d ms =>
        simp only [Defn.byteSize]
        rw [structSize_fits hmo (fun d hd => (hnc d hd).2) hfit 0]
        simp
    subst hb
    unfold linearStructParse
    rw [struct_op_of_prims hpr hcne]
    have hts : tooSmall bs off (codesSize cs : Int) = false := by simp [tooSmall]; omega
    have hl : ¬ (bs.drop off).length < codesSize cs := by simp; omega
    simp only [hts, Bool.false_eq_true, if_false, Option.bind_some, Op.readFrom, if_neg hl]
    rw [← fill_nil, linear_members E nm o bs depth outer ((ms.map Defn.memInfo).map (·.name)) maps cs hfit _ hlen hcond [] rfl
      (by rw [hnames]; exact hnd) [] rfl off 0 hle] at hp
    split at hp
    · cases hp
    rename_i xs hxs
    cases hp
    simp only [hxs]
    have hxl := linearValues_length hxs
    have hul : xs.length ≤ ((ms.map Defn.memInfo).map (·.name)).length := by
      rw [hxl]
      have : ∀ (cs : List Code) b, (unpackAll E o cs b).length = cs.length := by
        intro cs
        induction cs with
        | nil => simp [unpackAll]
        | cons c cs ih => simp [unpackAll, ih]
      rw [this, ← hfit.length_eq, ← hlen]
      simp
    rw [newInstanceArgs_fill _ _ hul]
    simp

end Dtf
