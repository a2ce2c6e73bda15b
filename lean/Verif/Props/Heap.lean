import Verif.HeapLemmas
/-!
C66: the sizes of definition objects that refer to each other and change.
-/
namespace Dtf
open Spec

namespace Spec

/-- A call that makes an object refer to the object at position `i`. -/
def UsesObj (i : Nat) : HeapOp → Prop
  | .newElements _ _ e => e = i
  | .newMember _ t _ _ _ => t = i
  | .addMember _ m => m = i
  | _ => False

/-- No definition gets a member after it has been used in another, or in itself. -/
def CompleteBeforeUse (ops : List HeapOp) : Prop :=
  ∀ pre i m post, ops = pre ++ .addMember i m :: post → i ≠ m ∧ ∀ op ∈ pre, ¬ UsesObj i op

end Spec

/-- Something refers to the object at a position. -/
def Heap.Refers (H : Heap) (r : Nat) : Prop := ∃ (i : Nat) (o : Obj), H[i]? = some o ∧ r ∈ o.refs

/-! ### One call -/

theorem getElem?_append_new {α : Type} {l : List α} {a b : α} {i : Nat} (h : (l ++ [a])[i]? = some b) :
    (i < l.length ∧ l[i]? = some b) ∨ (i = l.length ∧ b = a) := by
  have hlt := (List.getElem?_eq_some_iff.mp h).1
  simp at hlt
  rcases Nat.lt_or_ge i l.length with k | k
  · rw [List.getElem?_append_left k] at h
    exact .inl ⟨k, h⟩
  · have : i = l.length := by omega
    subst this
    simp at h
    exact .inr ⟨rfl, h.symm⟩

theorem Heap.Sound.append {H : Heap} (s : H.Sound) {o : Obj} (ho : ∀ r ∈ o.refs, r < H.length) :
    Heap.Sound (H ++ [o]) := by
  intro i p hp
  simp only [List.length_append, List.length_cons, List.length_nil]
  rcases getElem?_append_new hp with ⟨_, h⟩ | ⟨rfl, rfl⟩
  · refine ⟨fun r hr => ?_, (s i p h).2⟩
    have := (s i p h).1 r hr
    omega
  · exact ⟨fun r hr => by have := ho r hr; omega, .inr ho⟩

/-- How AddMemberDefinition changes the objects. -/
theorem addMember_cases (H : Heap) (i m : Nat) :
    (H.addMember i m).2 = H ∨ ∃ u h c ms o, H[i]? = some (.record u h c ms) ∧ H[m]? = some o ∧
      (H.addMember i m).2 = H.set i (.record u h none (ms ++ [m])) := by
  unfold Heap.addMember
  split
  · rename_i h1 h2
    split
    · exact .inl rfl
    · exact .inr ⟨_, _, _, _, _, h1, h2, rfl⟩
  · exact .inl rfl

theorem set_get {α : Type} {l : List α} {i : Nat} {a b : α} (h : l[i]? = some a) (j : Nat) :
    (l.set i b)[j]? = if j = i then some b else l[j]? := by
  have hlt := (List.getElem?_eq_some_iff.mp h).1
  by_cases e : j = i
  · subst e; simp [hlt]
  · rw [if_neg e, List.getElem?_set_ne fun k => e k.symm]

theorem Heap.Sound.step {H : Heap} (s : H.Sound) (op : HeapOp) : (H.step op).Sound := by
  cases op with
  | newPlain d => exact s.append (fun r hr => by cases hr)
  | newElements h info e =>
    simp only [Heap.step]
    split
    · exact s.append (fun r hr => by simp [Obj.refs] at hr; omega)
    · exact s
  | newMember h t c dt vs =>
    simp only [Heap.step]
    split
    · exact s.append (fun r hr => by simp [Obj.refs] at hr; omega)
    · exact s
  | newRecord u h => exact s.append (fun r hr => by cases hr)
  | addMember i m =>
    simp only [Heap.step]
    rcases addMember_cases H i m with h | ⟨u, h, c, ms, o, hi, hm, heq⟩
    · rw [h]; exact s
    · rw [heq]
      intro j p hp
      rw [set_get hi] at hp
      rw [List.length_set]
      by_cases e : j = i
      · rw [if_pos e] at hp
        injection hp with hp
        subst hp
        refine ⟨fun r hr => ?_, .inl ⟨_, _, _, _, rfl⟩⟩
        simp only [Obj.refs, List.mem_append, List.mem_singleton] at hr
        rcases hr with hr | rfl
        · exact (s i _ hi).1 r hr
        · exact (List.getElem?_eq_some_iff.mp hm).1
      · rw [if_neg e] at hp
        exact s j p hp
  | getByteSize i =>
    simp only [Heap.step]
    rcases Nat.lt_or_ge i H.length with h | h
    · obtain ⟨r, _, g⟩ := H.getByteSize_returns i s h
      exact s.grows g
    · have : (H.getByteSize i).2 = H := by
        unfold Heap.getByteSize
        generalize hn : (H.length + 1) * (H.length + 1) = n
        cases n with
        | zero => rfl
        | succ n =>
          unfold Heap.size
          rw [List.getElem?_eq_none h]
      rw [this]
      exact s

theorem Heap.Sound.run (ops : List HeapOp) {H : Heap} (s : H.Sound) : Heap.Sound (ops.foldl Heap.step H) := by
  induction ops generalizing H with
  | nil => exact s
  | cons op ops ih => exact ih (s.step op)

theorem sound_nil : Heap.Sound [] := fun i o h => by simp at h

/-- **C66**: GetByteSize of any definition returns, also of one that contains itself. -/
theorem C66_returns (ops : List HeapOp) (i : Nat) (hi : i < (Heap.run ops).length) :
    ∃ r, ((Heap.run ops).getByteSize i).1 = .ok r := by
  obtain ⟨r, h, _⟩ := (Heap.run ops).getByteSize_returns i (sound_nil.run ops) hi
  exact ⟨r, h⟩

/-! ### Definitions that are complete before they are used -/

/-- References come from calls. -/
theorem refers_step {H : Heap} {op : HeapOp} {r : Nat} (s : H.Sound) (h : (H.step op).Refers r) :
    H.Refers r ∨ UsesObj r op := by
  obtain ⟨j, o, hj, hr⟩ := h
  have app : ∀ p : Obj, (H ++ [p])[j]? = some o → H.Refers r ∨ r ∈ p.refs := by
    intro p hp
    rcases getElem?_append_new hp with ⟨_, h⟩ | ⟨_, rfl⟩
    · exact .inl ⟨j, o, h, hr⟩
    · exact .inr hr
  cases op with
  | newPlain d => exact (app _ hj).imp id (fun h => by cases h)
  | newElements h info e =>
    simp only [Heap.step] at hj
    split at hj
    · exact (app _ hj).imp id (fun h => by simp [Obj.refs] at h; exact h.symm)
    · exact .inl ⟨j, o, hj, hr⟩
  | newMember h t c dt vs =>
    simp only [Heap.step] at hj
    split at hj
    · exact (app _ hj).imp id (fun h => by simp [Obj.refs] at h; exact h.symm)
    · exact .inl ⟨j, o, hj, hr⟩
  | newRecord u h => exact (app _ hj).imp id (fun h => by cases h)
  | addMember i m =>
    simp only [Heap.step] at hj
    rcases addMember_cases H i m with h | ⟨u, h, c, ms, o', hi, hm, heq⟩
    · rw [h] at hj; exact .inl ⟨j, o, hj, hr⟩
    · rw [heq, set_get hi] at hj
      by_cases e : j = i
      · rw [if_pos e] at hj
        injection hj with hj
        subst hj
        simp only [Obj.refs, List.mem_append, List.mem_singleton] at hr
        rcases hr with hr | rfl
        · exact .inl ⟨i, _, hi, hr⟩
        · exact .inr rfl
      · rw [if_neg e] at hj
        exact .inl ⟨j, o, hj, hr⟩
  | getByteSize i =>
    simp only [Heap.step] at hj
    rcases Nat.lt_or_ge i H.length with h | h
    · obtain ⟨_, _, g⟩ := H.getByteSize_returns i s h
      have hlt : j < H.length := by
        rw [← g.1]
        exact (List.getElem?_eq_some_iff.mp hj).1
      obtain ⟨o', ho', go⟩ := g.2 j _ (List.getElem?_eq_getElem hlt)
      rw [hj] at ho'
      injection ho' with ho'
      subst ho'
      rw [go.refs] at hr
      exact .inl ⟨j, _, List.getElem?_eq_getElem hlt, hr⟩
    · have : (H.getByteSize i).2 = H := by
        unfold Heap.getByteSize
        generalize hn : (H.length + 1) * (H.length + 1) = n
        cases n with
        | zero => rfl
        | succ n =>
          unfold Heap.size
          rw [List.getElem?_eq_none h]
      rw [this] at hj
      exact .inl ⟨j, o, hj, hr⟩

/-- The state between calls: no cycles and the sizes kept are right. -/
def Heap.Fine (H : Heap) : Prop :=
  H.Sound ∧ ∃ rank, H.Ranked rank ∧ ∀ k, H.Right rank k

theorem back_get {H K : Heap} {i : Nat} {o : Obj} (e : K[i]? = H[i]? ∨ H[i]? = none) (hlt : i < H.length)
    (h : K[i]? = some o) : H[i]? = some o := by
  rcases e with e | e
  · exact e.symm.trans h
  · rw [List.getElem?_eq_getElem hlt] at e; cases e

mutual
/-- Objects that are not affected by a change. -/
theorem Spec.Unfolds.elsewhere {H K : Heap} {x : Nat} (same : ∀ j : Nat, j ≠ x → K[j]? = H[j]? ∨ H[j]? = none)
    (hx : ∀ (j : Nat) o, K[j]? = some o → j ≠ x → x ∉ o.refs ∧ ∀ r ∈ o.refs, r < H.length)
    {i : Nat} {d : Defn} (hi : i ≠ x) (hlt : i < H.length) :
    Unfolds K i d → Unfolds H i d
  | .plain h => .plain (back_get (same i hi) hlt h)
  | .elements h u => by
    have k := hx i _ h hi
    have hH := back_get (same i hi) hlt h
    exact .elements hH (u.elsewhere same hx (fun e => k.1 (by simp [Obj.refs, e])) (k.2 _ (by simp [Obj.refs])))
  | .member h u => by
    have k := hx i _ h hi
    have hH := back_get (same i hi) hlt h
    exact .member hH (u.elsewhere same hx (fun e => k.1 (by simp [Obj.refs, e])) (k.2 _ (by simp [Obj.refs])))
  | .structure h u => by
    have k := hx i _ h hi
    have hH := back_get (same i hi) hlt h
    exact .structure hH (u.elsewhere same hx fun r hr => ⟨fun e => k.1 (by rw [← e]; exact hr), k.2 r hr⟩)
  | .union h u => by
    have k := hx i _ h hi
    have hH := back_get (same i hi) hlt h
    exact .union hH (u.elsewhere same hx fun r hr => ⟨fun e => k.1 (by rw [← e]; exact hr), k.2 r hr⟩)
theorem Spec.UnfoldsAll.elsewhere {H K : Heap} {x : Nat} (same : ∀ j : Nat, j ≠ x → K[j]? = H[j]? ∨ H[j]? = none)
    (hx : ∀ (j : Nat) o, K[j]? = some o → j ≠ x → x ∉ o.refs ∧ ∀ r ∈ o.refs, r < H.length)
    {is : List Nat} {ds : List Defn} (hi : ∀ i ∈ is, i ≠ x ∧ i < H.length) :
    UnfoldsAll K is ds → UnfoldsAll H is ds
  | .nil => .nil
  | .cons u us => .cons (u.elsewhere same hx (hi _ (.head _)).1 (hi _ (.head _)).2)
      (us.elsewhere same hx fun r hr => hi r (.tail _ hr))
end

theorem le_sum_of_member {n : Nat} : ∀ {l : List Nat}, n ∈ l → n ≤ l.sum
  | m :: l, h => by
    simp only [List.sum_cons]
    cases h with
    | head => omega
    | tail _ h => have := le_sum_of_member h; omega

theorem Heap.Fine.append {H : Heap} (f : H.Fine) {o : Obj} (ho : ∀ r ∈ o.refs, r < H.length)
    (hc : ∀ u h n ms, o ≠ .record u h (some n) ms) : Heap.Fine (H ++ [o]) := by
  obtain ⟨s, rank, rk, hr⟩ := f
  refine ⟨s.append ho, fun j => if j = H.length then (o.refs.map rank).sum + 1 else rank j, ?_, ?_⟩
  · intro i p hp r hmem
    rcases getElem?_append_new hp with ⟨hlt, h⟩ | ⟨rfl, rfl⟩
    · have h1 := (s i p h).1 r hmem
      have h2 := rk i p h r hmem
      show (if r = H.length then _ else _) < if i = H.length then _ else _
      rw [if_neg (by omega), if_neg (by omega)]
      exact h2
    · have h1 := ho r hmem
      show (if r = H.length then _ else _) < if H.length = H.length then _ else _
      rw [if_neg (by omega), if_pos rfl]
      have : rank r ∈ p.refs.map rank := List.mem_map.mpr ⟨r, hmem, rfl⟩
      have := le_sum_of_member this
      omega
  · intro k i u h n ms d hk hget hu
    rcases getElem?_append_new hget with ⟨hlt, h'⟩ | ⟨rfl, e⟩
    · simp only at hk
      rw [if_neg (by omega)] at hk
      refine hr k i u h n ms d hk h' ?_
      refine hu.elsewhere (x := H.length) ?_ ?_ (by omega) hlt
      · intro j hj
        rcases Nat.lt_or_ge j H.length with l | l
        · exact .inl (List.getElem?_append_left l)
        · exact .inr (List.getElem?_eq_none l)
      · intro j p hp hj
        rcases getElem?_append_new hp with ⟨_, h⟩ | ⟨rfl, _⟩
        · have := (s j p h).1
          exact ⟨fun k => Nat.lt_irrefl _ (this _ k), this⟩
        · exact absurd rfl hj
    · exact absurd e.symm (hc _ _ _ _)

theorem Heap.Fine.add {H : Heap} (f : H.Fine) {i m : Nat} (hne : i ≠ m) (hno : ¬ H.Refers i) :
    (H.addMember i m).2.Fine := by
  have hsound := f.1.step (.addMember i m)
  obtain ⟨s, rank, rk, hr⟩ := f
  rcases addMember_cases H i m with h | ⟨u, h, c, ms, o, hi, hm, heq⟩
  · rw [h]; exact ⟨s, rank, rk, hr⟩
  · simp only [Heap.step] at hsound
    rw [heq] at hsound ⊢
    refine ⟨hsound, fun j => if j = i then max (rank i) (rank m + 1) else rank j, ?_, ?_⟩
    · intro j p hp r hmem
      rw [set_get hi] at hp
      by_cases e : j = i
      · rw [if_pos e] at hp
        injection hp with hp
        subst hp
        subst e
        simp only [Obj.refs, List.mem_append, List.mem_singleton] at hmem
        have hrne : r ≠ j := by
          rcases hmem with k | rfl
          · exact fun x => hno ⟨j, _, hi, by rw [← x]; exact k⟩
          · exact fun x => hne x.symm
        show (if r = j then _ else _) < if j = j then _ else _
        rw [if_neg hrne, if_pos rfl]
        rcases hmem with k | rfl
        · have := rk j _ hi r k
          omega
        · omega
      · rw [if_neg e] at hp
        have hrne : r ≠ i := fun x => hno ⟨j, _, hp, by rw [← x]; exact hmem⟩
        show (if r = i then _ else _) < if j = i then _ else _
        rw [if_neg e, if_neg hrne]
        exact rk j p hp r hmem
    · intro k j v h' n ms' d hk hget hu
      have hget' := hget
      rw [set_get hi] at hget
      by_cases e : j = i
      · rw [if_pos e] at hget
        cases hget
      · simp only at hk
        rw [if_neg e] at hget hk
        refine hr (rank j + 1) j v h' n ms' d (Nat.lt_succ_self _) hget ?_
        refine hu.elsewhere (x := i) ?_ ?_ e (List.getElem?_eq_some_iff.mp hget).1
        · intro l hl
          rw [set_get hi, if_neg hl]
          exact .inl rfl
        · intro l p hp hl
          rw [set_get hi, if_neg hl] at hp
          exact ⟨fun x => hno ⟨l, p, hp, x⟩, (s l p hp).1⟩

theorem Heap.Fine.size {H : Heap} (f : H.Fine) {i : Nat} (hi : i < H.length) :
    (H.getByteSize i).2.Fine ∧ ∃ d, Unfolds H i d ∧ (H.getByteSize i).1 = .ok d.byteSize := by
  obtain ⟨s, rank, rk, hr⟩ := f
  obtain ⟨d, hd⟩ := unfolds_exists s rk (rank i + 1) i (Nat.lt_succ_self _) hi
  have h1 : H.countP Obj.isOpen ≤ H.length := List.countP_le_length
  have h2 := Nat.mul_le_mul_right (H.length + 1) h1
  obtain ⟨a1, a2, a3, a4⟩ := Heap.size_right ((H.length + 1) * (H.length + 1)) H i d s rk hi (hr _) hd
    (by rw [Nat.add_mul (H.length) 1]; omega)
  refine ⟨⟨s.grows a2, rank, rk.grows a2, fun k => ?_⟩, d, hd, a1⟩
  exact (a3 (max k (rank i + 1)) (hr _) (by omega)).le (by omega)

theorem Heap.Fine.step {H : Heap} (f : H.Fine) (op : HeapOp)
    (h : ∀ i m, op = .addMember i m → i ≠ m ∧ ¬ H.Refers i) : (H.step op).Fine := by
  cases op with
  | newPlain d => exact f.append (fun r hr => by cases hr) (fun _ _ _ _ e => by cases e)
  | newElements h info e =>
    simp only [Heap.step]
    split
    · exact f.append (fun r hr => by simp [Obj.refs] at hr; omega) (fun _ _ _ _ e => by cases e)
    · exact f
  | newMember h t c dt vs =>
    simp only [Heap.step]
    split
    · exact f.append (fun r hr => by simp [Obj.refs] at hr; omega) (fun _ _ _ _ e => by cases e)
    · exact f
  | newRecord u h => exact f.append (fun r hr => by cases hr) (fun _ _ _ _ e => by cases e)
  | addMember i m => exact f.add (h i m rfl).1 (h i m rfl).2
  | getByteSize i =>
    simp only [Heap.step]
    rcases Nat.lt_or_ge i H.length with h | h
    · exact (f.size h).1
    · have : (H.getByteSize i).2 = H := by
        unfold Heap.getByteSize
        generalize hn : (H.length + 1) * (H.length + 1) = n
        cases n with
        | zero => rfl
        | succ n =>
          unfold Heap.size
          rw [List.getElem?_eq_none h]
      rw [this]
      exact f

theorem fine_run (ops : List HeapOp) : ∀ (pre : List HeapOp) (H : Heap), H.Fine →
    (∀ r, H.Refers r → ∃ op ∈ pre, UsesObj r op) → CompleteBeforeUse (pre ++ ops) →
    Heap.Fine (ops.foldl Heap.step H) := by
  induction ops with
  | nil => intro _ _ f _ _; exact f
  | cons op ops ih =>
    intro pre H f hu hc
    refine ih (pre ++ [op]) (H.step op) (f.step op ?_) ?_ (by simpa using hc)
    · intro i m e
      subst e
      obtain ⟨h1, h2⟩ := hc pre i m ops rfl
      refine ⟨h1, fun hr => ?_⟩
      obtain ⟨op, ho, hop⟩ := hu i hr
      exact h2 op ho hop
    · intro r hr
      rcases refers_step f.1 hr with h | h
      · obtain ⟨op', ho, hop⟩ := hu r h
        exact ⟨op', List.mem_append_left _ ho, hop⟩
      · exact ⟨op, List.mem_append_right _ (.head _), h⟩

/-- **C66**: when definitions get their members before they are used, GetByteSize
gives the size of the members they have now, whatever was called before. -/
theorem C66_sizes (ops : List HeapOp) (hc : CompleteBeforeUse ops) (i : Nat)
    (hi : i < (Heap.run ops).length) :
    ∃ d, Unfolds (Heap.run ops) i d ∧ ((Heap.run ops).getByteSize i).1 = .ok d.byteSize := by
  have f : (Heap.run ops).Fine := by
    refine fine_run ops [] [] ⟨sound_nil, fun _ => 0, fun i o h => by simp at h, ?_⟩ ?_ (by simpa using hc)
    · intro k i u h n ms d _ h
      simp at h
    · intro r ⟨i, o, h, _⟩
      simp at h
  exact (f.size hi).2

def exByte : Defn := .prim { name := "uint8" } (.integer true) (.bytes 1) "bytes"

/-- `struct { uint8; struct { uint8 } }`: the inner structure is complete first, the
sizes are asked for after every call. -/
def exComplete : List HeapOp :=
  [.newPlain exByte, .newRecord false { name := "inner" }, .getByteSize 1, .addMember 1 0, .getByteSize 1,
    .newMember { name := "x" } 1 none none none, .newRecord false { name := "outer" }, .addMember 3 0, .getByteSize 3,
    .addMember 3 2, .getByteSize 3, .newElements { name := "many" } { kind := .sequence, numElements := some 3 } 3]

example : CompleteBeforeUse exComplete ∧ ((Heap.run exComplete).getByteSize 3).1 = .ok (some 2) ∧
    ((Heap.run exComplete).getByteSize 4).1 = .ok (some 6) := by
  refine ⟨?_, rfl, rfl⟩
  intro pre i m post h
  unfold exComplete at h
  rcases pre with _ | ⟨_, _ | ⟨_, _ | ⟨_, _ | ⟨_, _ | ⟨_, _ | ⟨_, _ | ⟨_, _ | ⟨_, _ | ⟨_, _ | ⟨_, _ | ⟨_, _ | ⟨_, _⟩⟩⟩⟩⟩⟩⟩⟩⟩⟩⟩⟩ <;>
    simp at h
  · obtain ⟨rfl, rfl, rfl, ⟨rfl, rfl⟩, _⟩ := h
    simp [UsesObj]
  · obtain ⟨rfl, rfl, rfl, rfl, rfl, rfl, rfl, ⟨rfl, rfl⟩, _⟩ := h
    simp [UsesObj]
  · obtain ⟨rfl, rfl, rfl, rfl, rfl, rfl, rfl, rfl, rfl, ⟨rfl, rfl⟩, _⟩ := h
    simp [UsesObj]

/-- A structure that contains itself has a size too. -/
def exCycle : List HeapOp :=
  [.newPlain exByte, .newRecord false { name := "node" }, .newMember { name := "next" } 1 none none none,
    .addMember 1 0, .addMember 1 2]

example : ((Heap.run exCycle).getByteSize 1).1 = .ok (some 2) := rfl

/-- The inner structure gets a member after the size of the outer one was asked for. -/
def exStale : List HeapOp :=
  [.newPlain exByte, .newRecord false { name := "inner" }, .addMember 1 0, .newRecord false { name := "outer" },
    .addMember 2 1, .getByteSize 2, .newPlain (.prim { name := "b2" } (.integer true) (.bytes 1) "bytes"), .addMember 1 3]

/-- **C66**, refuted without the condition: the size kept by a structure is not
dropped when a structure in it gets another member. -/
theorem C66_nested_refuted : ∃ d, Unfolds (Heap.run exStale) 2 d ∧ d.byteSize = some 2 ∧
    ((Heap.run exStale).getByteSize 2).1 = .ok (some 1) ∧ ((Heap.run exStale).getByteSize 1).1 = .ok (some 2) :=
  ⟨.struct { name := "outer" } [.struct { name := "inner" } [exByte, .prim { name := "b2" } (.integer true) (.bytes 1) "bytes"]],
    .structure rfl (.cons (.structure rfl (.cons (.plain rfl) (.cons (.plain rfl) .nil))) .nil), rfl, rfl, rfl⟩

end Dtf
