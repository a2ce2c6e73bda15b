import Verif.Heap
/-!
Facts about definition objects that refer to each other.
-/
namespace Dtf

namespace Spec

mutual
/-- The object at a position, with everything it refers to, is a definition. -/
inductive Unfolds (H : Heap) : Nat → Defn → Prop
  | plain {i d} : H[i]? = some (.plain d) → Unfolds H i d
  | elements {i h info e d} : H[i]? = some (.elements h info e) → Unfolds H e d →
      Unfolds H i (.seq h info d)
  | member {i h t c dt vs d} : H[i]? = some (.member h t c dt vs) → Unfolds H t d →
      Unfolds H i (.member h d c dt vs)
  | structure {i h c ms ds} : H[i]? = some (.record false h c ms) → UnfoldsAll H ms ds →
      Unfolds H i (.struct h ds)
  | union {i h c ms ds} : H[i]? = some (.record true h c ms) → UnfoldsAll H ms ds →
      Unfolds H i (.union h ds)
/-- The same for lists. -/
inductive UnfoldsAll (H : Heap) : List Nat → List Defn → Prop
  | nil : UnfoldsAll H [] []
  | cons {i is d ds} : Unfolds H i d → UnfoldsAll H is ds → UnfoldsAll H (i :: is) (d :: ds)
end

end Spec
open Spec

/-- The positions an object refers to. -/
def Obj.refs : Obj → List Nat
  | .plain _ => []
  | .elements _ _ e => [e]
  | .member _ t _ _ _ => [t]
  | .record _ _ _ ms => ms

/-- References point to objects, those given at construction to older ones. -/
def Heap.Sound (H : Heap) : Prop := ∀ (i : Nat) (o : Obj), H[i]? = some o →
  (∀ r ∈ o.refs, r < H.length) ∧ ((∃ u h c ms, o = .record u h c ms) ∨ ∀ r ∈ o.refs, r < i)

/-- Nothing changed but a size that was not known. -/
def Obj.Grows (o o' : Obj) : Prop :=
  o' = o ∨ ∃ u h c ms, o = .record u h none ms ∧ o' = .record u h c ms

def Heap.Grows (H H' : Heap) : Prop :=
  H'.length = H.length ∧ ∀ (i : Nat) (o : Obj), H[i]? = some o → ∃ o', H'[i]? = some o' ∧ o.Grows o'

theorem Obj.Grows.same {o : Obj} : o.Grows o := .inl (Eq.refl o)

theorem Obj.Grows.trans {a b c : Obj} (h : a.Grows b) (k : b.Grows c) : a.Grows c := by
  rcases h with rfl | ⟨u, h, x, ms, rfl, rfl⟩
  · exact k
  · rcases k with rfl | ⟨u', h', x', ms', e, rfl⟩
    · exact .inr ⟨u, h, x, ms, Eq.refl _, Eq.refl _⟩
    · injection e with e1 e2 e3 e4
      subst e1; subst e2; subst e4
      exact .inr ⟨u, h, x', ms, Eq.refl _, Eq.refl _⟩

theorem Heap.Grows.same {H : Heap} : H.Grows H := ⟨Eq.refl _, fun _ o h => ⟨o, h, .same⟩⟩

theorem Heap.Grows.trans {A B C : Heap} (h : A.Grows B) (k : B.Grows C) : A.Grows C := by
  refine ⟨k.1.trans h.1, fun i o ho => ?_⟩
  obtain ⟨o1, h1, g1⟩ := h.2 i o ho
  obtain ⟨o2, h2, g2⟩ := k.2 i o1 h1
  exact ⟨o2, h2, g1.trans g2⟩

theorem Obj.Grows.refs {o o' : Obj} (h : o.Grows o') : o'.refs = o.refs := by
  rcases h with rfl | ⟨_, _, _, _, rfl, rfl⟩ <;> rfl

/-- How `setCache` changes objects. -/
theorem Heap.setCache_get {H : Heap} {i : Nat} {u h c ms} (hi : H[i]? = some (.record u h c ms))
    (c' : Option Int) (j : Nat) :
    (H.setCache i c')[j]? = if j = i then some (.record u h c' ms) else H[j]? := by
  have hlt : i < H.length := by
    rcases Nat.lt_or_ge i H.length with h | h
    · exact h
    · rw [List.getElem?_eq_none h] at hi; cases hi
  simp only [Heap.setCache, hi]
  by_cases e : j = i
  · subst e; simp [hlt]
  · rw [if_neg e, List.getElem?_set_ne (fun k => e k.symm)]

theorem Heap.setCache_length (H : Heap) (i : Nat) (c : Option Int) :
    (H.setCache i c).length = H.length := by
  unfold Heap.setCache
  split <;> simp

theorem Heap.Grows.setCache {H K : Heap} {i : Nat} {u h ms c} (g : H.Grows K)
    (hi : H[i]? = some (.record u h none ms)) (hk : K[i]? = some (.record u h c ms)) (c' : Option Int) :
    H.Grows (K.setCache i c') := by
  refine ⟨(K.setCache_length i c').trans g.1, fun j o ho => ?_⟩
  rw [Heap.setCache_get hk]
  by_cases e : j = i
  · subst e
    rw [hi] at ho
    injection ho with ho
    subst ho
    exact ⟨_, if_pos rfl, .inr ⟨u, h, c', ms, rfl, rfl⟩⟩
  · rw [if_neg e]
    exact g.2 j o ho

theorem Heap.cache_get {H : Heap} {i : Nat} {u h c ms} (hi : H[i]? = some (.record u h c ms)) :
    H.cache i = c := by simp [Heap.cache, hi]

/-- A size that is known is kept. -/
theorem Heap.Grows.known {H K : Heap} (g : H.Grows K) {i : Nat} {u h n ms}
    (hi : H[i]? = some (.record u h (some n) ms)) : K[i]? = some (.record u h (some n) ms) := by
  obtain ⟨o, ho, g⟩ := g.2 i _ hi
  rcases g with rfl | ⟨_, _, _, _, e, _⟩
  · exact ho
  · cases e

theorem Heap.Sound.grows {H K : Heap} (s : H.Sound) (g : H.Grows K) : K.Sound := by
  intro i o ho
  have hlt : i < H.length := by
    rw [← g.1]
    exact (List.getElem?_eq_some_iff.mp ho).1
  obtain ⟨o', ho', go⟩ := g.2 i _ (List.getElem?_eq_getElem hlt)
  rw [ho] at ho'
  injection ho' with ho'
  subst ho'
  have := s i _ (List.getElem?_eq_getElem hlt)
  rw [go.refs, g.1]
  refine ⟨this.1, ?_⟩
  rcases this.2 with ⟨u, h, c, ms, e⟩ | h
  · rcases go with rfl | ⟨u', h', c', ms', _, rfl⟩
    · exact .inl ⟨u, h, c, ms, e⟩
    · exact .inl ⟨_, _, _, _, rfl⟩
  · exact .inr h

/-- The number of structures and unions whose size is not known. -/
def Obj.isOpen : Obj → Bool
  | .record _ _ none _ => true
  | _ => false

theorem Obj.Grows.isOpen {o o' : Obj} (g : o.Grows o') (h : o'.isOpen = true) : o.isOpen = true := by
  rcases g with rfl | ⟨_, _, _, _, rfl, rfl⟩
  · exact h
  · rfl

theorem Heap.Grows.tail {o o' : Obj} {H K : Heap} (g : Heap.Grows (o :: H) (o' :: K)) :
    o.Grows o' ∧ Heap.Grows H K := by
  obtain ⟨x, hx, gx⟩ := g.2 0 o rfl
  simp at hx
  subst hx
  refine ⟨gx, by simpa using g.1, fun i p hp => ?_⟩
  obtain ⟨y, hy, gy⟩ := g.2 (i + 1) p (by simpa using hp)
  exact ⟨y, by simpa using hy, gy⟩

theorem Heap.Grows.count {H K : Heap} (g : H.Grows K) : K.countP Obj.isOpen ≤ H.countP Obj.isOpen := by
  induction H generalizing K with
  | nil =>
    have : K = [] := List.length_eq_zero_iff.mp g.1
    subst this
    exact Nat.le_refl _
  | cons o H ih =>
    cases K with
    | nil => exact Nat.zero_le _
    | cons o' K =>
      obtain ⟨go, gt⟩ := g.tail
      have := ih gt
      simp only [List.countP_cons]
      by_cases h : o'.isOpen = true
      · rw [if_pos h, if_pos (go.isOpen h)]; omega
      · rw [if_neg h]; omega

theorem Heap.Grows.count_lt {H K : Heap} (g : H.Grows K) {i : Nat} {o o' : Obj} (ho : H[i]? = some o)
    (hop : o.isOpen = true) (ho' : K[i]? = some o') (hcl : o'.isOpen = false) :
    K.countP Obj.isOpen < H.countP Obj.isOpen := by
  induction H generalizing K i with
  | nil => simp at ho
  | cons p H ih =>
    cases K with
    | nil => simp at ho'
    | cons p' K =>
      obtain ⟨go, gt⟩ := g.tail
      simp only [List.countP_cons]
      cases i with
      | zero =>
        simp at ho ho'
        subst ho; subst ho'
        rw [if_pos hop, if_neg (by simp [hcl])]
        have := gt.count
        omega
      | succ i =>
        have := ih gt (by simpa using ho) (by simpa using ho')
        by_cases h : p'.isOpen = true
        · rw [if_pos h, if_pos (go.isOpen h)]; omega
        · rw [if_neg h]; omega

/-- The loop returns when every member does. -/
theorem Heap.loop_returns {step : Heap → Nat → Except Err (Option Int) × Heap} {u v : Bool} {i : Nat}
    {h : Hdr} {all : List Nat} {H : Heap} (hi : H[i]? = some (.record u h none all))
    (hs : ∀ K m, H.Grows K → (∃ n, K[i]? = some (.record u h (some n) all)) → m < H.length →
      ∃ r, (step K m).1 = .ok r ∧ K.Grows (step K m).2)
    (ms : List Nat) (hm : ∀ m ∈ ms, m < H.length) (K : Heap) (g : H.Grows K) (n : Int)
    (hk : K[i]? = some (.record u h (some n) all)) :
    ∃ r, (Heap.loop step v i K ms).1 = .ok r ∧ H.Grows (Heap.loop step v i K ms).2 := by
  induction ms generalizing K n with
  | nil => exact ⟨_, rfl, g⟩
  | cons m ms ih =>
    have hms : ∀ k ∈ ms, k < H.length := fun k hk => hm k (.tail _ hk)
    have again : ∀ (L : Heap) (t t' : Int), H.Grows L → L[i]? = some (.record u h (some t) all) →
        ∃ r, (Heap.loop step v i (L.setCache i (some t')) ms).1 = .ok r ∧
          H.Grows (Heap.loop step v i (L.setCache i (some t')) ms).2 := by
      intro L t t' gl hl
      refine ih hms _ (gl.setCache hi hl _) t' ?_
      rw [Heap.setCache_get hl, if_pos rfl]
    unfold Heap.loop
    split
    · rw [Heap.cache_get hk]
      exact again K n _ g hk
    · obtain ⟨r, hr, gr⟩ := hs K m g ⟨n, hk⟩ (hm m (.head _))
      generalize step K m = p at hr gr
      rcases p with ⟨_ | s, L⟩
      · cases hr
      · have hl := gr.known hk
        have gl := g.trans gr
        cases s with
        | none => exact ⟨_, rfl, gl.setCache hi hl _⟩
        | some s =>
          simp only
          rw [Heap.cache_get hl]
          exact again L n _ gl hl

/-- GetByteSize returns. -/
theorem Heap.size_returns (fuel : Nat) (H : Heap) (i : Nat) (s : H.Sound) (hi : i < H.length)
    (hf : H.countP Obj.isOpen * (H.length + 1) + i + 1 ≤ fuel) :
    ∃ r, (Heap.size fuel H i).1 = .ok r ∧ H.Grows (Heap.size fuel H i).2 := by
  induction fuel generalizing H i with
  | zero => omega
  | succ fuel ih =>
    unfold Heap.size
    have hget := List.getElem?_eq_getElem hi
    have hs := s i _ hget
    rw [hget]
    generalize H[i] = o at hget hs
    cases o with
    | plain d => exact ⟨_, rfl, .same⟩
    | elements h info e =>
      have he : e < i := by
        rcases hs.2 with ⟨_, _, _, _, k⟩ | k
        · cases k
        · exact k e (.head _)
      simp only
      split
      · exact ⟨_, rfl, .same⟩
      · split
        · obtain ⟨r, hr, g⟩ := ih H e s (by omega) (by omega)
          generalize Heap.size fuel H e = p at hr g
          rcases p with ⟨_ | r', K⟩
          · cases hr
          · cases r' with
            | none => exact ⟨_, rfl, g⟩
            | some n => exact ⟨_, rfl, g⟩
        · exact ⟨_, rfl, .same⟩
    | member h t c dt vs =>
      have ht : t < i := by
        rcases hs.2 with ⟨_, _, _, _, k⟩ | k
        · cases k
        · exact k t (.head _)
      simp only
      split
      · exact ⟨_, rfl, .same⟩
      · exact ih H t s (by omega) (by omega)
    | record u h c ms =>
      cases c with
      | some n => exact ⟨_, rfl, .same⟩
      | none =>
        simp only
        split
        · exact ⟨_, rfl, .same⟩
        · refine Heap.loop_returns hget ?_ ms hs.1 _ (Heap.Grows.same.setCache hget hget _) 0
            (by rw [Heap.setCache_get hget, if_pos rfl])
          intro K m g ⟨n, hk⟩ hm
          have hlt := g.count_lt hget rfl hk rfl
          refine ih K m (s.grows g) (by rw [g.1]; exact hm) ?_
          rw [g.1]
          have : (K.countP Obj.isOpen + 1) * (H.length + 1) ≤ H.countP Obj.isOpen * (H.length + 1) :=
            Nat.mul_le_mul_right _ hlt
          rw [Nat.add_mul] at this
          omega

theorem Heap.getByteSize_returns (H : Heap) (i : Nat) (s : H.Sound) (hi : i < H.length) :
    ∃ r, (H.getByteSize i).1 = .ok r ∧ H.Grows (H.getByteSize i).2 := by
  refine Heap.size_returns _ H i s hi ?_
  have h1 : H.countP Obj.isOpen ≤ H.length := List.countP_le_length
  have := Nat.mul_le_mul_right (H.length + 1) h1
  rw [Nat.add_mul (H.length) 1]
  omega

/-! ### Objects without cycles -/

/-- A measure that decreases along references. -/
def Heap.Ranked (rank : Nat → Nat) (H : Heap) : Prop :=
  ∀ (i : Nat) (o : Obj), H[i]? = some o → ∀ r ∈ o.refs, rank r < rank i

/-- The sizes kept by objects below a rank are right. -/
def Heap.Right (rank : Nat → Nat) (k : Nat) (H : Heap) : Prop :=
  ∀ (i : Nat) u h n ms d, rank i < k → H[i]? = some (.record u h (some n) ms) → Unfolds H i d →
    d.byteSize = some n

mutual
theorem Spec.Unfolds.shape {H K : Heap} (g : H.Grows K) {i : Nat} {d : Defn} :
    Unfolds H i d → Unfolds K i d
  | .plain h => by
    obtain ⟨o, ho, go⟩ := g.2 _ _ h
    rcases go with rfl | ⟨_, _, _, _, e, _⟩
    · exact .plain ho
    · cases e
  | .elements h u => by
    obtain ⟨o, ho, go⟩ := g.2 _ _ h
    rcases go with rfl | ⟨_, _, _, _, e, _⟩
    · exact .elements ho (u.shape g)
    · cases e
  | .member h u => by
    obtain ⟨o, ho, go⟩ := g.2 _ _ h
    rcases go with rfl | ⟨_, _, _, _, e, _⟩
    · exact .member ho (u.shape g)
    · cases e
  | .structure h u => by
    obtain ⟨o, ho, go⟩ := g.2 _ _ h
    rcases go with rfl | ⟨_, _, _, _, e, rfl⟩
    · exact .structure ho (u.shape g)
    · injection e with e1 e2 e3 e4
      subst e1; subst e2; subst e4
      exact .structure ho (u.shape g)
  | .union h u => by
    obtain ⟨o, ho, go⟩ := g.2 _ _ h
    rcases go with rfl | ⟨_, _, _, _, e, rfl⟩
    · exact .union ho (u.shape g)
    · injection e with e1 e2 e3 e4
      subst e1; subst e2; subst e4
      exact .union ho (u.shape g)
theorem Spec.UnfoldsAll.shape {H K : Heap} (g : H.Grows K) {is : List Nat} {ds : List Defn} :
    UnfoldsAll H is ds → UnfoldsAll K is ds
  | .nil => .nil
  | .cons u us => .cons (u.shape g) (us.shape g)
end

mutual
/-- An object is one definition. -/
theorem Spec.Unfolds.unique {H : Heap} {i : Nat} {d d' : Defn} :
    Unfolds H i d → Unfolds H i d' → d = d'
  | .plain h, k => by
    cases k with
    | plain h' => rw [h] at h'; injection h' with h'; injection h'
    | elements h' _ => rw [h] at h'; cases h'
    | member h' _ => rw [h] at h'; cases h'
    | «structure» h' _ => rw [h] at h'; cases h'
    | union h' _ => rw [h] at h'; cases h'
  | .elements h u, k => by
    cases k with
    | plain h' => rw [h] at h'; cases h'
    | elements h' u' => rw [h] at h'; cases h'; rw [u.unique u']
    | member h' _ => rw [h] at h'; cases h'
    | «structure» h' _ => rw [h] at h'; cases h'
    | union h' _ => rw [h] at h'; cases h'
  | .member h u, k => by
    cases k with
    | plain h' => rw [h] at h'; cases h'
    | elements h' u' => rw [h] at h'; cases h'
    | member h' u' => rw [h] at h'; cases h'; rw [u.unique u']
    | «structure» h' _ => rw [h] at h'; cases h'
    | union h' _ => rw [h] at h'; cases h'
  | .structure h u, k => by
    cases k with
    | plain h' => rw [h] at h'; cases h'
    | elements h' u' => rw [h] at h'; cases h'
    | member h' u' => rw [h] at h'; cases h'
    | «structure» h' u' => rw [h] at h'; cases h'; rw [u.unique u']
    | union h' _ => rw [h] at h'; cases h'
  | .union h u, k => by
    cases k with
    | plain h' => rw [h] at h'; cases h'
    | elements h' u' => rw [h] at h'; cases h'
    | member h' u' => rw [h] at h'; cases h'
    | «structure» h' u' => rw [h] at h'; cases h'
    | union h' u' => rw [h] at h'; cases h'; rw [u.unique u']
theorem Spec.UnfoldsAll.unique {H : Heap} {is : List Nat} {ds ds' : List Defn} :
    UnfoldsAll H is ds → UnfoldsAll H is ds' → ds = ds'
  | .nil, k => by cases k; rfl
  | .cons u us, k => by
    cases k with
    | cons u' us' => rw [u.unique u', us.unique us']
end

theorem unfoldsAll_exists {H : Heap} : ∀ (is : List Nat), (∀ i ∈ is, ∃ d, Unfolds H i d) →
    ∃ ds, UnfoldsAll H is ds
  | [], _ => ⟨[], .nil⟩
  | i :: is, h => by
    obtain ⟨d, hd⟩ := h i (.head _)
    obtain ⟨ds, hds⟩ := unfoldsAll_exists is fun j hj => h j (.tail _ hj)
    exact ⟨d :: ds, .cons hd hds⟩

theorem unfolds_exists {H : Heap} {rank : Nat → Nat} (s : H.Sound) (r : H.Ranked rank) (k : Nat) :
    ∀ i, rank i < k → i < H.length → ∃ d, Unfolds H i d := by
  induction k with
  | zero => intro i h; omega
  | succ k ih =>
    intro i hk hi
    have hget := List.getElem?_eq_getElem hi
    have hs := (s i _ hget).1
    have hr := r i _ hget
    generalize H[i] = o at hget hs hr
    have hsub : ∀ j ∈ o.refs, ∃ d, Unfolds H j d := fun j hj =>
      ih j (by have := hr j hj; omega) (hs j hj)
    cases o with
    | plain d => exact ⟨d, .plain hget⟩
    | elements h info e =>
      obtain ⟨d, hd⟩ := hsub e (.head _)
      exact ⟨_, .elements hget hd⟩
    | member h t c dt vs =>
      obtain ⟨d, hd⟩ := hsub t (.head _)
      exact ⟨_, .member hget hd⟩
    | record u h c ms =>
      obtain ⟨ds, hds⟩ := unfoldsAll_exists ms hsub
      cases u with
      | false => exact ⟨_, .structure hget hds⟩
      | true => exact ⟨_, .union hget hds⟩

theorem Heap.Ranked.grows {H K : Heap} {rank : Nat → Nat} (r : H.Ranked rank) (g : H.Grows K) :
    K.Ranked rank := by
  intro i o ho
  have hlt : i < H.length := by
    rw [← g.1]
    exact (List.getElem?_eq_some_iff.mp ho).1
  obtain ⟨o', ho', go⟩ := g.2 i _ (List.getElem?_eq_getElem hlt)
  rw [ho] at ho'
  injection ho' with ho'
  subst ho'
  rw [go.refs]
  exact r i _ (List.getElem?_eq_getElem hlt)

/-- The reverse of `shape`. -/
theorem unfolds_back {H K : Heap} {rank : Nat → Nat} (s : H.Sound) (r : H.Ranked rank) (g : H.Grows K)
    {i : Nat} {d : Defn} (hi : i < H.length) (u : Unfolds K i d) : Unfolds H i d := by
  obtain ⟨d', hd'⟩ := unfolds_exists s r (rank i + 1) i (Nat.lt_succ_self _) hi
  rw [u.unique (hd'.shape g)]
  exact hd'

/-- The total of the members of a structure or union. -/
def totalSize (isUnion : Bool) (t : Int) (ds : List Defn) : Option Int :=
  if isUnion then unionSize t ds else structSize t ds

theorem totalSize_nil (u : Bool) (t : Int) : totalSize u t [] = some t := by
  cases u <;> simp [totalSize, unionSize, structSize]

/-- What one call of GetByteSize does. -/
def Heap.Does (rank : Nat → Nat) (i : Nat) (d : Defn) (H : Heap) (p : Except Err (Option Int) × Heap) :
    Prop :=
  p.1 = .ok d.byteSize ∧ H.Grows p.2 ∧ (∀ k, H.Right rank k → rank i < k → p.2.Right rank k) ∧
    ∀ j : Nat, j ≠ i → rank i ≤ rank j → p.2[j]? = H[j]?

theorem Heap.Right.le {rank : Nat → Nat} {H : Heap} {k l : Nat} (h : H.Right rank k) (hl : l ≤ k) :
    H.Right rank l := fun i u h' n ms d hi => h i u h' n ms d (by omega)

/-- Changing the size kept by an object of rank `k` leaves the smaller ranks alone. -/
theorem Heap.Right.setCache {rank : Nat → Nat} {H K : Heap} {i : Nat} {u h ms c} (s : H.Sound)
    (rk : H.Ranked rank) (g : H.Grows K) (hi : H[i]? = some (.record u h none ms))
    (hk : K[i]? = some (.record u h c ms)) (hr : K.Right rank (rank i)) (c' : Option Int) :
    (K.setCache i c').Right rank (rank i) := by
  intro j v h' n ms' d hj hget hu
  rw [Heap.setCache_get hk] at hget
  have hne : j ≠ i := fun e => by rw [e] at hj; omega
  rw [if_neg hne] at hget
  refine hr j v h' n ms' d hj hget ?_
  have hlt : j < H.length := by
    rw [← g.1]
    exact (List.getElem?_eq_some_iff.mp hget).1
  exact (unfolds_back s rk (g.setCache hi hk c') hlt hu).shape g

/-- The loop adds up the members. -/
theorem Heap.loop_right {step : Heap → Nat → Except Err (Option Int) × Heap} {rank : Nat → Nat}
    {u : Bool} {i : Nat} {h : Hdr} {all : List Nat} {H : Heap} (s : H.Sound) (rk : H.Ranked rank)
    (hi : H[i]? = some (.record u h none all))
    (hs : ∀ K m d, H.Grows K → K.Right rank (rank i) → m < H.length → rank m < rank i →
      (∃ n, K[i]? = some (.record u h (some n) all)) → Unfolds H m d → Heap.Does rank m d K (step K m))
    (ms : List Nat) (ds : List Defn) (hm : ∀ m ∈ ms, m < H.length ∧ rank m < rank i)
    (hu : UnfoldsAll H ms ds) (K : Heap) (g : H.Grows K) (hr : K.Right rank (rank i)) (n : Int)
    (hk : K[i]? = some (.record u h (some n) all)) (hfar : ∀ j : Nat, j ≠ i → rank i ≤ rank j → K[j]? = H[j]?) :
    ∃ L, Heap.loop step u i K ms = (.ok (totalSize u n ds), L) ∧ H.Grows L ∧ L.Right rank (rank i) ∧
      L[i]? = some (.record u h (totalSize u n ds) all) ∧
      ∀ j : Nat, j ≠ i → rank i ≤ rank j → L[j]? = H[j]? := by
  induction ms generalizing K n ds with
  | nil =>
    cases hu
    refine ⟨K, ?_, g, hr, ?_, hfar⟩
    · rw [totalSize_nil]
      unfold Heap.loop
      rw [Heap.cache_get hk]
    · rw [totalSize_nil]
      exact hk
  | cons m ms ih =>
    cases hu with
    | @cons _ _ d ds hd hds =>
    have hms : ∀ k ∈ ms, k < H.length ∧ rank k < rank i := fun k hk => hm k (.tail _ hk)
    have again : ∀ (L : Heap) (t t' : Int), H.Grows L → L.Right rank (rank i) →
        L[i]? = some (.record u h (some t) all) → (∀ j : Nat, j ≠ i → rank i ≤ rank j → L[j]? = H[j]?) →
        ∃ M, Heap.loop step u i (L.setCache i (some t')) ms = (.ok (totalSize u t' ds), M) ∧ H.Grows M ∧
          M.Right rank (rank i) ∧ M[i]? = some (.record u h (totalSize u t' ds) all) ∧
          ∀ j : Nat, j ≠ i → rank i ≤ rank j → M[j]? = H[j]? := by
      intro L t t' gl hl hli hlf
      refine ih ds hms hds _ (gl.setCache hi hli _) (hl.setCache s rk gl hi hli _) t' ?_ ?_
      · rw [Heap.setCache_get hli, if_pos rfl]
      · intro j hj hrj
        rw [Heap.setCache_get hli, if_neg hj]
        exact hlf j hj hrj
    have hmr := (hm m (.head _)).2
    have hne : m ≠ i := fun e => by rw [e] at hmr; omega
    by_cases hp : u = false ∧ ∃ h' a, d = .padding h' (some (a + 1))
    · obtain ⟨rfl, h', a, rfl⟩ := hp
      have hKm : K[m]? = some (.plain (.padding h' (some (a + 1)))) := by
        have := hd.shape g
        cases this with
        | plain h => exact h
      unfold Heap.loop
      rw [hKm]
      simp only
      rw [Heap.cache_get hk]
      have : totalSize false n (.padding h' (some (a + 1)) :: ds) =
          totalSize false (n + paddingSize n (a + 1)) ds := by
        simp [totalSize, structSize]
      rw [this]
      exact again K n _ g hr hk hfar
    · have hstep := hs K m d g hr (hm m (.head _)).1 hmr ⟨n, hk⟩ hd
      obtain ⟨h1, h2, h3, h4⟩ := hstep
      have hloop : Heap.loop step u i K (m :: ms) =
          match step K m with
          | (.error e, H) => (.error e, H)
          | (.ok none, H) => (.ok none, H.setCache i none)
          | (.ok (some s), H) =>
            match H.cache i with
            | none => (.error .type, H)
            | some t => Heap.loop step u i (H.setCache i (some (if u then max t s else t + s))) ms := by
        rw [Heap.loop]
        · generalize step K m = p; rcases p with ⟨_ | _ | _, _⟩ <;> rfl
        · intro h' a hu hx
          refine hp ⟨hu, ?_⟩
          cases hd.shape g with
          | plain k => rw [hx] at k; injection k with k; injection k with k; exact ⟨_, _, k.symm⟩
          | elements k _ => rw [hx] at k; cases k
          | member k _ => rw [hx] at k; cases k
          | «structure» k _ => rw [hx] at k; cases k
          | union k _ => rw [hx] at k; cases k
      have htot : totalSize u n (d :: ds) = match d.byteSize with
          | none => none
          | some s => totalSize u (if u then max n s else n + s) ds := by
        cases u with
        | true =>
          simp only [totalSize, if_true]
          rw [unionSize]
          cases d.byteSize <;> rfl
        | false =>
          simp only [totalSize, Bool.false_eq_true, if_false]
          rw [structSize.eq_def]
          simp only
          split
          · exact absurd ⟨rfl, _, _, rfl⟩ hp
          · rfl
      rw [hloop, htot]
      generalize step K m = p at h1 h2 h3 h4
      rcases p with ⟨r, L⟩
      simp only at h1 h2 h3 h4
      subst h1
      have hl := h2.known hk
      have gl := g.trans h2
      have hLr : L.Right rank (rank i) := h3 _ hr hmr
      have hlf : ∀ j : Nat, j ≠ i → rank i ≤ rank j → L[j]? = H[j]? := fun j hj hrj => by
        rw [h4 j (fun e => by rw [e] at hrj; omega) (by omega)]
        exact hfar j hj hrj
      cases hb : d.byteSize with
      | none =>
        simp only
        refine ⟨_, rfl, gl.setCache hi hl _, hLr.setCache s rk gl hi hl _, ?_, ?_⟩
        · rw [Heap.setCache_get hl, if_pos rfl]
        · intro j hj hrj
          rw [Heap.setCache_get hl, if_neg hj]
          exact hlf j hj hrj
      | some sz =>
        simp only
        rw [Heap.cache_get hl]
        exact again L n _ gl hLr hl hlf

/-- GetByteSize of objects without cycles. -/
theorem Heap.size_right {rank : Nat → Nat} (fuel : Nat) (H : Heap) (i : Nat) (d : Defn) (s : H.Sound)
    (rk : H.Ranked rank) (hi : i < H.length) (hr : H.Right rank (rank i + 1)) (hu : Unfolds H i d)
    (hf : H.countP Obj.isOpen * (H.length + 1) + i + 1 ≤ fuel) :
    Heap.Does rank i d H (Heap.size fuel H i) := by
  induction fuel generalizing H i d with
  | zero => omega
  | succ fuel ih =>
    unfold Heap.size
    have hget := List.getElem?_eq_getElem hi
    have hs := s i _ hget
    have hrk := rk i _ hget
    rw [hget]
    generalize H[i] = o at hget hs hrk
    cases o with
    | plain d' =>
      cases hu with
      | plain h => rw [hget] at h; cases h; exact ⟨rfl, .same, fun _ h _ => h, fun _ _ _ => rfl⟩
      | elements h _ => rw [hget] at h; cases h
      | member h _ => rw [hget] at h; cases h
      | «structure» h _ => rw [hget] at h; cases h
      | union h _ => rw [hget] at h; cases h
    | elements h info e =>
      have he : e < i := by
        rcases hs.2 with ⟨_, _, _, _, k⟩ | k
        · cases k
        · exact k e (.head _)
      have hre := hrk e (.head _)
      cases hu with
      | plain h => rw [hget] at h; cases h
      | member h _ => rw [hget] at h; cases h
      | «structure» h _ => rw [hget] at h; cases h
      | union h _ => rw [hget] at h; cases h
      | @elements _ _ _ _ d hh hd =>
        rw [hget] at hh; cases hh
        simp only
        split
        · rename_i h1
          exact ⟨by simp [Defn.byteSize, h1], .same, fun _ h _ => h, fun _ _ _ => rfl⟩
        · rename_i h1
          split
          · rename_i h2
            obtain ⟨a1, a2, a3, a4⟩ := ih H e d s rk (by omega) (hr.le (by omega)) hd (by omega)
            generalize Heap.size fuel H e = p at a1 a2 a3 a4
            rcases p with ⟨r, K⟩
            simp only at a1 a2 a3 a4
            subst a1
            have rest : ∀ k, H.Right rank k → rank i < k → K.Right rank k := fun k hk hik =>
              a3 k hk (by omega)
            have far : ∀ j : Nat, j ≠ i → rank i ≤ rank j → K[j]? = H[j]? := fun j hj hrj =>
              a4 j (fun x => by rw [x] at hrj; omega) (by omega)
            cases hb : d.byteSize with
            | none => simp only; exact ⟨by simp [Defn.byteSize, h1, h2, hb], a2, rest, far⟩
            | some n => simp only; exact ⟨by simp [Defn.byteSize, h1, h2, hb], a2, rest, far⟩
          · rename_i h2
            exact ⟨by simp [Defn.byteSize, h1, h2], .same, fun _ h _ => h, fun _ _ _ => rfl⟩
    | member h t c dt vs =>
      have ht : t < i := by
        rcases hs.2 with ⟨_, _, _, _, k⟩ | k
        · cases k
        · exact k t (.head _)
      have hre := hrk t (.head _)
      cases hu with
      | plain h => rw [hget] at h; cases h
      | elements h _ => rw [hget] at h; cases h
      | «structure» h _ => rw [hget] at h; cases h
      | union h _ => rw [hget] at h; cases h
      | @member _ _ _ _ _ _ d hh hd =>
        rw [hget] at hh; cases hh
        simp only
        split
        · rename_i h1
          exact ⟨by simp [Defn.byteSize, h1], .same, fun _ h _ => h, fun _ _ _ => rfl⟩
        · rename_i h1
          obtain ⟨a1, a2, a3, a4⟩ := ih H t d s rk (by omega) (hr.le (by omega)) hd (by omega)
          exact ⟨by rw [a1]; simp [Defn.byteSize, h1], a2, fun k hk hik => a3 k hk (by omega),
            fun j hj hrj => a4 j (fun x => by rw [x] at hrj; omega) (by omega)⟩
    | record u h c ms =>
      cases c with
      | some n =>
        have := hr i u h n ms d (Nat.lt_succ_self _) hget hu
        exact ⟨by rw [this], .same, fun _ h _ => h, fun _ _ _ => rfl⟩
      | none =>
        have hall : ∃ ds, UnfoldsAll H ms ds ∧
            d.byteSize = if ms.isEmpty then none else totalSize u 0 ds := by
          cases hu with
          | plain h => rw [hget] at h; cases h
          | elements h _ => rw [hget] at h; cases h
          | member h _ => rw [hget] at h; cases h
          | @«structure» _ _ _ _ ds hh hd =>
            rw [hget] at hh; cases hh
            refine ⟨ds, hd, ?_⟩
            cases hd <;> simp [Defn.byteSize, totalSize]
          | @union _ _ _ _ ds hh hd =>
            rw [hget] at hh; cases hh
            refine ⟨ds, hd, ?_⟩
            cases hd <;> simp [Defn.byteSize, totalSize]
        obtain ⟨ds, hds, hsz⟩ := hall
        simp only
        by_cases hms : ms.isEmpty
        · rw [if_pos hms] at hsz ⊢
          exact ⟨by rw [hsz], .same, fun _ h _ => h, fun _ _ _ => rfl⟩
        · rw [if_neg hms] at hsz
          rw [if_neg hms]
          have g0 := Heap.Grows.same.setCache hget hget (some 0)
          obtain ⟨L, hL, gL, rL, iL, fL⟩ := Heap.loop_right (step := Heap.size fuel) s rk hget
            (by
              intro K m d' g hKr hm hmr ⟨n, hk⟩ hd'
              have hlt := g.count_lt hget rfl hk rfl
              refine ih K m d' (s.grows g) (rk.grows g) (by rw [g.1]; exact hm) (hKr.le (by omega))
                (hd'.shape g) ?_
              rw [g.1]
              have : (K.countP Obj.isOpen + 1) * (H.length + 1) ≤ H.countP Obj.isOpen * (H.length + 1) :=
                Nat.mul_le_mul_right _ hlt
              rw [Nat.add_mul] at this
              omega)
            ms ds (fun m hm => ⟨hs.1 m hm, hrk m hm⟩) hds _ g0
            ((hr.le (Nat.le_succ _)).setCache s rk .same hget hget _) 0
            (by rw [Heap.setCache_get hget, if_pos rfl])
            (by intro j hj _; rw [Heap.setCache_get hget, if_neg hj])
          rw [hL]
          refine ⟨by rw [hsz], gL, ?_, fL⟩
          intro k hk hik j v h' n ms' d' hj hgj huj
          have hlt : j < H.length := by
            rw [← gL.1]
            exact (List.getElem?_eq_some_iff.mp hgj).1
          have hujH := unfolds_back s rk gL hlt huj
          by_cases e : j = i
          · subst e
            rw [iL] at hgj
            injection hgj with hgj
            injection hgj with _ _ e3 _
            rw [hujH.unique hu, hsz, e3]
          · rcases Nat.lt_or_ge (rank j) (rank i) with hlt' | hge
            · exact rL j v h' n ms' d' hlt' hgj huj
            · rw [fL j e hge] at hgj
              exact hk j v h' n ms' d' hj hgj hujH

end Dtf
