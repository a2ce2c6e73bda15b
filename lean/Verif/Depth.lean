import Verif.Every
import Verif.ParseFacts
/-!
The recursion limit of MapByteStream: a parser without the limit, and levels of
nesting.
-/
namespace Dtf

mutual
/-- `parse` without the recursion limit of dtfabric/runtime/data_maps.py:996-999 and
1713-1716. -/
def parseFree (E : Env) (m : DMap) (bs : Bytes) (off : Nat) (ns : Namespace) : PRes :=
  match m with
  | .missing => .error .attribute
  | .prim h k s u => primParse E h k s u bs off
  | .uuid h s u => uuidParse h s u bs off
  | .padding _ a => paddingParse a bs off
  | .seq h info ei bsz e =>
    match info.kind with
    | .stream =>
      match streamParse E info ei bs off ns with
      | .error x => .error x
      | .ok (b, n) => .ok (.bytes b, n)
    | .string enc => stringParse E enc info ei bs off ns
    | .sequence =>
      if seqLinear info ei then linearSeqParse E bsz (DMap.seq h info ei bsz e).op e bs off
      else
        match (seqRules E info ei ns).1 with
        | .error x => .error x
        | .ok (dataSize, term, num) =>
          match seqParse (fun off => parseFree E e bs off []) bs.length num dataSize term
              (seqFuel bs.length off num 0) off 0 0 .pyNone with
          | .error x => .error x
          | .ok (vs, n) => .ok (.tuple vs, n)
  | .struct h bsz linear instOk infos maps =>
    if linear then
      linearStructParse E h bsz (DMap.struct h bsz linear instOk infos maps).op instOk infos maps
        bs off
    else if !instOk then .error .type
    else if infos.length = 0 then .error .tooSmall
    else
      match parseFreeMembers E h.name bs ns infos maps off 0
          (newInstance (infos.map (·.name))) with
      | .error e => .error e
      | .ok (attrs, n) => .ok (.struct h.name attrs, n)
  | .constant _ | .enumeration _ _ | .format _ _ => .error .mapping
  | .group _ ident base dflt keys maps =>
    match parseFree E base bs off [] with
    | .error e => .error (wrapErr e)
    | .ok (v, _) =>
      match getAttr v ident with
      | .pyNone => .error .mapping
      | id =>
        match groupIndex keys id with
        | some i =>
          if groupMapMissing maps[i]? then .error .mapping
          else
            match parseFreeNth E maps i bs off with
            | .error e => .error (wrapErr e)
            | .ok r => .ok r
        | none =>
          if groupMapMissing dflt then .error .mapping
          else
            match parseFreeOpt E dflt bs off with
            | .error e => .error (wrapErr e)
            | .ok r => .ok r
termination_by structural m
def parseFreeNth (E : Env) (ms : List DMap) (i : Nat) (bs : Bytes) (off : Nat) : PRes :=
  match ms with
  | [] => .error .attribute
  | m :: ms =>
    match i with
    | 0 => parseFree E m bs off []
    | i + 1 => parseFreeNth E ms i bs off
termination_by structural ms
def parseFreeOpt (E : Env) (m : Option DMap) (bs : Bytes) (off : Nat) : PRes :=
  match m with
  | none => .error .attribute
  | some m => parseFree E m bs off []
termination_by structural m
def parseFreeMembers (E : Env) (cls : String) (bs : Bytes) (outer : Namespace)
    (infos : List MemInfo) (maps : List DMap) (off used : Nat) (attrs : List (String × Val)) :
    Except Err (List (String × Val) × Nat) :=
  match maps with
  | [] => .ok (attrs, used)
  | m :: maps =>
    match infos with
    | [] => .ok (attrs, used)
    | info :: infos =>
      let ns := structNs cls attrs outer
      match evalCondition E info ns with
      | .error e => .error e
      | .ok false => parseFreeMembers E cls bs outer infos maps off used attrs
      | .ok true =>
        match parseFree E m bs off ns with
        | .error e => .error (wrapErr e)
        | .ok (v, n) =>
          if !valueOk info v then .error .mapping
          else
            parseFreeMembers E cls bs outer infos maps (off + n) (used + n)
              (setAttr attrs info.name v)
termination_by structural maps
end

mutual
/-- Levels of nested structures and sequences. -/
def Defn.levels : Defn → Nat
  | .seq _ _ e => e.levels + 1
  | .struct _ ms => levelsList ms + 1
  | .member _ d _ _ _ => d.levels
  | .group _ base _ dflt ms => max base.levels (max (levelsOpt dflt) (levelsList ms))
  | _ => 0
termination_by structural d => d
def levelsList : List Defn → Nat
  | [] => 0
  | d :: ds => max d.levels (levelsList ds)
termination_by structural ds => ds
def levelsOpt : Option Defn → Nat
  | none => 0
  | some d => d.levels
termination_by structural d => d
end

mutual
/-- `m` has at most `n` levels of nested structures and sequences. -/
def DMap.levels : DMap → Nat
  | .seq _ _ _ _ e => e.levels + 1
  | .struct _ _ _ _ _ ms => levelsMaps ms + 1
  | .group _ _ base dflt _ ms => max base.levels (max (levelsOptMap dflt) (levelsMaps ms))
  | _ => 0
termination_by structural m => m
def levelsMaps : List DMap → Nat
  | [] => 0
  | d :: ds => max d.levels (levelsMaps ds)
termination_by structural ds => ds
def levelsOptMap : Option DMap → Nat
  | none => 0
  | some d => d.levels
termination_by structural d => d
end

theorem levelsList_le {ds : List Defn} {d : Defn} (h : d ∈ ds) : d.levels ≤ levelsList ds := by
  induction ds with
  | nil => cases h
  | cons a ds ih =>
    simp only [List.mem_cons] at h
    simp only [levelsList]
    rcases h with rfl | h
    · omega
    · have := ih h; omega

theorem levelsMaps_le_of {ms : List DMap} {n : Nat} (h : ∀ m ∈ ms, m.levels ≤ n) : levelsMaps ms ≤ n := by
  induction ms with
  | nil => simp [levelsMaps]
  | cons a ms ih =>
    simp only [levelsMaps]
    have := h a List.mem_cons_self
    have := ih fun m hm => h m (List.mem_cons_of_mem _ hm)
    omega

theorem levelsMaps_mem {ms : List DMap} {m : DMap} (h : m ∈ ms) : m.levels ≤ levelsMaps ms := by
  induction ms with
  | nil => cases h
  | cons a ms ih =>
    simp only [List.mem_cons] at h
    simp only [levelsMaps]
    rcases h with rfl | h
    · omega
    · have := ih h; omega

theorem Defn.levels_target (d : Defn) : d.target.levels = d.levels := by
  cases d <;> rfl

theorem levels_createAs {E : Env} (d : Defn) :
    ∀ nm o m, createAs E nm o d = .ok m → m.levels ≤ d.levels := by
  suffices h : (∀ nm o m, createAs E nm o d = .ok m → m.levels ≤ d.levels) ∧
      (∀ nm o m, createAs E nm o d.target = .ok m → m.levels ≤ d.target.levels) from h.1
  induction d using Defn.ind with
  | seq h i e ih =>
    refine ⟨?a, ?a⟩
    intro nm o m hm
    obtain ⟨n, eo, em, he, -, rfl, -⟩ := createAs_seq hm
    have := ih.1 _ _ _ he
    simp only [DMap.levels, Defn.levels]
    omega
  | struct h ms ih =>
    refine ⟨?b, ?b⟩
    intro nm o m hm
    obtain ⟨io, infos, maps, l, -, hmem, -, rfl, -⟩ := createAs_struct hm
    simp only [DMap.levels, Defn.levels]
    have := (createMembers_all E nm o (·.levels ≤ levelsList ms) ms ?_ [] (by simp) infos maps hmem).2.2
    · have := levelsMaps_le_of this
      omega
    intro d hdm n o' m' hm'
    have h1 := (ih d hdm).2 _ _ _ hm'
    have h2 := levelsList_le hdm
    rw [Defn.levels_target] at h1
    omega
  | group h base ident dflt ms ih1 ih2 ih3 =>
    refine ⟨?c, ?c⟩
    intro nm o m hm
    obtain ⟨dm, bm, keys, maps, hdm, hbm, -, hg, rfl⟩ := createAs_group hm
    simp only [DMap.levels, Defn.levels]
    have h1 := ih1.1 _ _ _ hbm
    have h2 : levelsOptMap dm ≤ levelsOpt dflt := by
      cases dflt with
      | none =>
        simp only [createOpt, Except.ok.injEq] at hdm
        subst hdm
        simp [levelsOptMap]
      | some d =>
        simp only [createOpt] at hdm
        split at hdm
        · cases hdm
        · rename_i hx
          cases hdm
          exact (ih2 d rfl).1 _ _ _ hx
    have h3 := levelsMaps_le_of (createGroup_all E ident (·.levels ≤ levelsList ms) ms (by
      intro d hdm n o' m' hm'
      have := (ih3 d hdm).1 _ _ _ hm'
      have := levelsList_le hdm
      omega) _ _ _ hg)
    omega
  | member h d c dt vs ih =>
    refine ⟨?_, ih.1⟩
    intro nm o m hm
    simp only [createAs, Except.ok.injEq] at hm
    subst hm
    simp [DMap.levels]
  | prim h k s u =>
    refine ⟨?d, ?d⟩
    intro nm o m hm
    simp only [createAs] at hm
    split at hm
    · cases hm
    · cases hm; simp [DMap.levels]
  | _ =>
    refine and_self_iff.mpr ?_
    intro nm o m hm
    simp only [createAs, Except.ok.injEq] at hm
    subst hm
    simp [DMap.levels]

theorem parseMembers_free (E : Env) (cls : String) (bs : Bytes) (depth : Nat) (outer : Namespace)
    (maps : List DMap)
    (ih : ∀ m ∈ maps, ∀ off ns, parse E m bs off (depth + 1) ns = parseFree E m bs off ns)
    (infos : List MemInfo) (off used : Nat) (attrs : List (String × Val)) :
    parseMembers E cls bs depth outer infos maps off used attrs =
      parseFreeMembers E cls bs outer infos maps off used attrs := by
  induction maps generalizing infos off used attrs with
  | nil => simp [parseMembers, parseFreeMembers]
  | cons m maps ihm =>
    cases infos with
    | nil => simp [parseMembers, parseFreeMembers]
    | cons info infos =>
      have ih' := ihm fun m hm => ih m (List.mem_cons_of_mem _ hm)
      simp only [parseMembers, parseFreeMembers, ih m List.mem_cons_self, ih']
      rfl

theorem parseNth_free (E : Env) (bs : Bytes) (depth : Nat) (maps : List DMap)
    (ih : ∀ m ∈ maps, ∀ off ns, parse E m bs off depth ns = parseFree E m bs off ns) (i off : Nat) :
    parseNth E maps i bs off depth = parseFreeNth E maps i bs off := by
  induction maps generalizing i with
  | nil => simp [parseNth, parseFreeNth]
  | cons m maps ihm =>
    cases i with
    | zero => simp only [parseNth, parseFreeNth, ih m List.mem_cons_self]
    | succ i =>
      simp only [parseNth, parseFreeNth]
      exact ihm (fun m hm => ih m (List.mem_cons_of_mem _ hm)) i

/-- Within the limit the limit has no effect. -/
theorem parse_free (E : Env) (m : DMap) (bs : Bytes) : ∀ depth, depth + m.levels ≤ 11 → ∀ off ns,
    parse E m bs off depth ns = parseFree E m bs off ns := by
  induction m using DMap.ind with
  | seq h info ei b e ih =>
    intro depth hd off ns
    simp only [DMap.levels] at hd
    simp only [parse, parseFree]
    have hstep : (fun off => parse E e bs off (depth + 1) []) = fun off => parseFree E e bs off [] := by
      funext p
      exact ih (depth + 1) (by omega) p []
    rw [hstep]
    simp only [compositeSeqParse, if_neg (show ¬ depth > 10 by omega)]
    rfl
  | struct h b l io infos maps ih =>
    intro depth hd off ns
    simp only [DMap.levels] at hd
    simp only [parse, parseFree, if_neg (show ¬ depth > 10 by omega)]
    rw [parseMembers_free E h.name bs depth ns maps (fun m hm off ns =>
      ih m hm (depth + 1) (by have := levelsMaps_mem hm; omega) off ns)]
    rfl
  | group h ident base dflt keys maps ih1 ih2 ih3 =>
    intro depth hd off ns
    simp only [DMap.levels] at hd
    simp only [parse, parseFree]
    rw [ih1 depth (by omega)]
    have h3 := fun i off => parseNth_free E bs depth maps (fun m hm off ns =>
      ih3 m hm depth (by have := levelsMaps_mem hm; omega) off ns) i off
    have h2 : ∀ off, parseOpt E dflt bs off depth = parseFreeOpt E dflt bs off := by
      intro off
      cases dflt with
      | none => rfl
      | some d =>
        simp only [parseOpt, parseFreeOpt]
        simp only [levelsOptMap] at hd
        exact ih2 d rfl depth (by omega) off []
    simp only [h2, h3]
    rfl
  | _ => intro depth hd off ns; simp [parse, parseFree]

end Dtf
