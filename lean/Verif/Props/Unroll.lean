import Verif.Props.Complete
import Verif.Props.Extract
/-!
# Property C89: a sequence is the structure of its elements

A sequence of as many elements as a structure has members, all of the type of the
elements, gives the values the structure gives.
-/
namespace Dtf

namespace Spec

/-- All of the members are of type `T`, without conditions and supported values. -/
def AllOf (T : Defn) (ms : List Defn) : Prop :=
  ∀ d ∈ ms, d.target = T ∧ d.memInfo.condition = none ∧ d.memInfo.values = none

/-- A structure and a sequence of byte order `o` hand on the same byte order to `T`:
structures hand it on to all types without one, sequences to scalars only. -/
def HandedOn (o : Order) (T : Defn) : Prop :=
  o = .native ∨ T.isComposite = false ∨ T.order? ≠ some .native

/-- The expressions of `T` do not use the names of the structure `cls` with the members `ms`
and of the context. -/
def SelfContained (E : Env) (T : Defn) (cls : String) (ms : List Defn) (outer : Namespace) : Prop :=
  ∀ x ∈ namesUsedBy T, ∀ read : List Val, Indifferent E (scope cls (ms.map Defn.name) read outer) [] x

/-- `T` can not be mapped from no bytes. -/
def NeedsBytes (E : Env) (T : Defn) : Prop :=
  ∀ nm o m, createAs E nm o T = .ok m → ∀ (bs : Bytes) (off depth : Nat) (c : Ctx), bs.length ≤ off → c.Clean →
    ∀ v, (mapStream E m bs off depth c).1 ≠ .ok v

end Spec
open Spec

theorem distinctTypes_allOf {T : Defn} {ms : List Defn} (h : AllOf T ms) (hn : T.name.toList.head? ≠ some '_') :
    DistinctTypes ms := by
  refine ⟨fun x hx y hy _ => by rw [(h x hx).1, (h y hy).1], fun x hx => by rw [(h x hx).1]; exact hn⟩

/-- The map of a member and the map of the elements give the same. -/
theorem member_element {E : Env} {cls : String} {so : Order} {T d : Defn} {m em : DMap} {en : String}
    (hd : d.target = T) (ho : HandedOn so T) (hm : MapOf E cls so d m)
    (hen : T.isComposite = true → en = T.name)
    (hem : createAs E en (elementOrder so T) T = .ok em) {ns : Namespace}
    (hi : ∀ x ∈ namesUsedBy T, Indifferent E ns [] x) (bs : Bytes) (p depth : Nat) (v : Val) (k : Nat) :
    ((mapStream E m bs p depth { values := ns }).1 = .ok v ∧
      (mapStream E m bs p depth { values := ns }).2.byteSize = some k) ↔
    ((mapStream E em bs p depth {}).1 = .ok v ∧ (mapStream E em bs p depth {}).2.byteSize = some k) := by
  obtain ⟨n, o, h1, h2⟩ := hm
  rw [hd] at h1 h2
  have hord : o = elementOrder so T ∧ (T.isComposite = true → n = T.name) := by
    unfold memberNameOrder at h1
    unfold HandedOn at ho
    unfold elementOrder
    cases so <;> cases hc : T.isComposite <;> rcases heo : T.order? with _ | eo <;>
      (try cases eo) <;> simp [Defn.orderOrNative, hc, heo] at h1 ho ⊢ <;> simp_all
  have hsame : SameMap m em := by
    rw [← hord.1] at hem
    by_cases hs : ∃ h ms, T = .struct h ms
    · have hc : T.isComposite = true := by obtain ⟨h, ms, rfl⟩ := hs; rfl
      rw [hord.2 hc] at h2
      rw [hen hc] at hem
      rw [h2] at hem
      cases hem
      exact SameMap.refl m
    · exact createAs_renamed T (fun h ms hT => hs ⟨h, ms, hT⟩) h2 hem
  rw [mapped_iff (c := { values := ns }) (Ctx.clean_fresh ns),
    ← mapStream_sameMap E hsame, mapped_iff (c := {}) (Ctx.clean_fresh [])]
  have := createAs_unmoved E T (namesUsedBy T) (fun _ h => h) n o m (.inl h2) bs p depth ns [] hi
  simp only [this]

theorem layout_of_readable {E : Env} {bs : Bytes} {depth : Nat} {outer : Namespace} {cls : String} {so : Order}
    {T : Defn} {em : DMap} {names : List String} {stop : Nat} {ms : List Defn} (hall : AllOf T ms)
    (hstep : ∀ d ∈ ms, ∀ m, MapOf E cls so d m → ∀ read p v k,
      ((mapStream E m bs p (depth + 1) { values := scope cls names read outer }).1 = .ok v ∧
        (mapStream E m bs p (depth + 1) { values := scope cls names read outer }).2.byteSize = some k) ↔
      ((mapStream E em bs p (depth + 1) {}).1 = .ok v ∧ (mapStream E em bs p (depth + 1) {}).2.byteSize = some k))
    (hmo : ∀ d ∈ ms, ∃ m, MapOf E cls so d m) {p e : Nat} {vs : List Val} (hl : vs.length = ms.length)
    (h : Readable E em bs (depth + 1) stop p vs e) (read : List Val) :
    Layout E bs depth outer cls so names read ms p (read ++ vs) e := by
  induction h generalizing ms read with
  | nil =>
    cases ms with
    | nil => simpa using Layout.done read _
    | cons => simp at hl
  | @cons p k e v vs hp hv hk t ih =>
    cases ms with
    | nil => simp at hl
    | cons d ms =>
      obtain ⟨m, hm⟩ := hmo d List.mem_cons_self
      obtain ⟨h1, h2⟩ := (hstep d List.mem_cons_self m hm read p v k).2 ⟨hv, hk⟩
      have := ih (fun d hd => hall d (List.mem_cons_of_mem _ hd))
        (fun d hd => hstep d (List.mem_cons_of_mem _ hd)) (fun d hd => hmo d (List.mem_cons_of_mem _ hd))
        (by simpa using hl) (read ++ [v])
      rw [List.append_assoc] at this
      refine .present (.always (.inl (hall d List.mem_cons_self).2.1)) hm h1 h2 ?_ this
      intro xs hx
      rw [(hall d List.mem_cons_self).2.2] at hx
      cases hx

theorem readable_of_layout {E : Env} {bs : Bytes} {depth : Nat} {outer : Namespace} {cls : String} {so : Order}
    {T : Defn} {em : DMap} {names : List String} {ms : List Defn} (hall : AllOf T ms)
    (hstep : ∀ d ∈ ms, ∀ m, MapOf E cls so d m → ∀ read p v k,
      ((mapStream E m bs p (depth + 1) { values := scope cls names read outer }).1 = .ok v ∧
        (mapStream E m bs p (depth + 1) { values := scope cls names read outer }).2.byteSize = some k) ↔
      ((mapStream E em bs p (depth + 1) {}).1 = .ok v ∧ (mapStream E em bs p (depth + 1) {}).2.byteSize = some k))
    (hneeds : ∀ p, bs.length ≤ p → ∀ v, (mapStream E em bs p (depth + 1) {}).1 ≠ .ok v)
    {p e : Nat} {read ws : List Val}
    (h : Layout E bs depth outer cls so names read ms p ws e) :
    ∃ vs, ws = read ++ vs ∧ vs.length = ms.length ∧ Readable E em bs (depth + 1) bs.length p vs e := by
  induction h with
  | done read p => exact ⟨[], by simp, rfl, .nil p⟩
  | @absent read vs d ms p e hc _ _ =>
    cases hc with
    | cond hc _ _ =>
      rw [(hall d List.mem_cons_self).2.1] at hc
      cases hc
  | @present read vs d ms p e k m v hc hm hv hk hs _ ih =>
    obtain ⟨h1, h2⟩ := (hstep d List.mem_cons_self m hm read p v k).1 ⟨hv, hk⟩
    obtain ⟨us, rfl, hl, hr⟩ := ih (fun d hd => hall d (List.mem_cons_of_mem _ hd))
      (fun d hd => hstep d (List.mem_cons_of_mem _ hd))
    refine ⟨v :: us, by simp, by simp [hl], .cons ?_ h1 h2 hr⟩
    exact Nat.lt_of_not_le fun hle => hneeds p hle v h1

theorem fill_zip (names : List String) (vs : List Val) (h : vs.length = names.length) :
    fill names vs = names.zip vs := by
  induction names generalizing vs with
  | nil => rfl
  | cons n ns ih =>
    cases vs with
    | nil => simp at h
    | cons v vs => simp [fill, ih vs (by simpa using h)]

/-- **C89** If a sequence can be mapped, so can the structure of as many members of the type of the
elements; the values of its attributes are the elements. -/
theorem C89_unrolled (E : Env) (nm snm : String) (o : Order) (h hs : Hdr) (info : SeqInfo) (T : Defn)
    (ms : List Defn) (hall : AllOf T ms) (ho : HandedOn o T) (hone : OneOrder E o ms)
    (hmem : ∀ h i c t v, T ≠ .member h i c t v) (hpriv : T.name.toList.head? ≠ some '_')
    (hnames : nm ≠ "super" ∧ ∀ d ∈ ms, d.name ≠ "super" ∧ d.name ≠ nm)
    (hk : info.kind = .sequence) (h1 : info.dataSize = none) (h2 : info.dataSizeExpr = none)
    (h3 : info.terminator = none) (m sm : DMap) (hm : createAs E nm o (.struct h ms) = .ok m)
    (hsm : createAs E snm o (.seq hs info T) = .ok sm)
    (bs : Bytes) (off depth : Nat) (hd : depth ≤ 10) (c : Ctx) (hc : c.Clean)
    (hself : SelfContained E T nm ms c.values)
    (hn : Amounts E info.numElements info.numElementsExpr c.values ms.length) (vs : List Val) (n : Nat)
    (hv : (mapStream E sm bs off depth c).1 = .ok (.tuple vs))
    (hb : (mapStream E sm bs off depth c).2.byteSize = some n) :
    vs.length = ms.length ∧
    (mapStream E m bs off depth c).1 = .ok (.struct nm ((ms.map Defn.name).zip vs)) ∧
    (mapStream E m bs off depth c).2.byteSize = some n := by
  obtain ⟨en, em, hen, hem, hiff⟩ := C85_number E snm o hs info hk T sm hsm hmem bs off depth hd c hc h1 h2 h3 _ hn
  obtain ⟨us, hus, hl, hr⟩ := (hiff _ n).1 ⟨hv, hb⟩
  cases hus
  obtain ⟨maps, io, hmo, hcls, hpi⟩ := struct_parse_iff (distinctTypes_allOf hall hpriv) hone hm
  have hL := layout_of_readable (names := ms.map Defn.name) (outer := c.values) (cls := nm) (so := o) hall
    (fun d hd m' hm' read p v k => member_element (hall d hd).1 ho hm' hen hem (fun x hx => hself x hx read) bs p _ v k)
    (fun d hd => all2_mem hmo hd) hl hr []
  obtain ⟨h4, h5⟩ := members_of_layout E nm o bs depth c.values _ ms maps hmo [] rfl (createClass_nodup hcls).1 [] rfl
    off 0 _ _ hL
  rw [fill_nil] at h5
  have hp := (hpi bs off depth c.values _ _).2 (createClass_inst hcls hnames) hd _ h5 rfl
  obtain ⟨h6, h7⟩ := mapStream_of_parse hc hp
  refine ⟨hl, ?_, ?_⟩
  · rw [h6]; simp [fill_zip _ _ (show vs.length = (ms.map Defn.name).length by simpa using hl)]
  · rw [h7]; congr 1; omega

/-- **C89** If the structure can be mapped and its members need bytes, so can the sequence. -/
theorem C89_rolled (E : Env) (nm snm : String) (o : Order) (h hs : Hdr) (info : SeqInfo) (T : Defn)
    (ms : List Defn) (hall : AllOf T ms) (ho : HandedOn o T) (hone : OneOrder E o ms)
    (hmem : ∀ h i c t v, T ≠ .member h i c t v) (hpriv : T.name.toList.head? ≠ some '_')
    (hk : info.kind = .sequence) (h1 : info.dataSize = none) (h2 : info.dataSizeExpr = none)
    (h3 : info.terminator = none) (m sm : DMap) (hm : createAs E nm o (.struct h ms) = .ok m)
    (hsm : createAs E snm o (.seq hs info T) = .ok sm) (hneeds : NeedsBytes E T)
    (bs : Bytes) (off depth : Nat) (hd : depth ≤ 10) (c : Ctx) (hc : c.Clean)
    (hself : SelfContained E T nm ms c.values)
    (hn : Amounts E info.numElements info.numElementsExpr c.values ms.length) (v : Val) (n : Nat)
    (hv : (mapStream E m bs off depth c).1 = .ok v)
    (hb : (mapStream E m bs off depth c).2.byteSize = some n) :
    ∃ vs, vs.length = ms.length ∧ v = .struct nm ((ms.map Defn.name).zip vs) ∧
      (mapStream E sm bs off depth c).1 = .ok (.tuple vs) ∧
      (mapStream E sm bs off depth c).2.byteSize = some n := by
  obtain ⟨en, em, hen, hem, hiff⟩ := C85_number E snm o hs info hk T sm hsm hmem bs off depth hd c hc h1 h2 h3 _ hn
  obtain ⟨maps, io, hmo, hcls, hpi⟩ := struct_parse_iff (distinctTypes_allOf hall hpriv) hone hm
  obtain ⟨-, attrs, hpm, rfl⟩ := (hpi bs off depth c.values v n).1 ((mapped_iff hc).1 ⟨hv, hb⟩)
  rw [← fill_nil] at hpm
  obtain ⟨ws, e, h4, h5, h6, h7⟩ := layout_of_members E nm o bs depth c.values _ ms maps hmo [] rfl
    (createClass_nodup hcls).1 [] rfl off 0 n attrs hpm
  obtain ⟨vs, hws, hl, hr⟩ := readable_of_layout hall
    (fun d hd m' hm' read p v k => member_element (hall d hd).1 ho hm' hen hem (fun x hx => hself x hx read) bs p _ v k)
    (fun p hp v => hneeds _ _ em hem bs p _ {} hp rfl v) h4
  rw [List.nil_append] at hws
  obtain rfl := hws.symm
  obtain rfl : e = off + n := by omega
  obtain ⟨h8, h9⟩ := (hiff (.tuple vs) n).2 ⟨vs, rfl, hl, hr⟩
  refine ⟨vs, hl, ?_, h8, h9⟩
  rw [h5, List.nil_append, fill_zip _ _ (by simpa using hl)]

/-- Types of a fixed size above zero need bytes. -/
theorem needsBytes_sized (E : Env) (T : Defn) (hT : T.Every Plain) (n : Int) (hn : T.byteSize = some n)
    (hpos : 0 < n) : NeedsBytes E T := by
  intro nm o m hm bs off depth c hle hc v hv
  have hx := (parse_exact E bs T hT n hn).2 _ _ m hm off depth c.values
  obtain ⟨k, hp, -⟩ := mapStream_ok hc hv
  rw [hp] at hx
  have := hx.2
  omega

/-- A point and the triangle of its corners, as a structure and as a sequence. -/
def exSpot : Defn := .struct { name := "point", order := .big } [
  .member { name := "x" } exU16 none (some "uint16") none, .member { name := "y" } exU16 none (some "uint16") none]
def exCorner (n : String) : Defn := .member { name := n } exSpot none (some "point") none
def exTriangle : Defn := .struct { name := "triangle", order := .little } [exCorner "a", exCorner "b", exCorner "c"]
def exCorners : Defn :=
  .seq { name := "corners", order := .little } { kind := .sequence, elementDataType := some "point", numElements := some 3 } exSpot

example : ∃ m sm, createMap exEnv exTriangle = .ok m ∧ createMap exEnv exCorners = .ok sm ∧
    AllOf exSpot [exCorner "a", exCorner "b", exCorner "c"] ∧ HandedOn .little exSpot ∧
    OneOrder exEnv .little [exCorner "a", exCorner "b", exCorner "c"] ∧ NeedsBytes exEnv exSpot ∧
    SelfContained exEnv exSpot "triangle" [exCorner "a", exCorner "b", exCorner "c"] [] ∧
    Amounts exEnv (some 3) none [] 3 ∧
    (mapStream exEnv sm [9, 1, 0, 0, 2, 3, 0, 0, 4, 5, 0, 0, 6] 1 0 {}).1 = .ok (.tuple [
      .struct "point" [("x", .int 1), ("y", .int 512)], .struct "point" [("x", .int 3), ("y", .int 1024)],
      .struct "point" [("x", .int 5), ("y", .int 1536)]]) ∧
    (mapStream exEnv m [9, 1, 0, 0, 2, 3, 0, 0, 4, 5, 0, 0, 6] 1 0 {}).1 = .ok (.struct "triangle" [
      ("a", .struct "point" [("x", .int 1), ("y", .int 512)]), ("b", .struct "point" [("x", .int 3), ("y", .int 1024)]),
      ("c", .struct "point" [("x", .int 5), ("y", .int 1536)])]) := by
  refine ⟨_, _, rfl, rfl, ?_, .inr (.inr (by exact nofun)), ?_, ?_, ?_, ?_, rfl, rfl⟩
  · intro d hd
    simp only [List.mem_cons, List.not_mem_nil, or_false] at hd
    rcases hd with rfl | rfl | rfl <;> exact ⟨rfl, rfl, rfl⟩
  · intro h
    exact absurd (h (exCorner "a") (by simp)).1 (by decide)
  · exact needsBytes_sized exEnv exSpot (by simp [Defn.Every, everyDefn, exSpot, exU16, Plain, DistinctTypes, Defn.target,
      Defn.name, Defn.hdr]) 4 rfl (by decide)
  · intro x hx
    simp [exSpot, namesUsedBy, namesUsedByAll, exU16] at hx
  · exact ⟨by decide, .inl ⟨rfl, by decide⟩⟩

/-- **C89** Why members need bytes: a structure of two empty sequences can be mapped from no bytes,
the sequence of them can not. -/
theorem C89_empty_refuted : ∃ (E : Env) (T : Defn) (ms : List Defn) (m sm : DMap), AllOf T ms ∧ ms.length = 2 ∧
    createMap E (.struct { name := "T" } ms) = .ok m ∧
    createMap E (.seq { name := "rows" } { kind := .sequence, elementDataType := some T.name, numElements := some 2 } T) =
      .ok sm ∧
    (mapStream E m [] 0 0 {}).1 = .ok (.struct "T" [("a", .tuple []), ("b", .tuple [])]) ∧
    (mapStream E sm [] 0 0 {}).1 = .error .tooSmall := by
  refine ⟨exHollowEnv,
    .seq { name := "row" } { kind := .sequence, elementDataType := some "uint8", numElementsExpr := some "0" } exU8,
    [.member { name := "a" } (.seq { name := "row" } { kind := .sequence, elementDataType := some "uint8", numElementsExpr := some "0" } exU8)
      none (some "row") none,
     .member { name := "b" } (.seq { name := "row" } { kind := .sequence, elementDataType := some "uint8", numElementsExpr := some "0" } exU8)
      none (some "row") none], _, _, ?_, rfl, rfl, rfl, rfl, rfl⟩
  intro d hd
  simp only [List.mem_cons, List.not_mem_nil, or_false] at hd
  rcases hd with rfl | rfl <;> exact ⟨rfl, rfl, rfl⟩

/-- A point without byte order. -/
def exBarePoint : Defn := .struct { name := "point" } [
  .member { name := "x" } (.prim { name := "uint16" } (.integer true) (.bytes 2) "bytes") none (some "uint16") none]

/-- **C89** Why the types have to be handed the same byte order: a big-endian structure hands it on to
structures within, a big-endian sequence does not. -/
theorem C89_order_refuted : ∃ (E : Env) (T : Defn) (ms : List Defn) (m sm : DMap), AllOf T ms ∧
    createMap E (.struct { name := "T", order := .big } ms) = .ok m ∧
    createMap E (.seq { name := "l", order := .big }
      { kind := .sequence, elementDataType := some T.name, numElements := some 1 } T) = .ok sm ∧
    (mapStream E m [1, 2] 0 0 {}).1 = .ok (.struct "T" [("a", .struct "_T_point" [("x", .int 0x0102)])]) ∧
    (mapStream E sm [1, 2] 0 0 {}).1 = .ok (.tuple [.struct "point" [("x", .int 0x0201)]]) := by
  refine ⟨exEnv, exBarePoint, [.member { name := "a" } exBarePoint none (some "point") none], _, _, ?_, rfl, rfl, ?_, rfl⟩
  · intro d hd
    simp only [List.mem_cons, List.not_mem_nil, or_false] at hd
    subst hd
    exact ⟨rfl, rfl, rfl⟩
  · rfl

end Dtf
