import Verif.Props.Documents
/-!
# Property C98: leaving out an attribute means its default
-/
namespace Dtf

namespace Spec

/-- The defaults of attributes in docs/sources/Format-specification.md:63, 77-78,
100, 163. The default of the size of a UUID is left out, see `C98_uuid_refuted`. -/
inductive Default : String → String → Yaml → Prop
  | byteOrder {ty : String} (h : ty ∈ ["boolean", "character", "floating-point", "integer", "uuid",
      "structure", "union"]) : Default ty "byte_order" (.str "native")
  | size {ty : String} (h : ty ∈ ["boolean", "character", "floating-point", "integer"]) :
      Default ty "size" (.str "native")
  | units {ty : String} (h : ty ∈ ["boolean", "character", "floating-point", "integer", "uuid"]) :
      Default ty "units" (.str "bytes")
  | format : Default "integer" "format" (.str "signed")
  | falseValue : Default "boolean" "false_value" (.int 0)

/-- The definition holds the default of the attribute. -/
inductive HoldsDefault : String → Defn → Prop
  | byteOrder {x : Defn} (h : x.order? = some .native) : HoldsDefault "byte_order" x
  | size {h : Hdr} {p : PrimKind} {u : String} : HoldsDefault "size" (.prim h p .native u)
  | units {h : Hdr} {p : PrimKind} {s : Size} : HoldsDefault "units" (.prim h p s "bytes")
  | uuidUnits {h : Hdr} {s : Size} : HoldsDefault "units" (.uuid h s "bytes")
  | format {h : Hdr} {s : Size} {u : String} : HoldsDefault "format" (.prim h (.integer false) s u)
  | falseValue {h : Hdr} {s : Size} {u : String} {t : Option Int} :
      HoldsDefault "false_value" (.prim h (.boolean (some 0) t) s u)

/-- The document with one more attribute. -/
def withAttribute (es : List (Key × Yaml)) (k : String) (v : Yaml) : List (Key × Yaml) :=
  es.filter (fun e => e.1 != .str "attributes") ++
    [(.str "attributes", .map (attrsOf es ++ [(.str k, v)]))]

end Spec
open Spec

section
variable {es : List (Key × Yaml)} {k : String} {v : Yaml}

theorem with_other {n : String} (hn : n ≠ "attributes") (dflt : Yaml) :
    (Yaml.map (withAttribute es k v)).getD n dflt = (Yaml.map es).getD n dflt := by
  have : (withAttribute es k v).find? (·.1 == .str n) = es.find? (·.1 == .str n) := by
    unfold withAttribute
    rw [List.find?_append, List.find?_filter]
    have h1 : (fun a : Key × Yaml => (a.1 != .str "attributes") && (a.1 == .str n)) = fun a => a.1 == .str n := by
      funext a
      by_cases h : a.1 = .str n
      · simp [h, hn]
      · simp [h]
    simp only [Bool.decide_and, Bool.decide_eq_true] at h1 ⊢
    rw [h1]
    simp [Ne.symm hn]
  simp only [Yaml.getD, this]

theorem with_attributes : (Yaml.map (withAttribute es k v)).get "attributes" =
    .ok (.map (attrsOf es ++ [(.str k, v)])) := by
  have : (withAttribute es k v).find? (·.1 == .str "attributes") =
      some (.str "attributes", .map (attrsOf es ++ [(.str k, v)])) := by
    unfold withAttribute
    rw [List.find?_append, List.find?_filter]
    have h1 : (fun a : Key × Yaml => (a.1 != .str "attributes") && (a.1 == .str "attributes")) = fun _ => false := by
      funext a
      by_cases h : a.1 = .str "attributes" <;> simp [h]
    simp only [Bool.decide_and, Bool.decide_eq_true] at h1 ⊢
    rw [h1, show List.find? (fun _ => false) es = none by simp]
    simp
  simp only [Yaml.get, Yaml.getD, this]
  rfl

theorem with_checkKeys {sup : List String} (hs : "attributes" ∈ sup) :
    checkKeys sup (.map (withAttribute es k v)) = checkKeys sup (.map es) := by
  have : ((withAttribute es k v).map (·.1)).filter (fun k => !(sup.any (k == .str ·))) =
      (es.map (·.1)).filter (fun k => !(sup.any (k == .str ·))) := by
    unfold withAttribute
    rw [List.map_append, List.filter_append]
    have h1 : ([((.str "attributes" : Key), Yaml.map (attrsOf es ++ [(.str k, v)]))].map (·.1)).filter
        (fun k => !(sup.any (k == .str ·))) = [] := by
      simp [hs]
    rw [h1, List.append_nil]
    clear h1
    induction es with
    | nil => rfl
    | cons e es ih =>
      by_cases h : e.1 = .str "attributes"
      · simp [h, hs]
        simpa using ih
      · rw [List.filter_cons_of_pos (by simpa using h), List.map_cons, List.map_cons,
          List.filter_cons, List.filter_cons]
        rw [ih]
  simp only [checkKeys, Yaml.keys, this]

/-- One more attribute with its default. -/
theorem more_getD {as : List (Key × Yaml)} {n : String} {dflt : Yaml} (hk : ∀ e ∈ as, e.1 ≠ .str k)
    (hd : n = k → dflt = v) :
    (Yaml.map (as ++ [(.str k, v)])).getD n dflt = (Yaml.map as).getD n dflt := by
  simp only [Yaml.getD, List.find?_append]
  by_cases hn : n = k
  · subst hn
    rw [show as.find? (·.1 == .str n) = none by
      rw [List.find?_eq_none]
      intro e he
      simpa using hk e he]
    simp [hd rfl]
  · simp [Ne.symm hn]

theorem more_checkKeys {as : List (Key × Yaml)} {sup : List String} (hs : k ∈ sup) :
    checkKeys sup (.map (as ++ [(.str k, v)])) = checkKeys sup (.map as) := by
  have : ((as ++ [((.str k : Key), v)]).map (·.1)).filter (fun k => !(sup.any (k == .str ·))) =
      (as.map (·.1)).filter (fun k => !(sup.any (k == .str ·))) := by
    rw [List.map_append, List.filter_append]
    simp [hs]
  simp only [checkKeys, Yaml.keys, this]

theorem with_readHdr {sup : List String} (hs : "attributes" ∈ sup) (name : String) :
    readHdr sup (.map (withAttribute es k v)) name = readHdr sup (.map es) name := by
  simp only [readHdr, with_checkKeys hs, Yaml.get,
    with_other (show "aliases" ≠ "attributes" by decide),
    with_other (show "description" ≠ "attributes" by decide)]

/-- The attributes are missing or a mapping. -/
theorem attributes_cases (ha : NoValue (entry es "attributes") ∨ ∃ as, entry es "attributes" = .map as) :
    (∃ a, (Yaml.map es).get "attributes" = .ok a ∧ a.truthy = false ∧ attrsOf es = []) ∨
      (∃ as, (Yaml.map es).get "attributes" = .ok (.map as) ∧ (Yaml.map as).truthy = true ∧
        attrsOf es = as) := by
  have key : ∀ {y}, entry es "attributes" = y → y.truthy = false →
      (∃ a, (Yaml.map es).get "attributes" = .ok a ∧ a.truthy = false ∧ attrsOf es = []) := by
    intro y hy ht
    refine ⟨y, by rw [get_map, hy], ht, ?_⟩
    unfold attrsOf
    rw [hy]
    cases y <;> simp_all [Yaml.truthy]
  rcases ha with h | ⟨as, h⟩
  · exact .inl (key rfl (noValue_iff.mp h))
  · cases ht : (Yaml.map as).truthy with
    | false => exact .inl (key h ht)
    | true => exact .inr ⟨as, by rw [get_map, h], ht, by unfold attrsOf; rw [h]⟩

theorem more_truthy {as : List (Key × Yaml)} : (Yaml.map (as ++ [(.str k, v)])).truthy = true := by
  cases as <;> rfl

theorem with_readAttrs {sup : List String} (hs : k ∈ sup) (hk : ∀ e ∈ attrsOf es, e.1 ≠ .str k)
    (hd : k = "byte_order" → v = .str "native")
    (ha : NoValue (entry es "attributes") ∨ ∃ as, entry es "attributes" = .map as) :
    (readAttrs sup (.map (withAttribute es k v))).map (·.getD .native) =
      (readAttrs sup (.map es)).map (·.getD .native) := by
  have ho : ∀ as : List (Key × Yaml), (∀ e ∈ as, e.1 ≠ .str k) →
      readOrder (.map (as ++ [(.str k, v)])) = readOrder (.map as) := by
    intro as hk
    simp only [readOrder, more_getD hk (fun h => (hd h.symm).symm)]
  unfold readAttrs
  rw [with_attributes]
  rcases attributes_cases ha with ⟨a, h1, h2, h3⟩ | ⟨as, h1, h2, h3⟩
  · rw [h1, h3]
    have : checkKeys sup (.map ([] ++ [((.str k : Key), v)])) = .ok () := by
      rw [more_checkKeys hs]; rfl
    simp only [bind, Except.bind, more_truthy, if_true, h2, Bool.false_eq_true, if_false, this,
      ho [] nofun]
    rfl
  · rw [h1, h3]
    rw [h3] at hk
    simp only [bind, Except.bind, more_truthy, if_true, h2, more_checkKeys hs, ho as hk]

theorem with_readStorage {sup : List String} (hs : k ∈ sup) (hk : ∀ e ∈ attrsOf es, e.1 ≠ .str k)
    (hd : k = "byte_order" → v = .str "native")
    (ha : NoValue (entry es "attributes") ∨ ∃ as, entry es "attributes" = .map as) (name : String) :
    readStorage sup false (.map (withAttribute es k v)) name = readStorage sup false (.map es) name := by
  have h1 := with_readAttrs hs hk hd ha
  have h2 := with_readHdr (es := es) (k := k) (v := v) (sup := valuesStorage) (by decide) name
  unfold readStorage
  simp only [Bool.false_eq_true, if_false]
  rw [h2]
  generalize readAttrs sup (.map (withAttribute es k v)) = p at h1 ⊢
  generalize readAttrs sup (.map es) = q at h1 ⊢
  generalize readHdr valuesStorage (.map es) name = r
  cases r <;> cases p <;> cases q <;> simp_all [bind, Except.bind, Except.map]

theorem with_readFixed {E : Env} {sup : List String} {dflt : Yaml} {init : Size} {sizes : List Nat}
    (hs : k ∈ sup) (hk : ∀ e ∈ attrsOf es, e.1 ≠ .str k)
    (ho : k = "byte_order" → v = .str "native") (hz : k = "size" → v = dflt)
    (hu : k = "units" → v = .str "bytes") (hi : readSize E sizes dflt = .ok init)
    (ha : NoValue (entry es "attributes") ∨ ∃ as, entry es "attributes" = .map as) (name : String) :
    readFixed E sup dflt init sizes false (.map (withAttribute es k v)) name =
      readFixed E sup dflt init sizes false (.map es) name := by
  unfold readFixed
  rw [with_readStorage hs hk ho ha, with_attributes]
  rcases attributes_cases ha with ⟨a, h1, h2, h3⟩ | ⟨as, h1, h2, h3⟩
  · rw [h1, h3]
    generalize readStorage sup false (.map es) name = r
    cases r with
    | error x => rfl
    | ok h =>
      simp only [bind, Except.bind, more_truthy, if_true, h2, Bool.false_eq_true, if_false,
        more_getD (as := []) nofun (fun h => (hz h.symm).symm),
        more_getD (as := []) nofun (fun h => (hu h.symm).symm)]
      simp only [Yaml.getD, List.find?_nil, Option.map_none, Option.getD_none, hi]
      rfl
  · rw [h1, h3]
    rw [h3] at hk
    simp only [bind, Except.bind, more_truthy, if_true, h2,
      more_getD hk (fun h => (hz h.symm).symm), more_getD hk (fun h => (hu h.symm).symm)]

theorem with_readInteger {E : Env} (hs : k ∈ attrsInteger) (hk : ∀ e ∈ attrsOf es, e.1 ≠ .str k)
    (ho : k = "byte_order" → v = .str "native") (hz : k = "size" → v = .str "native")
    (hu : k = "units" → v = .str "bytes") (hf : k = "format" → v = .str "signed")
    (ha : NoValue (entry es "attributes") ∨ ∃ as, entry es "attributes" = .map as) (name : String) :
    readInteger E false (.map (withAttribute es k v)) name = readInteger E false (.map es) name := by
  unfold readInteger
  rw [with_readFixed hs hk ho hz hu rfl ha, with_attributes]
  have hg : ∀ as : List (Key × Yaml), (∀ e ∈ as, e.1 ≠ .str k) →
      readSignedness (.map (as ++ [(.str k, v)])) = readSignedness (.map as) := by
    intro as hk
    simp only [readSignedness, more_getD hk (fun h => (hf h.symm).symm)]
  rcases attributes_cases ha with ⟨a, h1, h2, h3⟩ | ⟨as, h1, h2, h3⟩
  · rw [h1, h3]
    generalize readFixed E _ _ _ _ false (.map es) name = r
    cases r with
    | error x => rfl
    | ok h =>
      simp only [bind, Except.bind, more_truthy, if_true, h2, Bool.false_eq_true, if_false, hg [] nofun]
      rfl
  · rw [h1, h3]
    rw [h3] at hk
    simp only [bind, Except.bind, more_truthy, if_true, h2, hg as hk]

theorem with_readWithMembers {rm : Yaml → Except Err Defn} {un : Bool} (hs : k ∈ attrsStorage)
    (hk : ∀ e ∈ attrsOf es, e.1 ≠ .str k) (hd : k = "byte_order" → v = .str "native")
    (ha : NoValue (entry es "attributes") ∨ ∃ as, entry es "attributes" = .map as) (name : String) :
    readWithMembers rm un (.map (withAttribute es k v)) name = readWithMembers rm un (.map es) name := by
  have h1 := with_readAttrs hs hk hd ha
  have h2 := with_readHdr (es := es) (k := k) (v := v) (sup := valuesWithMembers) (by decide) name
  unfold readWithMembers
  simp only [Yaml.get, with_other (show "members" ≠ "attributes" by decide)]
  rw [h2]
  generalize readAttrs attrsStorage (.map (withAttribute es k v)) = p at h1 ⊢
  generalize readAttrs attrsStorage (.map es) = q at h1 ⊢
  cases p <;> cases q <;> simp_all [bind, Except.bind, Except.map]

end

/-- The document with one more attribute that has its default is read the same,
also when it is in error. -/
theorem default_same {E : Env} {reg : Registry} {es : List (Key × Yaml)} {ty k : String} {v : Yaml}
    (hty : entry es "type" = .str ty) (hd : Default ty k v)
    (ha : NoValue (entry es "attributes") ∨ ∃ as, entry es "attributes" = .map as)
    (hk : ∀ e ∈ attrsOf es, e.1 ≠ .str k) :
    readDefinition E reg (.map (withAttribute es k v)) = readDefinition E reg (.map es) := by
  have ht : (Yaml.map es).truthy = true := by
    cases es with
    | nil => cases hty
    | cons e es => rfl
  have ht' : (Yaml.map (withAttribute es k v)).truthy = true := by
    unfold withAttribute
    exact more_truthy
  have key : ∀ t nm, TypeInd.ofString ty = some t →
      readTyped E reg (readMember E reg (Yaml.map (withAttribute es k v)).depth) t false
          (.map (withAttribute es k v)) nm =
        readTyped E reg (readMember E reg (Yaml.map es).depth) t false (.map es) nm := by
    intro t nm hto
    rw [readDefinition_fuel E reg (.map es) _ (Nat.le_max_left _ (Yaml.map (withAttribute es k v)).depth),
      readDefinition_fuel E reg (.map (withAttribute es k v)) _ (Nat.le_max_right (Yaml.map es).depth _)]
    cases hd with
    | byteOrder h =>
      simp only [List.mem_cons, List.not_mem_nil, or_false] at h
      rcases h with rfl | rfl | rfl | rfl | rfl | rfl | rfl <;> cases hto <;>
        simp only [readTyped, readBoolean, readCharacter, readFloat, readUuid, Bool.false_eq_true, if_false]
      · rw [with_readFixed (by decide) hk (by simp) (by simp) (by simp) rfl ha]
      · rw [with_readFixed (by decide) hk (by simp) (by simp) (by simp) rfl ha]
      · rw [with_readFixed (by decide) hk (by simp) (by simp) (by simp) rfl ha]
      · rw [with_readInteger (by decide) hk (by simp) (by simp) (by simp) (by simp) ha]
      · rw [with_readFixed (by decide) hk (by simp) (by simp) (by simp) rfl ha]
      · rw [with_readWithMembers (by decide) hk (by simp) ha]
      · rw [with_readWithMembers (by decide) hk (by simp) ha]
    | size h =>
      simp only [List.mem_cons, List.not_mem_nil, or_false] at h
      rcases h with rfl | rfl | rfl | rfl <;> cases hto <;>
        simp only [readTyped, readBoolean, readCharacter, readFloat]
      · rw [with_readFixed (by decide) hk (by simp) (by simp) (by simp) rfl ha]
      · rw [with_readFixed (by decide) hk (by simp) (by simp) (by simp) rfl ha]
      · rw [with_readFixed (by decide) hk (by simp) (by simp) (by simp) rfl ha]
      · rw [with_readInteger (by decide) hk (by simp) (by simp) (by simp) (by simp) ha]
    | units h =>
      simp only [List.mem_cons, List.not_mem_nil, or_false] at h
      rcases h with rfl | rfl | rfl | rfl | rfl <;> cases hto <;>
        simp only [readTyped, readBoolean, readCharacter, readFloat, readUuid]
      · rw [with_readFixed (by decide) hk (by simp) (by simp) (by simp) rfl ha]
      · rw [with_readFixed (by decide) hk (by simp) (by simp) (by simp) rfl ha]
      · rw [with_readFixed (by decide) hk (by simp) (by simp) (by simp) rfl ha]
      · rw [with_readInteger (by decide) hk (by simp) (by simp) (by simp) (by simp) ha]
      · rw [with_readFixed (by decide) hk (by simp) (by simp) (by simp) rfl ha]
    | format =>
      cases hto
      simp only [readTyped]
      rw [with_readInteger (by decide) hk (by simp) (by simp) (by simp) (by simp) ha]
    | falseValue =>
      cases hto
      simp only [readTyped, readBoolean]
      rw [with_readFixed (by decide) hk (by simp) (by simp) (by simp) rfl ha]
  have hg : ∀ n, n ≠ "attributes" → (Yaml.map (withAttribute es k v)).get n = (Yaml.map es).get n :=
    fun n hn => with_other hn _
  unfold readDefinition
  rw [hg "name" (by decide), hg "type" (by decide)]
  simp only [ht, ht', get_map, hty, bind, Except.bind]
  cases hto : TypeInd.ofString ty with
  | none =>
    have : callback (.str ty) = .error .reader := by simp [callback, Yaml.hashable, hto]
    simp only [this]
  | some t =>
    have : callback (.str ty) = .ok t := by simp [callback, Yaml.hashable, hto]
    simp only [this, key t _ hto]

theorem left_out {as : List (Key × Yaml)} {k : String} {d : Yaml} (hk : ∀ e ∈ as, e.1 ≠ .str k) :
    entryD as k d = d := by
  unfold entryD
  rw [show as.find? (·.1 == .str k) = none by
    rw [List.find?_eq_none]
    intro e he
    simpa using hk e he]
  rfl

theorem holds_default {E : Env} {look : String → Option Defn} {rm : Bool → Yaml → Defn → Prop}
    {mem : Bool} {name : String} {es : List (Key × Yaml)} {ty k : String} {v : Yaml} {x : Defn}
    (hx : OfType E look rm mem name es ty x) (hd : Default ty k v)
    (hk : ∀ e ∈ attrsOf es, e.1 ≠ .str k) : HoldsDefault k x := by
  have order : ∀ {o : Order} {h : Hdr}, ByteOrder es o → Head es name o h → k = "byte_order" → h.order = .native := by
    rintro o h ho hh rfl
    rw [hh.order]
    unfold ByteOrder at ho
    rw [left_out hk] at ho
    cases o <;> simp [orderText] at ho ⊢
  cases hd with
  | byteOrder h =>
    refine .byteOrder ?_
    cases hx with
    | primitive ha ho hh hp hs hu => exact congrArg some (order ho hh rfl)
    | uuid ha ho hh hs hu => exact congrArg some (order ho hh rfl)
    | «structure» hm ha ho hh ht hi hl hdd => exact congrArg some (order ho hh rfl)
    | union ha ho hh ht hi hl hdd => exact congrArg some (order ho hh rfl)
    | _ => simp at h
  | size h =>
    cases hx with
    | primitive ha ho hh hp hs hu =>
      unfold HasSize at hs
      rw [left_out hk] at hs
      rcases hs with ⟨-, rfl⟩ | ⟨n, -, h, -⟩
      · exact .size
      · cases h
    | _ => simp at h
  | units h =>
    cases hx with
    | primitive ha ho hh hp hs hu =>
      unfold Units at hu
      rw [left_out hk] at hu
      cases hu
      exact .units
    | uuid ha ho hh hs hu =>
      unfold Units at hu
      rw [left_out hk] at hu
      cases hu
      exact .uuidUnits
    | _ => simp at h
  | format =>
    generalize hT : "integer" = T at hx
    cases hx with
    | primitive ha ho hh hp hs hu =>
      cases hp with
      | @integer u h =>
        rw [left_out hk] at h
        cases u with
        | true => simp [signText] at h
        | false => exact .format
      | _ => simp at hT
    | _ => simp at hT
  | falseValue =>
    generalize hT : "boolean" = T at hx
    cases hx with
    | primitive ha ho hh hp hs hu =>
      cases hp with
      | boolean => exact .falseValue
      | _ => simp at hT
    | _ => simp at hT

/-- **C98**: an attribute with a documented default means the same when it is left
out and when it is given with the default. Missing: the size of UUIDs and the byte
order of formats, see below. -/
theorem C98_default_partial (E : Env) (reg : Registry) (es : List (Key × Yaml)) (ty k : String) (v : Yaml)
    (hty : entry es "type" = .str ty) (hd : Default ty k v)
    (ha : NoValue (entry es "attributes") ∨ ∃ as, entry es "attributes" = .map as)
    (hk : ∀ e ∈ attrsOf es, e.1 ≠ .str k) :
    readDefinition E reg (.map (withAttribute es k v)) = readDefinition E reg (.map es) :=
  default_same hty hd ha hk

/-- A document of an integer without attributes, and the same with the default of
its size; with another size it is another definition. -/
def exBare : List (Key × Yaml) := [(.str "name", .str "n"), (.str "type", .str "integer")]

example : entry exBare "type" = .str "integer" ∧ Default "integer" "size" (.str "native") ∧
    (NoValue (entry exBare "attributes") ∨ ∃ as, entry exBare "attributes" = .map as) ∧
    (∀ e ∈ attrsOf exBare, e.1 ≠ .str "size") ∧
    withAttribute exBare "size" (.str "native") =
      exBare ++ [(.str "attributes", .map [(.str "size", .str "native")])] ∧
    readDefinition exEnvR {} (.map exBare) = .ok (.prim { name := "n" } (.integer false) .native "bytes") ∧
    readDefinition exEnvR {} (.map (withAttribute exBare "size" (.int 4))) =
      .ok (.prim { name := "n" } (.integer false) (.bytes 4) "bytes") :=
  ⟨rfl, .size (by decide), .inl .null, nofun, rfl, rfl, rfl⟩

/-- **C98**: the definition read from a document that leaves the attribute out
holds the default. Missing: as above. -/
theorem C98_holds_partial (E : Env) (reg : Registry) (es : List (Key × Yaml)) (ty k : String) (v : Yaml) (x : Defn)
    (hty : entry es "type" = .str ty) (hd : Default ty k v) (hk : ∀ e ∈ attrsOf es, e.1 ≠ .str k)
    (hx : readDefinition E reg (.map es) = .ok x) : HoldsDefault k x := by
  obtain ⟨es', name, ty', he, -, -, hty', -, h⟩ := (C54_document E reg _ x).mp hx
  cases he
  rw [hty] at hty'
  cases hty'
  exact holds_default h hd hk

/-- An integer without byte order. -/
example : HoldsDefault "byte_order" exU8r :=
  C98_holds_partial exEnvR {} _ "integer" "byte_order" (.str "native") exU8r rfl (.byteOrder (by decide))
    (by decide) (show readDefinition exEnvR {} docU8 = .ok exU8r from rfl)

/-- The document of a UUID. -/
def exUuidDoc : List (Key × Yaml) := [(.str "name", .str "guid"), (.str "type", .str "uuid"),
  (.str "attributes", .map [(.str "byte_order", .str "little-endian")])]

/-- The definition of a UUID of the given size. -/
def exUuidDefn (s : Size) : Defn := .uuid { name := "guid", order := .little } s "bytes"

/-- The specification says that the size is native by default
(docs/sources/Format-specification.md:77). For a UUID that is not so: without size
it has 16 bytes and is mapped, with the size `native` it has no size and never is. -/
theorem C98_uuid_refuted :
    readDefinition exEnvR {} (.map exUuidDoc) = .ok (exUuidDefn (.bytes 16)) ∧
    readDefinition exEnvR {} (.map (withAttribute exUuidDoc "size" (.str "native"))) =
      .ok (exUuidDefn .native) ∧
    (∀ (m : DMap) (bs : Bytes) (v : Val), createMap exEnvR (exUuidDefn .native) = .ok m →
      (mapStream exEnvR m bs 0 0 {}).1 ≠ .ok v) ∧
    ∃ m v, createMap exEnvR (exUuidDefn (.bytes 16)) = .ok m ∧
      (mapStream exEnvR m (List.replicate 16 0) 0 0 {}).1 = .ok v := by
  refine ⟨rfl, rfl, ?_, _, _, rfl, rfl⟩
  intro m bs v hm
  cases hm
  intro h
  cases h

/-- The specification says that the byte order of a format is native by default
(docs/sources/Format-specification.md:495). A format without attributes has no
byte order at all. -/
theorem C98_format_refuted :
    let es : List (Key × Yaml) := [(.str "name", .str "f"), (.str "type", .str "format")]
    readDefinition exEnvR {} (.map es) = .ok (.format { name := "f" } none []) ∧
    readDefinition exEnvR {} (.map (withAttribute es "byte_order" (.str "native"))) =
      .ok (.format { name := "f" } (some .native) []) ∧
    (Defn.format { name := "f" } none []).order? = none :=
  ⟨rfl, rfl, rfl⟩

end Dtf
