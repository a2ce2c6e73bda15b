import Verif.Props.ReaderKeys
import Verif.Props.Definitions
/-!
# Property C54: a definition holds what its document says
-/
namespace Dtf

namespace Spec

/-- What counts as no value: nothing, false, zero, and empty texts, lists and mappings. -/
inductive NoValue : Yaml → Prop
  | null : NoValue .null
  | false : NoValue (.bool false)
  | zero : NoValue (.int 0)
  | float {f : Nat} (h : fVal f = .fin 0) : NoValue (.float f)
  | str : NoValue (.str "")
  | bytes : NoValue (.bytes [])
  | list : NoValue (.list [])
  | map : NoValue (.map [])
  | other {h : Bool} {i : Nat} : NoValue (.other false h i)

/-- The items of a value: those of a list, the characters of a text, the numbers
of a byte string, the keys of a mapping. -/
inductive Items : Yaml → List Yaml → Prop
  | list {l : List Yaml} : Items (.list l) l
  | str {s : String} : Items (.str s) (s.toList.map fun c => .str (String.ofList [c]))
  | bytes {b : Bytes} : Items (.bytes b) (b.map fun x => .int x.toNat)
  | map {es : List (Key × Yaml)} {ks : List Yaml}
      (h : All2 (fun e k => (∃ s, e.1 = .str s ∧ k = .str s) ∨ ∃ i, e.1 = .other i ∧ k = .other true true i) es ks) :
      Items (.map es) ks

/-- The value kept for a value of a document. Lists and mappings are kept as a
value that is no dictionary key. -/
inductive Held : Yaml → Lit → Prop
  | null : Held .null .null
  | bool {b : Bool} : Held (.bool b) (.bool b)
  | int {i : Int} : Held (.int i) (.int i)
  | float {f : Nat} : Held (.float f) (.float f)
  | str {s : String} : Held (.str s) (.str s)
  | bytes {b : Bytes} : Held (.bytes b) (.bytes b)
  | list {l : List Yaml} : Held (.list l) (.other false 0)
  | map {es : List (Key × Yaml)} : Held (.map es) (.other false 0)
  | other {t h : Bool} {i : Nat} : Held (.other t h i) (.other h i)

/-- A value that can be a dictionary key. -/
def CanBeKey (l : Lit) : Prop := ∀ i, l ≠ .other false i

/-- All keys of a mapping are in the list. -/
def KnownKeys (sup : List String) (es : List (Key × Yaml)) : Prop :=
  ∀ e ∈ es, ∃ s ∈ sup, e.1 = .str s

/-- A list of texts; a missing or false value stands for the empty list. -/
def Texts (y : Yaml) (l : List String) : Prop :=
  (NoValue y ∧ l = []) ∨ y = .list (l.map .str)

/-- A text that may be missing. -/
def OptText (y : Yaml) (s : Option String) : Prop :=
  (y = .null ∧ s = none) ∨ ∃ t, y = .str t ∧ s = some t

/-- A number that may be missing. -/
def OptInt (y : Yaml) (n : Option Int) : Prop :=
  (y = .null ∧ n = none) ∨ ∃ i, y = .int i ∧ n = some i

/-- Name, byte order, aliases and description. -/
structure Head (es : List (Key × Yaml)) (name : String) (o : Order) (h : Hdr) : Prop where
  name : h.name = name
  order : h.order = o
  aliases : Texts (entry es "aliases") h.aliases
  description : OptText (entry es "description") h.description

/-- The mapping `attributes` of a definition, empty when there is none. -/
def attrsOf (es : List (Key × Yaml)) : List (Key × Yaml) :=
  match entry es "attributes" with
  | .map as => as
  | _ => []

/-- The attributes are missing or a mapping with supported keys. -/
def Attributes (ty : String) (es : List (Key × Yaml)) : Prop :=
  NoValue (entry es "attributes") ∨
    ∃ as, entry es "attributes" = .map as ∧ KnownKeys (attributeKeys ty) as

/-- The byte order, native by default. -/
def ByteOrder (es : List (Key × Yaml)) (o : Order) : Prop :=
  entryD (attrsOf es) "byte_order" (.str "native") = .str (orderText o)

/-- The size: a supported number or the text `native`. -/
def HasSize (sizes : List Nat) (dflt : Yaml) (es : List (Key × Yaml)) (s : Size) : Prop :=
  (entryD (attrsOf es) "size" dflt = .str "native" ∧ s = .native) ∨
    ∃ n : Nat, n ∈ sizes ∧ entryD (attrsOf es) "size" dflt = .int n ∧ s = .bytes n

/-- The units of the size, bytes by default. -/
def Units (es : List (Key × Yaml)) (u : String) : Prop :=
  entryD (attrsOf es) "units" (.str "bytes") = .str u

/-- The primitive types with their supported sizes. An integer is signed by
default. The attributes `false_value` and `true_value` are without effect (C50). -/
inductive Primitive (as : List (Key × Yaml)) : String → PrimKind → List Nat → Prop
  | boolean : Primitive as "boolean" (.boolean (some 0) none) [1, 2, 4]
  | character : Primitive as "character" .character [1, 2, 4]
  | floatingPoint : Primitive as "floating-point" .floatingPoint [4, 8]
  | integer {u : Bool} (h : entryD as "format" (.str "signed") = .str (signText u)) :
      Primitive as "integer" (.integer u) [1, 2, 4, 8]

/-- A value that stands for a number: a fraction is rounded towards zero. -/
inductive AsNumber (E : Env) : Yaml → Int → Prop
  | false : AsNumber E (.bool false) 0
  | true : AsNumber E (.bool true) 1
  | int {i : Int} : AsNumber E (.int i) i
  | float {f : Nat} {u : Int} (h : fVal f = .fin u) : AsNumber E (.float f) (u.tdiv (2 ^ 1074))
  | text {s : String} {i : Int} (h : E.parseInt s = some i) : AsNumber E (.str s) i

/-- A size or count: missing, a number, or an expression. -/
inductive SizeRule (E : Env) : Yaml → Option Int → Option String → Prop
  | absent : SizeRule E .null none none
  | number {y : Yaml} {i : Int} (h : AsNumber E y i) : SizeRule E y (some i) none
  | expr {s : String} (h : E.parseInt s = none) : SizeRule E (.str s) none (some s)

/-- The bytes of a text whose characters are below 256. -/
def textBytes (s : String) : Bytes := s.toList.map fun c => UInt8.ofNat c.toNat

/-- A terminator: missing, an ASCII text, or another value. -/
inductive Terminator : Yaml → Option Lit → Prop
  | absent : Terminator .null none
  | text {s : String} (h : ∀ c ∈ s.toList, c.toNat < 128) :
      Terminator (.str s) (some (.bytes (textBytes s)))
  | value {y : Yaml} (hn : y ≠ .null) (hs : ∀ s, y ≠ .str s) {l : Lit} (hl : Held y l) : Terminator y (some l)

/-- The element type and the size rules of sequences, streams and strings. -/
structure ElementRules (E : Env) (look : String → Option Defn) (es : List (Key × Yaml)) (i : SeqInfo) (e : Defn) :
    Prop where
  element : ∃ n, entry es "element_data_type" = .str n ∧ n ≠ "" ∧ i.elementDataType = some n ∧
    look n = some e
  some_rule : entry es "elements_data_size" ≠ .null ∨ entry es "elements_terminator" ≠ .null ∨
    entry es "number_of_elements" ≠ .null
  not_both : entry es "elements_data_size" = .null ∨ entry es "number_of_elements" = .null
  size : SizeRule E (entry es "elements_data_size") i.dataSize i.dataSizeExpr
  number : SizeRule E (entry es "number_of_elements") i.numElements i.numElementsExpr
  terminator : Terminator (entry es "elements_terminator") i.terminator

/-- One value of an enumeration. -/
inductive EnumValue : Yaml → EnumVal → Prop
  | mk {es : List (Key × Yaml)} {v : EnumVal} (hn : entry es "name" = .str v.name) (he : v.name ≠ "")
      (hv : entry es "number" ≠ .null) (hl : Held (entry es "number") v.number)
      (hh : CanBeKey v.number) (ha : Texts (entry es "aliases") v.aliases) :
      EnumValue (.map es) v

/-- Names, numbers and aliases of different values are different. -/
def DistinctValues (vs : List EnumVal) : Prop :=
  vs.Pairwise fun v w => v.name ≠ w.name ∧ ¬ Alike v.number w.number ∧
    ∀ a ∈ v.aliases, a ∉ w.aliases

/-- One element of the layout of a format. -/
inductive LayoutElement : Yaml → String × Option Int → Prop
  | mk {es : List (Key × Yaml)} {n : String} {o : Option Int} (hn : entry es "data_type" = .str n)
      (he : n ≠ "") (hk : KnownKeys ["data_type", "offset"] es)
      (ho : OptInt (entry es "offset") o) : LayoutElement (.map es) (n, o)

/-- The name of a registered definition. -/
def NameOf (look : String → Option Defn) (y : Yaml) (d : Defn) : Prop :=
  ∃ n, y = .str n ∧ look n = some d

/-- The members of a structure or union; `rm` says what a member is. -/
inductive MemberList (rm : Yaml → Defn → Prop) : List Yaml → List Defn → Prop
  | nil : MemberList rm [] []
  | sect {es : List (Key × Yaml)} {n : String} {ms : List Yaml} {ds : List Defn}
      (hs : entry es "section" = .str n) (he : n ≠ "") (h : MemberList rm ms ds) :
      MemberList rm (.map es :: ms) ds
  | member {es : List (Key × Yaml)} {d : Defn} {ms : List Yaml} {ds : List Defn}
      (hs : NoValue (entry es "section")) (hd : rm (.map es) d)
      (h : MemberList rm ms ds) : MemberList rm (.map es :: ms) (d :: ds)

/-- The text or value a member is restricted to. -/
inductive SupportedValue : Yaml → Lit → Prop
  | text {s : String} (h : ∀ c ∈ s.toList, c.toNat < 256) :
      SupportedValue (.str s) (.bytes (textBytes s))
  | value {y : Yaml} (hs : ∀ s, y ≠ .str s) {l : Lit} (hl : Held y l) : SupportedValue y l

/-- The supported values of a member: one `value`, or the `values`. -/
inductive SupportedBy : Yaml → Yaml → Option (List Lit) → Prop
  | absent {vs : Yaml} (h : NoValue vs) : SupportedBy .null vs none
  | one {v : Yaml} {l : Lit} (hn : v ≠ .null) (h : SupportedValue v l) :
      SupportedBy v .null (some [l])
  | many {vs : Yaml} {items : List Yaml} {ls : List Lit} (ht : ¬ NoValue vs)
      (hi : Items vs items) (h : All2 SupportedValue items ls) :
      SupportedBy .null vs (some ls)

/-- The condition of a member. -/
inductive Condition : Yaml → Option String → Prop
  | text {s : String} : Condition (.str s) (some s)
  | absent {y : Yaml} (h : NoValue y) (hs : ∀ s, y ≠ .str s) : Condition y none

set_option inductive.autoPromoteIndices false in
/-- The definition of each type. `mem` says whether it is a member definition. -/
inductive OfType (E : Env) (look : String → Option Defn) (rm : Bool → Yaml → Defn → Prop) :
    Bool → String → List (Key × Yaml) → String → Defn → Prop
  | primitive {mem : Bool} {name : String} {es : List (Key × Yaml)}
      {ty : String} {o : Order} {h : Hdr} {k : PrimKind} {sizes : List Nat} {s : Size}
      {u : String} (ha : Attributes ty es) (ho : ByteOrder es o) (hh : Head es name o h)
      (hk : Primitive (attrsOf es) ty k sizes) (hs : HasSize sizes (.str "native") es s)
      (hu : Units es u) : OfType E look rm mem name es ty (.prim h k s u)
  | uuid {mem : Bool} {name : String} {es : List (Key × Yaml)}
      {o : Order} {h : Hdr} {s : Size} {u : String} (ha : Attributes "uuid" es)
      (ho : ByteOrder es o) (hh : Head es name o h) (hs : HasSize [16] (.int 16) es s)
      (hu : Units es u) : OfType E look rm mem name es "uuid" (.uuid h s u)
  | padding {mem : Bool} {name : String} {es : List (Key × Yaml)}
      {h : Hdr} {a : Nat} (hm : mem = true) (hh : Head es name .native h)
      (ha : entry es "alignment_size" = .int a) (hs : a ∈ [2, 4, 8, 16]) :
      OfType E look rm mem name es "padding" (.padding h (some a))
  | sequence {mem : Bool} {name : String} {es : List (Key × Yaml)}
      {h : Hdr} {i : SeqInfo} {e : Defn} (hk : i.kind = .sequence)
      (he : ElementRules E look es i e) (hh : Head es name e.orderOrNative h) :
      OfType E look rm mem name es "sequence" (.seq h i e)
  | stream {mem : Bool} {name : String} {es : List (Key × Yaml)}
      {h : Hdr} {i : SeqInfo} {e : Defn} (hk : i.kind = .stream)
      (he : ElementRules E look es i e) (hh : Head es name e.orderOrNative h) :
      OfType E look rm mem name es "stream" (.seq h i e)
  | string {mem : Bool} {name : String} {es : List (Key × Yaml)}
      {h : Hdr} {i : SeqInfo} {e : Defn} {enc : String} (hk : i.kind = .string enc)
      (hc : entry es "encoding" = .str enc) (hn : enc ≠ "")
      (he : ElementRules E look es i e) (hh : Head es name e.orderOrNative h) :
      OfType E look rm mem name es "string" (.seq h i e)
  | «structure» {mem : Bool} {name : String} {es : List (Key × Yaml)}
      {o : Order} {h : Hdr} {items : List Yaml} {ds : List Defn} (hm : mem = false)
      (ha : Attributes "structure" es) (ho : ByteOrder es o) (hh : Head es name o h)
      (ht : ¬ NoValue (entry es "members")) (hi : Items (entry es "members") items)
      (hl : MemberList (rm true) items ds) (hd : (ds.map (·.name)).Nodup) :
      OfType E look rm mem name es "structure" (.struct h ds)
  | union {mem : Bool} {name : String} {es : List (Key × Yaml)}
      {o : Order} {h : Hdr} {items : List Yaml} {ds : List Defn}
      (ha : Attributes "union" es) (ho : ByteOrder es o) (hh : Head es name o h)
      (ht : ¬ NoValue (entry es "members")) (hi : Items (entry es "members") items)
      (hl : MemberList (rm false) items ds) (hd : (ds.map (·.name)).Nodup) :
      OfType E look rm mem name es "union" (.union h ds)
  | constant {mem : Bool} {name : String} {es : List (Key × Yaml)}
      {h : Hdr} {l : Lit} (hm : mem = false) (hh : Head es name .native h)
      (hv : entry es "value" ≠ .null) (hl : Held (entry es "value") l) :
      OfType E look rm mem name es "constant" (.constant h l)
  | enumeration {mem : Bool} {name : String} {es : List (Key × Yaml)}
      {h : Hdr} {items : List Yaml} {vs : List EnumVal} (hm : mem = false)
      (hh : Head es name .native h) (ht : ¬ NoValue (entry es "values"))
      (hi : Items (entry es "values") items) (hv : All2 EnumValue items vs)
      (hd : DistinctValues vs) : OfType E look rm mem name es "enumeration" (.enumeration h vs)
  | format {mem : Bool} {name : String} {es : List (Key × Yaml)}
      {h : Hdr} {o : Option Order} {items : List Yaml} {l : List (String × Option Int)}
      (hm : mem = false) (hh : Head es name .native h) (ha : Attributes "format" es)
      (ho : (NoValue (entry es "attributes") ∧ o = none) ∨
        (¬ NoValue (entry es "attributes") ∧ ∃ p, ByteOrder es p ∧ o = some p))
      (hi : Items (entryD es "layout" (.list [])) items) (hl : All2 LayoutElement items l) :
      OfType E look rm mem name es "format" (.format h o l)
  | family {mem : Bool} {name : String} {es : List (Key × Yaml)}
      {h : Hdr} {base : Defn} {items : List Yaml} {ds : List Defn} (hm : mem = false)
      (hh : Head es name .native h) (hb : NameOf look (entry es "base") base)
      (hbt : ¬ NoValue (entry es "base")) (ht : ¬ NoValue (entry es "members"))
      (hi : Items (entry es "members") items) (hl : All2 (NameOf look) items ds)
      (hd : (ds.map (·.name)).Nodup) :
      OfType E look rm mem name es "structure-family" (.family h base ds)
  | group {mem : Bool} {name : String} {es : List (Key × Yaml)}
      {h : Hdr} {base : Defn} {ident : String} {df : Option Defn} {items : List Yaml}
      {ds : List Defn} (hm : mem = false) (hh : Head es name base.orderOrNative h)
      (hb : NameOf look (entry es "base") base) (hbt : ¬ NoValue (entry es "base"))
      (hid : entry es "identifier" = .str ident) (hin : ident ≠ "")
      (hdf : (NoValue (entry es "default") ∧ df = none) ∨
        (¬ NoValue (entry es "default") ∧ ∃ d, NameOf look (entry es "default") d ∧ df = some d))
      (ht : ¬ NoValue (entry es "members")) (hi : Items (entry es "members") items)
      (hl : All2 (NameOf look) items ds) (hd : (ds.map (·.name)).Nodup)
      (hx : ∀ d ∈ ds, ∃ inner, d.members? = some inner ∧ ∃ x ∈ inner, x.name = ident) :
      OfType E look rm mem name es "structure-group" (.group h base ident df ds)

/-- A member: a definition of its own, or the name of a data type, with condition
and supported values. The first argument says whether conditions are supported. -/
inductive Member (E : Env) (look : String → Option Defn) : Bool → Yaml → Defn → Prop
  | typed {c : Bool} {es : List (Key × Yaml)} {name ty : String} {inner : Defn}
      {cond : Option String} {sv : Option (List Lit)}
      (hn : (entry es "name" = .str name ∧ name ≠ "") ∨
        (entry es "name" = .null ∧ name = "" ∧ ty = "union"))
      (hty : entry es "type" = .str ty) (hdt : entry es "data_type" = .null)
      (hc : Condition (entry es "condition") cond)
      (hcc : c = false → NoValue (entry es "condition"))
      (hv : SupportedBy (entry es "value") (entry es "values") sv)
      (hk : KnownKeys (memberKeys (.str ty)) es)
      (hi : OfType E look (Member E look) true name es ty inner) :
      Member E look c (.map es)
        (if truthyStr cond || sv.isSome then
          .member { name := name, order := inner.orderOrNative } inner cond none sv else inner)
  | reference {c : Bool} {es : List (Key × Yaml)} {name dt : String} {h : Hdr} {inner : Defn}
      {cond : Option String} {sv : Option (List Lit)}
      (hn : entry es "name" = .str name ∧ name ≠ "")
      (hty : entry es "type" = .null) (hdt : entry es "data_type" = .str dt)
      (hc : Condition (entry es "condition") cond)
      (hcc : c = false → NoValue (entry es "condition"))
      (hv : SupportedBy (entry es "value") (entry es "values") sv)
      (hk : KnownKeys (memberKeys .null) es) (hi : look dt = some inner)
      (hh : Head es name inner.orderOrNative h) :
      Member E look c (.map es) (.member h inner cond (some dt) sv)

/-- The document follows the format and describes the definition. -/
def Describes (E : Env) (look : String → Option Defn) (d : Yaml) (x : Defn) : Prop :=
  ∃ es name ty, d = .map es ∧ entry es "name" = .str name ∧ name ≠ "" ∧
    entry es "type" = .str ty ∧ KnownKeys (definitionKeys ty) es ∧
    OfType E look (Member E look) false name es ty x

end Spec
open Spec

theorem noValue_iff {y : Yaml} : NoValue y ↔ y.truthy = false := by
  constructor
  · intro h
    cases h <;> simp_all [Yaml.truthy]
  · intro h
    cases y with
    | null => exact .null
    | bool b => cases b with
      | false => exact .false
      | true => cases h
    | int i => simp [Yaml.truthy] at h; subst h; exact .zero
    | float f => simp [Yaml.truthy] at h; exact .float h
    | str s => simp [Yaml.truthy] at h; subst h; exact .str
    | bytes b => simp [Yaml.truthy] at h; subst h; exact .bytes
    | list l => simp [Yaml.truthy] at h; subst h; exact .list
    | map es => simp [Yaml.truthy] at h; subst h; exact .map
    | other t h' i => simp [Yaml.truthy] at h; subst h; exact .other

theorem value_iff {y : Yaml} : ¬ NoValue y ↔ y.truthy = true := by
  rw [noValue_iff]; simp

attribute [local simp] noValue_iff

theorem keys_items {es : List (Key × Yaml)} {ks : List Yaml} :
    All2 (fun e k => (∃ s, e.1 = .str s ∧ k = .str s) ∨ ∃ i, e.1 = .other i ∧ k = .other true true i) es ks ↔
      ks = es.map fun e => match e.1 with
        | .str s => .str s
        | .other i => .other true true i := by
  induction es generalizing ks with
  | nil =>
    constructor
    · intro h; cases h; rfl
    · rintro rfl; exact .nil
  | cons e es ih =>
    obtain ⟨k0, y⟩ := e
    constructor
    · intro h
      cases h with
      | cons hk ht =>
        rw [ih.mp ht]
        rcases hk with ⟨s, h1, rfl⟩ | ⟨i, h1, rfl⟩ <;> simp only at h1 <;> subst h1 <;> rfl
    · rintro rfl
      refine .cons ?_ (ih.mpr rfl)
      cases k0 with
      | str s => exact .inl ⟨s, rfl, rfl⟩
      | other i => exact .inr ⟨i, rfl, rfl⟩

theorem items_iff {y : Yaml} {items : List Yaml} : Items y items ↔ y.iter = .ok items := by
  constructor
  · intro h
    cases h with
    | list => rfl
    | str => rfl
    | bytes => rfl
    | map h => rw [keys_items.mp h]; rfl
  · intro h
    cases y with
    | list l => cases h; exact .list
    | str s => cases h; exact .str
    | bytes b => cases h; exact .bytes
    | map es => cases h; exact .map (keys_items.mpr rfl)
    | _ => cases h

theorem held_iff {y : Yaml} {l : Lit} : Held y l ↔ l = y.lit := by
  constructor
  · intro h
    cases h <;> rfl
  · rintro rfl
    cases y <;> constructor

theorem canBeKey_iff {l : Lit} : CanBeKey l ↔ l.isHashable = true := by
  unfold CanBeKey
  cases l with
  | other h i => cases h <;> simp [Lit.isHashable]
  | _ => simp [Lit.isHashable]

theorem checkKeys_iff {sup : List String} {es : List (Key × Yaml)} {u : Unit} :
    checkKeys sup (.map es) = .ok u ↔ KnownKeys sup es := by
  constructor
  · intro h
    obtain ⟨es', h1, h2⟩ := checkKeys_ok h
    cases h1
    exact h2
  · exact fun h => checkKeys_map h

theorem text_iff {y : Yaml} {s : String} : y.text = .ok s ↔ y = .str s :=
  ⟨text_ok, fun h => by rw [h]; rfl⟩

theorem mapM_text_iff {l : List Yaml} {as : List String} :
    l.mapM Yaml.text = .ok as ↔ l = as.map .str := by
  induction l generalizing as with
  | nil => cases as <;> simp [pure, Except.pure]
  | cons y ys ih =>
    simp only [List.mapM_cons, bind_ok, text_iff, pure, Except.pure, Except.ok.injEq]
    constructor
    · rintro ⟨s, rfl, ss, hs, rfl⟩
      rw [ih.mp hs]; rfl
    · cases as with
      | nil => intro h; cases h
      | cons s ss =>
        intro h
        cases h
        exact ⟨s, rfl, ss, ih.mpr rfl, rfl⟩

theorem names_iff {y : Yaml} {l : List String} : y.names = .ok l ↔ Texts y l := by
  unfold Yaml.names Texts
  rw [noValue_iff]
  by_cases ht : y.truthy = true
  · simp only [ht, Bool.not_true, Bool.false_eq_true, if_false, false_and, false_or,
      reduceCtorEq]
    cases y <;> simp only [reduceCtorEq, Yaml.list.injEq]
    exact mapM_text_iff
  · have ht : y.truthy = false := by simpa using ht
    simp only [ht, Bool.not_false, if_true, true_and, Except.ok.injEq]
    constructor
    · exact fun h => .inl h.symm
    · rintro (h | h)
      · exact h.symm
      · rw [h] at ht
        cases l with
        | nil => rfl
        | cons a l => simp [Yaml.truthy] at ht

theorem text?_iff {y : Yaml} {s : Option String} : y.text? = .ok s ↔ OptText y s := by
  unfold OptText
  cases y <;> simp [Yaml.text?, eq_comm]

theorem readOffset_iff {y : Yaml} {n : Option Int} : readOffset y = .ok n ↔ OptInt y n := by
  unfold OptInt
  cases y <;> simp [readOffset, eq_comm]

theorem readHdr_iff {sup : List String} {es : List (Key × Yaml)} {name : String} {h : Hdr} :
    readHdr sup (.map es) name = .ok h ↔ KnownKeys sup es ∧ Head es name .native h := by
  simp only [readHdr, bind_ok, get_map, Except.ok.injEq, checkKeys_iff, names_iff, text?_iff]
  constructor
  · rintro ⟨_, hk, _, rfl, _, rfl, as, ha, ds, hd, rfl⟩
    exact ⟨hk, rfl, rfl, ha, hd⟩
  · rintro ⟨hk, h1, h2, h3, h4⟩
    refine ⟨(), hk, _, rfl, _, rfl, _, h3, _, h4, ?_⟩
    cases h
    subst h1 h2
    rfl

theorem Spec.Head.reorder {es : List (Key × Yaml)} {name : String} {o p : Order} {h : Hdr} :
    (∃ h0, Head es name o h0 ∧ h = { h0 with order := p }) ↔ Head es name p h := by
  constructor
  · rintro ⟨h0, ⟨h1, -, h3, h4⟩, rfl⟩
    exact ⟨h1, rfl, h3, h4⟩
  · rintro ⟨h1, h2, h3, h4⟩
    refine ⟨{ h with order := o }, ⟨h1, rfl, h3, h4⟩, ?_⟩
    cases h
    subst h2
    rfl

theorem readOrder_iff {as : List (Key × Yaml)} {o : Order} :
    readOrder (.map as) = .ok o ↔ entryD as "byte_order" (.str "native") = .str (orderText o) := by
  constructor
  · intro h
    obtain ⟨es, h1, h2⟩ := readOrder_ok h
    cases h1
    exact h2
  · intro h
    simp only [readOrder, getD_map, bind_ok]
    refine ⟨_, rfl, ?_⟩
    rw [h]
    cases o <;> rfl

theorem attrsOf_map {es as : List (Key × Yaml)} (h : entry es "attributes" = .map as) :
    attrsOf es = as := by
  unfold attrsOf; rw [h]

theorem attrsOf_false {es : List (Key × Yaml)} (h : (entry es "attributes").truthy = false) :
    attrsOf es = [] := by
  unfold attrsOf
  split
  · rename_i as ha
    rw [ha] at h
    simpa [Yaml.truthy] using h
  · rfl

theorem Spec.KnownKeys.mono {sup sup' : List String} {es : List (Key × Yaml)} (h : KnownKeys sup es)
    (hs : ∀ s ∈ sup, s ∈ sup') : KnownKeys sup' es := by
  intro e he
  obtain ⟨s, h1, h2⟩ := h e he
  exact ⟨s, hs s h1, h2⟩

theorem knownKeys_congr {sup sup' : List String} {es : List (Key × Yaml)}
    (h : ∀ s ∈ sup, s ∈ sup') (h' : ∀ s ∈ sup', s ∈ sup) : KnownKeys sup es ↔ KnownKeys sup' es :=
  ⟨fun k => k.mono h, fun k => k.mono h'⟩

theorem readAttrs_iff {sup : List String} {es : List (Key × Yaml)} {o : Option Order} :
    readAttrs sup (.map es) = .ok o ↔
      ((entry es "attributes").truthy = false ∧ o = none) ∨
      ((entry es "attributes").truthy = true ∧ ∃ as p, entry es "attributes" = .map as ∧
        KnownKeys sup as ∧ ByteOrder es p ∧ o = some p) := by
  simp only [readAttrs, bind_ok, get_map, Except.ok.injEq]
  by_cases ht : (entry es "attributes").truthy = true
  · simp only [ht, Bool.true_eq_false, false_and, false_or, true_and, exists_eq_left', if_true,
      bind_ok]
    constructor
    · rintro ⟨u, hk, p, hp, h⟩
      cases h
      obtain ⟨as, has, -⟩ := readOrder_ok hp
      rw [has] at hk hp
      refine ⟨as, p, has, checkKeys_iff.mp hk, ?_, rfl⟩
      rw [ByteOrder, attrsOf_map has]
      exact readOrder_iff.mp hp
    · rintro ⟨as, p, has, hk, hp, rfl⟩
      rw [has]
      refine ⟨(), checkKeys_iff.mpr hk, p, ?_, rfl⟩
      rw [readOrder_iff]
      rwa [ByteOrder, attrsOf_map has] at hp
  · have ht : (entry es "attributes").truthy = false := by simpa using ht
    simp only [ht, exists_eq_left', Bool.false_eq_true, if_false, false_and, or_false, true_and,
      Except.ok.injEq]
    exact eq_comm

/-- The attributes and the byte order of storage types. -/
theorem attrs_order {sup : List String} {ty : String} {es : List (Key × Yaml)} {p : Order}
    (h : ∀ s ∈ sup, s ∈ attributeKeys ty) (h' : ∀ s ∈ attributeKeys ty, s ∈ sup) :
    (∃ o, readAttrs sup (.map es) = .ok o ∧ p = o.getD .native) ↔
      Attributes ty es ∧ ByteOrder es p := by
  simp only [readAttrs_iff, Attributes, noValue_iff]
  constructor
  · rintro ⟨o, ⟨ht, rfl⟩ | ⟨ht, as, q, has, hk, hb, rfl⟩, rfl⟩
    · refine ⟨.inl ht, ?_⟩
      rw [ByteOrder, attrsOf_false ht]
      rfl
    · exact ⟨.inr ⟨as, has, hk.mono h⟩, hb⟩
  · rintro ⟨ha, hb⟩
    by_cases ht : (entry es "attributes").truthy = true
    · rcases ha with ha | ⟨as, has, hk⟩
      · rw [ht] at ha; cases ha
      · exact ⟨some p, .inr ⟨ht, as, p, has, hk.mono h', hb, rfl⟩, rfl⟩
    · have ht : (entry es "attributes").truthy = false := by simpa using ht
      refine ⟨none, .inl ⟨ht, rfl⟩, ?_⟩
      rw [ByteOrder, attrsOf_false ht] at hb
      cases p <;> first | rfl | simp [entryD, orderText] at hb

theorem readStorage_iff {attrs : List String} {m : Bool} {ty : String} {es : List (Key × Yaml)}
    {name : String} {h : Hdr}
    (ha : ∀ s ∈ attrs, s ∈ attributeKeys ty) (ha' : ∀ s ∈ attributeKeys ty, s ∈ attrs) :
    readStorage attrs m (.map es) name = .ok h ↔
      KnownKeys (if m then valuesMember else valuesStorage) es ∧ Attributes ty es ∧
        ∃ p, ByteOrder es p ∧ Head es name p h := by
  simp only [readStorage, bind_ok, readHdr_iff, Except.ok.injEq]
  constructor
  · rintro ⟨h0, ⟨hk, hh⟩, o, ho, rfl⟩
    obtain ⟨h1, h2⟩ := (attrs_order ha ha' (p := o.getD .native)).mp ⟨o, ho, rfl⟩
    exact ⟨hk, h1, _, h2, Head.reorder.mp ⟨h0, hh, rfl⟩⟩
  · rintro ⟨hk, h1, p, hp, hh⟩
    obtain ⟨o, ho, rfl⟩ := (attrs_order ha ha').mpr ⟨h1, hp⟩
    obtain ⟨h0, hh0, rfl⟩ := (Head.reorder (o := .native)).mpr hh
    exact ⟨h0, ⟨hk, hh0⟩, o, ho, rfl⟩

theorem litEq_nat (a : Nat) : litEq (.int a) (.int a) = true := by
  simp [litEq, Lit.num?, Num.eq]

theorem readSize_iff {E : Env} {sizes : List Nat} {y : Yaml} {s : Size} :
    readSize E sizes y = .ok s ↔ (y = .str "native" ∧ s = .native) ∨
      ∃ n : Nat, n ∈ sizes ∧ y = .int n ∧ s = .bytes n := by
  constructor
  · exact readSize_ok
  · rintro (⟨rfl, rfl⟩ | ⟨n, hn, rfl, rfl⟩)
    · rfl
    · unfold readSize
      simp only [Env.toInt]
      rw [if_neg]
      · rfl
      · simp only [Bool.not_eq_true, Bool.not_eq_false', List.any_eq_true]
        exact ⟨n, hn, by simp [Yaml.lit, litEq_nat]⟩

theorem readFixed_iff {E : Env} {attrs : List String} {dflt : Yaml} {init : Size}
    {sizes : List Nat} {m : Bool} {ty : String} {es : List (Key × Yaml)} {name : String} {h : Hdr}
    {s : Size} {u : String}
    (ha : ∀ s ∈ attrs, s ∈ attributeKeys ty) (ha' : ∀ s ∈ attributeKeys ty, s ∈ attrs)
    (hd : ∀ s, readSize E sizes dflt = .ok s ↔ s = init) :
    readFixed E attrs dflt init sizes m (.map es) name = .ok (h, s, u) ↔
      KnownKeys (if m then valuesMember else valuesStorage) es ∧ Attributes ty es ∧
        (∃ p, ByteOrder es p ∧ Head es name p h) ∧ HasSize sizes dflt es s ∧ Units es u := by
  simp only [readFixed, bind_ok, readStorage_iff ha ha', get_map, Except.ok.injEq]
  have hsz : HasSize sizes dflt es s ↔
      readSize E sizes (entryD (attrsOf es) "size" dflt) = .ok s := readSize_iff.symm
  by_cases ht : (entry es "attributes").truthy = true
  · constructor
    · rintro ⟨h', ⟨hk, h1, p, hp, hh⟩, _, rfl, hr⟩
      rw [if_pos ht] at hr
      simp only [bind_ok, Except.ok.injEq, Prod.mk.injEq] at hr
      obtain ⟨sz, hsz', s', hs', un, hun, u', hu', rfl, rfl, rfl⟩ := hr
      rcases h1 with h1 | ⟨as, has, hk'⟩
      · rw [noValue_iff, ht] at h1; cases h1
      · rw [has, getD_map] at hsz' hun
        cases hsz'; cases hun
        refine ⟨hk, .inr ⟨as, has, hk'⟩, ⟨p, hp, hh⟩, hsz.mpr ?_, ?_⟩
        · rwa [attrsOf_map has]
        · rw [Units, attrsOf_map has]
          exact text_ok hu'
    · rintro ⟨hk, h1, ⟨p, hp, hh⟩, hs, hu⟩
      refine ⟨h, ⟨hk, h1, p, hp, hh⟩, _, rfl, ?_⟩
      rw [if_pos ht]
      rcases h1 with h1 | ⟨as, has, hk'⟩
      · rw [noValue_iff, ht] at h1; cases h1
      · rw [has]
        rw [hsz, attrsOf_map has] at hs
        rw [Units, attrsOf_map has] at hu
        simp only [getD_map, bind_ok, Except.ok.injEq, Prod.mk.injEq]
        exact ⟨_, rfl, s, hs, _, rfl, u, by rw [hu]; rfl, by simp⟩
  · have ht' : (entry es "attributes").truthy = false := by simpa using ht
    have hs' : HasSize sizes dflt es s ↔ s = init := by
      rw [hsz, attrsOf_false ht']
      exact hd s
    have hu' : Units es u ↔ u = "bytes" := by
      rw [Units, attrsOf_false ht']
      show Yaml.str "bytes" = .str u ↔ _
      rw [Yaml.str.injEq]
      exact eq_comm
    rw [hs', hu']
    constructor
    · rintro ⟨h', ⟨hk, h1, p, hp, hh⟩, _, rfl, hr⟩
      rw [if_neg ht] at hr
      cases hr
      exact ⟨hk, h1, ⟨p, hp, hh⟩, rfl, rfl⟩
    · rintro ⟨hk, h1, ⟨p, hp, hh⟩, rfl, rfl⟩
      refine ⟨h, ⟨hk, h1, p, hp, hh⟩, _, rfl, ?_⟩
      rw [if_neg ht]

theorem resolve_iff {E : Env} {reg : Registry} {y : Yaml} {d : Defn} :
    resolve E reg y = .ok d ↔ NameOf (reg.getByName E) y d := by
  constructor
  · exact resolve_ok
  · rintro ⟨n, rfl, hg⟩
    simp only [resolve, hg]

theorem asNumber_iff {E : Env} {y : Yaml} {i : Int} : AsNumber E y i ↔ E.toInt y = .ok i := by
  constructor
  · intro h
    cases h with
    | false => rfl
    | true => rfl
    | int => rfl
    | float h => simp only [Env.toInt, h]
    | text h => simp only [Env.toInt, h]
  · intro h
    unfold Env.toInt at h
    split at h
    · rename_i b
      cases b <;> cases h
      · exact .false
      · exact .true
    · cases h; exact .int
    · split at h
      · rename_i hf
        cases h
        exact .float hf
      · cases h
      · cases h
    · split at h
      · rename_i hs
        cases h
        exact .text hs
      · cases h
    · cases h
    · cases h

theorem readRule_iff {E : Env} {y : Yaml} {a : Option Int} {b : Option String} :
    readRule E y = .ok (a, b) ↔ SizeRule E y a b := by
  constructor
  · intro h
    cases readRule_ok h with
    | absent h' => subst h'; exact .absent
    | number hn h' => exact .number (asNumber_iff.mpr h')
    | expr h' hp => subst h'; exact .expr hp
  · intro h
    cases h with
    | absent => rfl
    | number h =>
      unfold readRule
      rw [asNumber_iff] at h
      rw [if_neg, h]
      intro hn
      rw [isNone_iff.mp hn] at h
      cases h
    | expr h =>
      unfold readRule
      simp only [Yaml.isNone, Env.toInt, h, Bool.false_eq_true, if_false]

theorem encodeBelow_iff {limit : Nat} {s : String} {b : Bytes} :
    encodeBelow limit s = .ok b ↔ (∀ c ∈ s.toList, c.toNat < limit) ∧ b = textBytes s := by
  unfold encodeBelow
  split
  · rename_i h
    simp only [List.all_eq_true, decide_eq_true_eq] at h
    simp only [Except.ok.injEq]
    exact ⟨fun e => ⟨h, e.symm⟩, fun e => e.2.symm⟩
  · rename_i h
    simp only [List.all_eq_true, decide_eq_true_eq] at h
    simp only [reduceCtorEq, false_iff]
    exact fun e => h e.1

theorem readTerminator_iff {y : Yaml} {t : Option Lit} :
    readTerminator y = .ok t ↔ Terminator y t := by
  constructor
  · intro h
    cases readTerminator_ok h with
    | absent h' => subst h'; exact .absent
    | text h' he =>
      subst h'
      obtain ⟨h1, rfl⟩ := encodeBelow_iff.mp he
      exact .text h1
    | value hn hs => exact .value hn hs (held_iff.mpr rfl)
  · intro h
    cases h with
    | absent => rfl
    | text h =>
      simp only [readTerminator, encodeBelow_iff.mpr ⟨h, rfl⟩]
    | value hn hs hl =>
      rw [held_iff.mp hl]
      cases y <;> first | rfl | exact absurd rfl hn | exact absurd rfl (hs _)

theorem readElements_iff {E : Env} {reg : Registry} {k : SeqKind} {sup : List String}
    {es : List (Key × Yaml)} {name : String} {x : Defn} :
    readElements E reg k sup (.map es) name = .ok x ↔
      KnownKeys sup es ∧ ∃ h i e, x = .seq h i e ∧ i.kind = k ∧ ElementRules E (reg.getByName E) es i e ∧
        Head es name e.orderOrNative h := by
  constructor
  · intro hr
    simp only [readElements, bind_ok, guard_ok, get_map, Except.ok.injEq, checkKeys_iff,
      resolve_iff, readHdr_iff, text_iff, readTerminator_iff] at hr
    obtain ⟨_, hk, _, rfl, ht, _, rfl, _, rfl, _, rfl, h1, h2, e, ⟨n, hn, hg⟩, h0, ⟨-, hh⟩, dt, hdt,
      ⟨ds, dse⟩, hds, ⟨ne, nee⟩, hne, t, htt, hx⟩ := hr
    rw [hn] at hdt
    cases hdt
    rw [hn] at ht
    simp only [Bool.and_eq_true, isNone_iff, Bool.not_eq_true', not_and, Bool.not_eq_false] at h1 h2
    refine ⟨hk, _, _, e, hx.symm, rfl, ⟨⟨n, hn, by simpa [Yaml.truthy] using ht, rfl, hg⟩, ?_, ?_,
      readRule_iff.mp hds, readRule_iff.mp hne, htt⟩, Spec.Head.reorder.mp ⟨h0, hh, rfl⟩⟩
    · by_cases ha : entry es "elements_data_size" = .null
      · by_cases hb : entry es "elements_terminator" = .null
        · exact .inr (.inr (h1 ⟨ha, hb⟩))
        · exact .inr (.inl hb)
      · exact .inl ha
    · by_cases ha : entry es "elements_data_size" = .null
      · exact .inl ha
      · refine .inr (h2 ?_)
        cases hh : (entry es "elements_data_size").isNone
        · rfl
        · exact absurd (isNone_iff.mp hh) ha
  · rintro ⟨hk, h, i, e, rfl, rfl, he, hh⟩
    simp only [readElements, bind_ok, guard_ok, get_map, Except.ok.injEq, checkKeys_iff,
      resolve_iff, readHdr_iff, text_iff, readTerminator_iff]
    obtain ⟨n, hn, hne, hin, hg⟩ := he.element
    obtain ⟨h0, hh0, rfl⟩ := (Spec.Head.reorder (o := .native)).mpr hh
    refine ⟨(), hk, _, rfl, ?_, _, rfl, _, rfl, _, rfl, ?_, ?_, e, ⟨n, hn, hg⟩, h0, ⟨hk, hh0⟩, n, hn,
      (_, _), readRule_iff.mpr he.size, (_, _), readRule_iff.mpr he.number, _, he.terminator, ?_⟩
    · rw [hn]
      simpa [Yaml.truthy] using hne
    · simp only [Bool.and_eq_true, isNone_iff, not_and]
      rintro ⟨h1, h2⟩ h3
      rcases he.some_rule with h | h | h
      · exact h h1
      · exact h h2
      · exact h h3
    · simp only [Bool.and_eq_true, Bool.not_eq_true', not_and, Bool.not_eq_false]
      intro h1
      rw [isNone_iff]
      rcases he.not_both with h | h
      · rw [h] at h1; cases h1
      · exact h
    · cases i
      simp only at hin
      subst hin
      rfl

theorem readString_iff {E : Env} {reg : Registry} {m : Bool} {es : List (Key × Yaml)}
    {name : String} {x : Defn} :
    readString E reg m (.map es) name = .ok x ↔
      KnownKeys (if m then valuesStringMember else valuesString) es ∧
      ∃ h i e enc, x = .seq h i e ∧ i.kind = .string enc ∧ entry es "encoding" = .str enc ∧
        enc ≠ "" ∧ ElementRules E (reg.getByName E) es i e ∧ Head es name e.orderOrNative h := by
  simp only [readString, bind_ok, guard_ok, readElements_iff, get_map, Except.ok.injEq, text_iff]
  constructor
  · rintro ⟨s, ⟨hk, h, i, e, rfl, hki, he, hh⟩, _, rfl, ht, enc, henc, hx⟩
    rw [henc] at ht
    simp only [Except.ok.injEq] at hx
    exact ⟨hk, h, _, e, enc, hx.symm, rfl, henc, by simpa [Yaml.truthy] using ht,
      ⟨he.element, he.some_rule, he.not_both, he.size, he.number, he.terminator⟩, hh⟩
  · rintro ⟨hk, h, i, e, enc, rfl, hki, henc, hne, he, hh⟩
    refine ⟨.seq h { i with kind := .string "" } e, ⟨hk, h, _, e, rfl, rfl,
      ⟨he.element, he.some_rule, he.not_both, he.size, he.number, he.terminator⟩, hh⟩, _, rfl, ?_,
      enc, henc, ?_⟩
    · rw [henc]
      simpa [Yaml.truthy] using hne
    · cases i
      simp only at hki
      subst hki
      rfl

theorem mapM_iff {α β : Type} {f : α → Except Err β} {R : α → β → Prop}
    (h : ∀ a b, f a = .ok b ↔ R a b) {l : List α} {r : List β} :
    l.mapM f = .ok r ↔ All2 R l r := by
  induction l generalizing r with
  | nil =>
    simp only [List.mapM_nil, pure, Except.pure, Except.ok.injEq]
    constructor
    · rintro rfl; exact .nil
    · intro h; cases h; rfl
  | cons a l ih =>
    simp only [List.mapM_cons, bind_ok, pure, Except.pure, Except.ok.injEq]
    constructor
    · rintro ⟨b, hb, bs, hbs, rfl⟩
      exact .cons ((h a b).mp hb) (ih.mp hbs)
    · intro hr
      cases hr with
      | cons h1 h2 => exact ⟨_, (h _ _).mpr h1, _, ih.mpr h2, rfl⟩

theorem supportedValue_iff {y : Yaml} {l : Lit} :
    supportedValue y = .ok l ↔ SupportedValue y l := by
  constructor
  · intro h
    unfold supportedValue at h
    split at h
    · rename_i s
      cases he : encodeBelow 256 s with
      | error e => rw [he] at h; cases h
      | ok b =>
        rw [he] at h
        cases h
        obtain ⟨h1, rfl⟩ := encodeBelow_iff.mp he
        exact .text h1
    · rename_i hs
      cases h
      exact .value hs (held_iff.mpr rfl)
  · intro h
    cases h with
    | text h =>
      simp only [supportedValue, encodeBelow_iff.mpr ⟨h, rfl⟩]
      rfl
    | value hs hl => rw [held_iff.mp hl]; cases y <;> first | rfl | exact absurd rfl (hs _)

theorem supportedValues_iff {v vs : Yaml} {sv : Option (List Lit)} (hb : v = .null ∨ vs = .null) :
    supportedValues v vs = .ok sv ↔ SupportedBy v vs sv := by
  by_cases hv : v = .null
  · subst hv
    have e : valueList .null vs = vs := rfl
    simp only [supportedValues, e]
    by_cases ht : vs.truthy = true
    · simp only [ht, if_true, bind_ok, Except.ok.injEq, mapM_iff (fun _ _ => supportedValue_iff)]
      constructor
      · rintro ⟨items, hi, ls, hl, rfl⟩
        exact .many (value_iff.mpr ht) (items_iff.mpr hi) hl
      · intro h
        cases h with
        | absent h => rw [noValue_iff, ht] at h; cases h
        | one hn _ => exact absurd rfl hn
        | many _ hi hl => exact ⟨_, items_iff.mp hi, _, hl, rfl⟩
    · rw [if_neg ht]
      have ht : vs.truthy = false := by simpa using ht
      simp only [Except.ok.injEq]
      constructor
      · rintro rfl; exact .absent (noValue_iff.mpr ht)
      · intro h
        cases h with
        | absent _ => rfl
        | one hn _ => exact absurd rfl hn
        | many h _ _ => rw [value_iff, ht] at h; cases h
  · have hvs : vs = .null := hb.resolve_left hv
    subst hvs
    have e : valueList v .null = .list [v] := by
      unfold valueList
      rw [if_pos]
      simp only [Bool.and_eq_true, Bool.not_eq_true']
      refine ⟨?_, rfl⟩
      cases hn : v.isNone
      · rfl
      · exact absurd (isNone_iff.mp hn) hv
    simp only [supportedValues, e]
    rw [if_pos (by rfl)]
    simp only [bind_ok, Yaml.iter, Except.ok.injEq, exists_eq_left',
      mapM_iff (fun _ _ => supportedValue_iff)]
    constructor
    · rintro ⟨ls, hl, rfl⟩
      cases hl with
      | cons h t => cases t; exact .one hv h
    · intro h
      cases h with
      | absent _ => exact absurd rfl hv
      | one _ h => exact ⟨_, .cons h .nil, rfl⟩
      | many _ _ _ => exact absurd rfl hv

theorem memberCondition_iff {y : Yaml} {c : Option String} :
    memberCondition y = .ok c ↔ Condition y c := by
  constructor
  · intro h
    unfold memberCondition at h
    split at h
    · cases h; exact .text
    · rename_i hs
      split at h
      · cases h
      · rename_i ht
        cases h
        exact .absent (by simpa using ht) hs
  · intro h
    cases h with
    | text => rfl
    | absent h hs =>
      unfold memberCondition
      split
      · exact absurd rfl (hs _)
      · rw [if_neg]; simpa using h

theorem addValues_iff {items : List Yaml} {b : EnumBuilder} (hb : EnumInv b) {vs : List EnumVal} :
    (∃ b', addValues b items = .ok b' ∧ b'.values = b.values ++ vs) ↔
      All2 EnumValue items vs ∧ DistinctValues (b.values ++ vs) := by
  induction items generalizing b vs with
  | nil =>
    simp only [addValues, Except.ok.injEq]
    constructor
    · rintro ⟨b', rfl, h⟩
      have : vs = [] := by simpa using h
      subst this
      exact ⟨.nil, by simpa [DistinctValues, ← litEq_iff] using hb.distinct⟩
    · rintro ⟨h, -⟩
      cases h
      exact ⟨b, rfl, by simp⟩
  | cons y items ih =>
    constructor
    · rintro ⟨b', hr, hv⟩
      simp only [addValues, bind_ok, guard_ok, text_iff, names_iff] at hr
      obtain ⟨av, hav, nv, hnv, uv, huv, hc, n, hn, as, has, hr⟩ := hr
      obtain ⟨es, rfl, rfl⟩ := get_ok hav
      rw [get_map] at hnv huv
      cases hnv; cases huv
      simp only [Bool.or_eq_true, not_or, Bool.not_eq_true', Bool.not_eq_false] at hc
      rw [hn] at hc
      rcases addValue_spec b hb n (entry es "number").lit as with ⟨hacc, h1, h2, h3⟩ | ⟨-, e, he⟩
      · generalize b.addValue n (entry es "number").lit as = p at hr h1 h2 h3
        obtain ⟨r, b1⟩ := p
        simp only at h1 h2 h3
        subst h1
        simp only at hr
        obtain ⟨cs, hcs, hb', hcsv⟩ := addValues_ok hr
        have hvs : vs = ⟨n, (entry es "number").lit, as⟩ ::
            cs.map fun c => (⟨c.name, c.number, c.aliases⟩ : EnumVal) := by
          rw [hcsv, h2, List.append_assoc] at hv
          exact (List.append_cancel_left hv).symm
        obtain ⟨i1, i2⟩ := (ih h3 (vs := cs.map fun c =>
          (⟨c.name, c.number, c.aliases⟩ : EnumVal))).mp ⟨b', hr, hcsv⟩
        subst hvs
        refine ⟨.cons (.mk hn (by simpa [Yaml.truthy] using hc.1)
          (fun e => hc.2 (isNone_iff.mpr e)) (held_iff.mpr rfl)
          (canBeKey_iff.mpr hacc.1) has) i1, ?_⟩
        rw [h2, List.append_assoc] at i2
        exact i2
      · rw [he] at hr
        split at hr
        · cases hr
        · cases hr
        · rename_i heq
          cases heq
    · rintro ⟨hall, hd⟩
      cases hall with
      | @cons _ v _ vs' hx ht =>
        cases hx with
        | @mk es _ hn hne hnum hl hh ha =>
        have hd' : DistinctValues (b.values ++ [v] ++ vs') := by
          rw [List.append_assoc]; exact hd
        have hacc : Acceptable b.values v.name v.number v.aliases := by
          refine ⟨canBeKey_iff.mp hh, fun w hw => ?_⟩
          rw [litEq_ff_iff]
          exact (List.pairwise_append.mp hd).2.2 w hw v (List.mem_cons_self ..)
        rcases addValue_spec b hb v.name v.number v.aliases with ⟨-, h1, h2, h3⟩ | ⟨hn, -⟩
        · have hr : ∀ (p : Except Err Unit × EnumBuilder), p = b.addValue v.name v.number v.aliases →
              p.1 = .ok () → (addValues b (.map es :: items)) = addValues p.2 items := by
            rintro ⟨r, b1⟩ hp hr
            simp only at hr
            subst hr
            simp only [addValues, get_map, hn]
            simp only [bind, Except.bind]
            rw [if_neg]
            · simp only [Yaml.text]
              rw [names_iff.mpr ha]
              simp only
              rw [← held_iff.mp hl, ← hp]
            · simp only [Bool.or_eq_true, not_or, Bool.not_eq_true', Bool.not_eq_false]
              refine ⟨by simpa [Yaml.truthy] using hne, ?_⟩
              intro h
              exact hnum (isNone_iff.mp h)
          rw [hr _ rfl h1]
          obtain ⟨b', hb', hv⟩ := (ih h3 (vs := vs')).mpr ⟨ht, by rw [h2]; exact hd'⟩
          refine ⟨b', hb', ?_⟩
          rw [hv, h2]
          simp
        · exact absurd hacc hn

theorem readLayout_iff {items : List Yaml} {l : List (String × Option Int)} :
    readLayout items = .ok l ↔ All2 LayoutElement items l := by
  induction items generalizing l with
  | nil =>
    simp only [readLayout, Except.ok.injEq]
    constructor
    · rintro rfl; exact .nil
    · intro h; cases h; rfl
  | cons y items ih =>
    simp only [readLayout, bind_ok, guard_ok, Except.ok.injEq, text_iff, readOffset_iff, ih]
    constructor
    · rintro ⟨dv, hdv, ov, hov, ht, _, hk, n, hn, o, ho, r, hr, rfl⟩
      obtain ⟨es, rfl, rfl⟩ := get_ok hdv
      rw [get_map] at hov
      cases hov
      rw [hn] at ht
      exact .cons (.mk hn (by simpa [Yaml.truthy] using ht) (checkKeys_iff.mp hk) ho) hr
    · intro h
      cases h with
      | cons h t =>
        cases h with
        | mk hn he hk ho =>
        refine ⟨_, get_map _ _, _, get_map _ _, ?_, (), checkKeys_iff.mpr hk, _, hn, _, ho, _, t, rfl⟩
        rw [hn]
        simpa [Yaml.truthy] using he

theorem nodup_append_cons {acc : List Defn} {d : Defn} {r : List Defn} :
    ((acc ++ d :: r).map (·.name)).Nodup →
      ¬ (acc.any (·.name == d.name)) = true ∧ ((acc ++ [d] ++ r).map (·.name)).Nodup := by
  intro h
  refine ⟨?_, by simpa using h⟩
  simp only [List.any_eq_true, beq_iff_eq, not_exists, not_and]
  intro x hx e
  rw [List.map_append, List.nodup_append] at h
  exact h.2.2 x.name (List.mem_map_of_mem hx) d.name (by simp) e

theorem addFamily_iff {E : Env} {reg : Registry} {ms : List Yaml} {acc r : List Defn}
    (hacc : (acc.map (·.name)).Nodup) :
    addFamily E reg acc ms = .ok (acc ++ r) ↔
      All2 (NameOf (reg.getByName E)) ms r ∧ ((acc ++ r).map (·.name)).Nodup := by
  induction ms generalizing acc r with
  | nil =>
    simp only [addFamily, Except.ok.injEq]
    constructor
    · intro h
      have : r = [] := by simpa using h
      subst this
      exact ⟨.nil, by simpa using hacc⟩
    · rintro ⟨h, -⟩
      cases h
      simp
  | cons m ms ih =>
    simp only [addFamily, bind_ok, guard_ok, resolve_iff]
    constructor
    · rintro ⟨d, hd, hnew, h⟩
      obtain ⟨r', -, hr', -⟩ := addFamily_ok h
      have hr : r = d :: r' := by
        rw [List.append_assoc] at hr'
        exact List.append_cancel_left hr'
      subst hr
      rw [hr'] at h ⊢
      obtain ⟨h1, h2⟩ := (ih (nodup_snoc hnew hacc)).mp h
      exact ⟨.cons hd h1, h2⟩
    · rintro ⟨h, hn⟩
      cases h with
      | cons hd ht =>
        obtain ⟨h1, h2⟩ := nodup_append_cons hn
        refine ⟨_, hd, h1, ?_⟩
        have := (ih (nodup_snoc h1 hacc)).mpr ⟨ht, h2⟩
        simpa using this

theorem addGroup_iff {E : Env} {reg : Registry} {i : String} {ms : List Yaml} {acc r : List Defn}
    (hacc : (acc.map (·.name)).Nodup) :
    addGroup E reg i acc ms = .ok (acc ++ r) ↔
      All2 (NameOf (reg.getByName E)) ms r ∧ ((acc ++ r).map (·.name)).Nodup ∧
        ∀ d ∈ r, ∃ inner, d.members? = some inner ∧ ∃ x ∈ inner, x.name = i := by
  induction ms generalizing acc r with
  | nil =>
    simp only [addGroup, Except.ok.injEq]
    constructor
    · intro h
      have : r = [] := by simpa using h
      subst this
      exact ⟨.nil, by simpa using hacc, by simp⟩
    · rintro ⟨h, -⟩
      cases h
      simp
  | cons m ms ih =>
    simp only [addGroup, bind_ok, resolve_iff]
    constructor
    · rintro ⟨d, hd, h⟩
      split at h
      · cases h
      · rename_i inner hin
        simp only [guard_ok] at h
        obtain ⟨hid, hnew, h⟩ := h
        obtain ⟨r', -, hr', -⟩ := addGroup_ok h
        have hr : r = d :: r' := by
          rw [List.append_assoc] at hr'
          exact List.append_cancel_left hr'
        subst hr
        rw [hr'] at h ⊢
        obtain ⟨h1, h2, h3⟩ := (ih (nodup_snoc hnew hacc)).mp h
        refine ⟨.cons hd h1, h2, ?_⟩
        intro y hy
        rcases List.mem_cons.mp hy with rfl | hy
        · exact ⟨inner, hin, by simpa using hid⟩
        · exact h3 y hy
    · rintro ⟨h, hn, hx⟩
      cases h with
      | @cons _ d _ ds hd ht =>
        obtain ⟨h1, h2⟩ := nodup_append_cons hn
        refine ⟨d, hd, ?_⟩
        obtain ⟨inner, hin, hid⟩ := hx d (List.mem_cons_self ..)
        rw [hin]
        simp only [guard_ok]
        refine ⟨by simpa using hid, h1, ?_⟩
        have := (ih (nodup_snoc h1 hacc)).mpr ⟨ht, h2, fun y hy => hx y (List.mem_cons_of_mem _ hy)⟩
        simpa using this

theorem addMembers_iff {rm : Yaml → Except Err Defn} {Rm : Yaml → Defn → Prop} {ms : List Yaml}
    (hrm : ∀ m ∈ ms, ∀ x, rm m = .ok x ↔ Rm m x) {b : Builder}
    (hb : (b.members.map (·.name)).Nodup) {r : List Defn} :
    (∃ b', addMembers rm b ms = .ok b' ∧ b'.members = b.members ++ r) ↔
      MemberList Rm ms r ∧ ((b.members ++ r).map (·.name)).Nodup := by
  induction ms generalizing b r with
  | nil =>
    simp only [addMembers, Except.ok.injEq]
    constructor
    · rintro ⟨b', rfl, h⟩
      have : r = [] := by simpa using h
      subst this
      exact ⟨.nil, by simpa using hb⟩
    · rintro ⟨h, -⟩
      cases h
      exact ⟨b, rfl, by simp⟩
  | cons m ms ih =>
    have hrm' : ∀ m ∈ ms, ∀ x, rm m = .ok x ↔ Rm m x := fun y hy =>
      hrm y (List.mem_cons_of_mem _ hy)
    constructor
    · rintro ⟨b', h, hv⟩
      simp only [addMembers, bind_ok] at h
      obtain ⟨sv, hsv, h⟩ := h
      obtain ⟨es, rfl, rfl⟩ := get_ok hsv
      split at h
      · rename_i ht
        simp only [bind_ok, text_iff] at h
        obtain ⟨n, hn, h⟩ := h
        obtain ⟨h1, h2⟩ := (ih hrm' (b := b.addSection n) hb).mp ⟨b', h, hv⟩
        rw [hn] at ht
        exact ⟨.sect hn (by simpa [Yaml.truthy] using ht) h1, h2⟩
      · rename_i ht
        simp only [bind_ok] at h
        obtain ⟨d, hd, h⟩ := h
        unfold Builder.addMember at h
        split at h
        · rename_i he
          split at he <;> simp at he
          cases h
        · rename_i b1 he
          split at he
          · simp at he
          · rename_i hnew
            simp only [Prod.mk.injEq, true_and] at he
            subst he
            obtain ⟨ds, -, hds, -⟩ := addMembers_ok h
            simp only at hds
            have hr : r = d :: ds := by
              rw [hds, List.append_assoc] at hv
              exact (List.append_cancel_left hv).symm
            subst hr
            obtain ⟨h1, h2⟩ := (ih hrm' (b := { b with
              byteSize := none, members := b.members ++ [d], sections := appendLast d b.sections })
              (nodup_snoc hnew hb)).mp ⟨b', h, hds⟩
            refine ⟨.member (by simpa using ht) ((hrm _ (List.mem_cons_self ..) _).mp hd) h1, ?_⟩
            simpa using h2
    · rintro ⟨h, hn⟩
      cases h with
      | @sect es n _ _ hs he h =>
        obtain ⟨b', h1, h2⟩ := (ih hrm' (b := b.addSection n) hb).mpr ⟨h, hn⟩
        refine ⟨b', ?_, h2⟩
        simp only [addMembers, get_map, bind_ok]
        refine ⟨_, rfl, ?_⟩
        rw [hs, if_pos (by simpa [Yaml.truthy] using he)]
        simp only [bind_ok, text_iff]
        exact ⟨n, rfl, h1⟩
      | @member es d _ ds hs hd h =>
        obtain ⟨hnew, hn'⟩ := nodup_append_cons hn
        obtain ⟨b', h1, h2⟩ := (ih hrm' (b := { b with
              byteSize := none, members := b.members ++ [d], sections := appendLast d b.sections })
              (nodup_snoc hnew hb)).mpr ⟨h, hn'⟩
        refine ⟨b', ?_, by simpa using h2⟩
        simp only [addMembers, get_map, bind_ok]
        refine ⟨_, rfl, ?_⟩
        rw [if_neg (by simpa using hs)]
        simp only [bind_ok]
        refine ⟨d, (hrm _ (List.mem_cons_self ..) _).mpr hd, ?_⟩
        rw [Builder.addMember, if_neg hnew]
        exact h1

theorem readWithMembers_iff {rm : Yaml → Except Err Defn} {Rm : Yaml → Defn → Prop} {u : Bool}
    {ty : String} {es : List (Key × Yaml)} {name : String} {x : Defn}
    (ha : ∀ s ∈ attrsStorage, s ∈ attributeKeys ty) (ha' : ∀ s ∈ attributeKeys ty, s ∈ attrsStorage)
    (hrm : ∀ items, (entry es "members").iter = .ok items → ∀ m ∈ items, ∀ x,
      rm m = .ok x ↔ Rm m x) :
    readWithMembers rm u (.map es) name = .ok x ↔
      KnownKeys valuesWithMembers es ∧ ∃ h o items ds, Attributes ty es ∧ ByteOrder es o ∧
        Head es name o h ∧ (entry es "members").truthy = true ∧
        (entry es "members").iter = .ok items ∧ MemberList Rm items ds ∧
        (ds.map (·.name)).Nodup ∧ x = (if u then .union h ds else .struct h ds) := by
  simp only [readWithMembers, bind_ok, guard_ok, get_map, Except.ok.injEq, readHdr_iff]
  constructor
  · rintro ⟨_, rfl, ht, h0, ⟨hk, hh⟩, o, ho, items, hi, b, hb, rfl⟩
    obtain ⟨ds, -, h2, -⟩ := addMembers_ok hb
    obtain ⟨h3, h4⟩ := (addMembers_iff (hrm items hi) (b := { isUnion := u }) (by simp)).mp
      ⟨b, hb, h2⟩
    obtain ⟨h5, h6⟩ := (attrs_order ha ha' (p := o.getD .native)).mp ⟨o, ho, rfl⟩
    simp only [List.nil_append] at h2 h4
    rw [h2]
    exact ⟨hk, _, _, items, ds, h5, h6, Spec.Head.reorder.mp ⟨h0, hh, rfl⟩, by simpa using ht, hi, h3,
      h4, rfl⟩
  · rintro ⟨hk, h, p, items, ds, h5, h6, hh, ht, hi, h3, h4, rfl⟩
    obtain ⟨o, ho, rfl⟩ := (attrs_order ha ha').mpr ⟨h5, h6⟩
    obtain ⟨h0, hh0, rfl⟩ := (Spec.Head.reorder (o := .native)).mpr hh
    obtain ⟨b, hb, hm⟩ := (addMembers_iff (hrm items hi) (b := { isUnion := u }) (by simp)).mpr
      ⟨h3, by simpa using h4⟩
    simp only [List.nil_append] at hm
    exact ⟨_, rfl, by simpa using ht, h0, ⟨hk, hh0⟩, o, ho, items, hi, b, hb, by rw [hm]⟩

theorem readSize_native {E : Env} {sizes : List Nat} (s : Size) :
    readSize E sizes (.str "native") = .ok s ↔ s = .native := by
  rw [readSize_iff]
  constructor
  · rintro (⟨-, h⟩ | ⟨n, -, h, -⟩)
    · exact h
    · cases h
  · rintro rfl; exact .inl ⟨rfl, rfl⟩

theorem readSize_16 {E : Env} (s : Size) :
    readSize E [16] (.int 16) = .ok s ↔ s = .bytes 16 := by
  rw [readSize_iff]
  constructor
  · rintro (⟨h, -⟩ | ⟨n, hn, -, h⟩)
    · cases h
    · simp only [List.mem_singleton] at hn
      subst hn
      exact h
  · rintro rfl; exact .inr ⟨16, by simp, rfl, rfl⟩

theorem readSignedness_iff {as : List (Key × Yaml)} {u : Bool} :
    readSignedness (.map as) = .ok u ↔ entryD as "format" (.str "signed") = .str (signText u) := by
  constructor
  · intro h
    obtain ⟨es, h1, h2⟩ := readSignedness_ok h
    cases h1
    exact h2
  · intro h
    simp only [readSignedness, getD_map, bind_ok]
    refine ⟨_, rfl, ?_⟩
    rw [h]
    cases u <;> rfl

/-- The keys of a definition or of a member definition. -/
theorem keys_of {a b c d : List String} {mem : Bool} {es : List (Key × Yaml)}
    (h1 : ∀ s ∈ a, s ∈ c) (h2 : ∀ s ∈ c, s ∈ a) (h3 : ∀ s ∈ b, s ∈ d) (h4 : ∀ s ∈ d, s ∈ b) :
    KnownKeys (if mem then a else b) es ↔ KnownKeys (if mem then c else d) es := by
  cases mem
  · exact knownKeys_congr h3 h4
  · exact knownKeys_congr h1 h2

theorem readTyped_iff {E : Env} {reg : Registry} {rm : Bool → Yaml → Except Err Defn}
    {Rm : Bool → Yaml → Defn → Prop} {ty : String} {t : TypeInd} {mem : Bool}
    {es : List (Key × Yaml)} {name : String} {x : Defn} (ht : TypeInd.ofString ty = some t)
    (hrm : ∀ items, (entry es "members").iter = .ok items → ∀ m ∈ items, ∀ c x,
      rm c m = .ok x ↔ Rm c m x) :
    readTyped E reg rm t mem (.map es) name = .ok x ↔
      KnownKeys (if mem then memberKeys (.str ty) else definitionKeys ty) es ∧
        OfType E (reg.getByName E) Rm mem name es ty x := by
  have hty := ofString_inv ht
  cases t with
  | boolean =>
    subst hty
    simp only [readTyped, readBoolean, bind_ok, Except.ok.injEq]
    rw [← keys_of (a := valuesMember) (b := valuesStorage) (by decide) (by decide) (by decide)
      (by decide)]
    constructor
    · rintro ⟨⟨h, s, u⟩, hf, rfl⟩
      obtain ⟨h1, h2, ⟨p, h3, h4⟩, h5, h6⟩ := (readFixed_iff (ty := "boolean") (by decide)
        (by decide) readSize_native).mp hf
      exact ⟨h1, .primitive h2 h3 h4 .boolean h5 h6⟩
    · rintro ⟨h1, h⟩
      generalize hT : TypeInd.boolean.text = T at h
      cases h with
      | primitive h2 h3 h4 hk h5 h6 =>
        cases hk with
        | boolean =>
          exact ⟨(_, _, _), (readFixed_iff (ty := "boolean") (by decide) (by decide)
            readSize_native).mpr ⟨h1, h2, ⟨_, h3, h4⟩, h5, h6⟩, rfl⟩
        | _ => exact absurd hT (by decide)
      | _ => exact absurd hT (by decide)
  | character =>
    subst hty
    simp only [readTyped, readCharacter, bind_ok, Except.ok.injEq]
    rw [← keys_of (a := valuesMember) (b := valuesStorage) (by decide) (by decide) (by decide)
      (by decide)]
    constructor
    · rintro ⟨⟨h, s, u⟩, hf, rfl⟩
      obtain ⟨h1, h2, ⟨p, h3, h4⟩, h5, h6⟩ := (readFixed_iff (ty := "character") (by decide)
        (by decide) readSize_native).mp hf
      exact ⟨h1, .primitive h2 h3 h4 .character h5 h6⟩
    · rintro ⟨h1, h⟩
      generalize hT : TypeInd.character.text = T at h
      cases h with
      | primitive h2 h3 h4 hk h5 h6 =>
        cases hk with
        | character =>
          exact ⟨(_, _, _), (readFixed_iff (ty := "character") (by decide) (by decide)
            readSize_native).mpr ⟨h1, h2, ⟨_, h3, h4⟩, h5, h6⟩, rfl⟩
        | _ => exact absurd hT (by decide)
      | _ => exact absurd hT (by decide)
  | floatingPoint =>
    subst hty
    simp only [readTyped, readFloat, bind_ok, Except.ok.injEq]
    rw [← keys_of (a := valuesMember) (b := valuesStorage) (by decide) (by decide) (by decide)
      (by decide)]
    constructor
    · rintro ⟨⟨h, s, u⟩, hf, rfl⟩
      obtain ⟨h1, h2, ⟨p, h3, h4⟩, h5, h6⟩ := (readFixed_iff (ty := "floating-point") (by decide)
        (by decide) readSize_native).mp hf
      exact ⟨h1, .primitive h2 h3 h4 .floatingPoint h5 h6⟩
    · rintro ⟨h1, h⟩
      generalize hT : TypeInd.floatingPoint.text = T at h
      cases h with
      | primitive h2 h3 h4 hk h5 h6 =>
        cases hk with
        | floatingPoint =>
          exact ⟨(_, _, _), (readFixed_iff (ty := "floating-point") (by decide) (by decide)
            readSize_native).mpr ⟨h1, h2, ⟨_, h3, h4⟩, h5, h6⟩, rfl⟩
        | _ => exact absurd hT (by decide)
      | _ => exact absurd hT (by decide)
  | uuid =>
    subst hty
    simp only [readTyped, readUuid, bind_ok, Except.ok.injEq]
    rw [← keys_of (a := valuesMember) (b := valuesStorage) (by decide) (by decide) (by decide)
      (by decide)]
    constructor
    · rintro ⟨⟨h, s, u⟩, hf, rfl⟩
      obtain ⟨h1, h2, ⟨p, h3, h4⟩, h5, h6⟩ := (readFixed_iff (ty := "uuid") (by decide)
        (by decide) readSize_16).mp hf
      exact ⟨h1, .uuid h2 h3 h4 h5 h6⟩
    · rintro ⟨h1, h⟩
      generalize hT : TypeInd.uuid.text = T at h
      cases h with
      | primitive h2 h3 h4 hk h5 h6 => cases hk <;> exact absurd hT (by decide)
      | uuid h2 h3 h4 h5 h6 =>
        exact ⟨(_, _, _), (readFixed_iff (ty := "uuid") (by decide) (by decide)
          readSize_16).mpr ⟨h1, h2, ⟨_, h3, h4⟩, h5, h6⟩, rfl⟩
      | _ => exact absurd hT (by decide)
  | integer =>
    subst hty
    simp only [readTyped, readInteger, bind_ok, get_map, Except.ok.injEq]
    rw [← keys_of (a := valuesMember) (b := valuesStorage) (by decide) (by decide) (by decide)
      (by decide)]
    constructor
    · rintro ⟨⟨h, s, u⟩, hf, _, rfl, hr⟩
      obtain ⟨h1, h2, ⟨p, h3, h4⟩, h5, h6⟩ := (readFixed_iff (ty := "integer") (by decide)
        (by decide) readSize_native).mp hf
      split at hr
      · simp only [bind_ok, Except.ok.injEq] at hr
        obtain ⟨un, hun, rfl⟩ := hr
        obtain ⟨as, has, hs⟩ := readSignedness_ok hun
        exact ⟨h1, .primitive h2 h3 h4 (.integer (by rw [attrsOf_map has]; exact hs)) h5 h6⟩
      · rename_i ht
        cases hr
        refine ⟨h1, .primitive h2 h3 h4 (.integer ?_) h5 h6⟩
        rw [attrsOf_false (by simpa using ht)]
        rfl
    · rintro ⟨h1, h⟩
      generalize hT : TypeInd.integer.text = T at h
      cases h with
      | primitive h2 h3 h4 hk h5 h6 =>
        cases hk with
        | @integer u hs =>
        refine ⟨(_, _, _), (readFixed_iff (ty := "integer") (by decide) (by decide)
          readSize_native).mpr ⟨h1, h2, ⟨_, h3, h4⟩, h5, h6⟩, _, rfl, ?_⟩
        by_cases ha : (entry es "attributes").truthy = true
        · rw [if_pos ha]
          rcases h2 with h2 | ⟨as, has, -⟩
          · rw [noValue_iff, ha] at h2; cases h2
          · rw [has]
            rw [attrsOf_map has] at hs
            simp only [bind_ok, Except.ok.injEq]
            exact ⟨u, readSignedness_iff.mpr hs, rfl⟩
        · rw [if_neg ha]
          rw [attrsOf_false (by simpa using ha)] at hs
          cases u
          · rfl
          · simp [entryD, signText] at hs
        | _ => exact absurd hT (by decide)
      | _ => exact absurd hT (by decide)
  | constant =>
    subst hty
    simp only [readTyped, readConstant, guard_ok, bind_ok, get_map, Except.ok.injEq, readHdr_iff,
      Bool.not_eq_true]
    constructor
    · rintro ⟨rfl, _, rfl, hn, h, ⟨hk, hh⟩, rfl⟩
      refine ⟨(knownKeys_congr (by decide) (by decide)).mp hk, .constant rfl hh ?_ (held_iff.mpr rfl)⟩
      intro e
      rw [e] at hn
      cases hn
    · rintro ⟨hk, h⟩
      generalize hT : TypeInd.constant.text = T at h
      cases h with
      | primitive _ _ _ hk _ _ => cases hk <;> exact absurd hT (by decide)
      | constant hm hh hv hl =>
        subst hm
        rw [held_iff.mp hl]
        refine ⟨rfl, _, rfl, ?_, _, ⟨(knownKeys_congr (by decide) (by decide)).mp hk, hh⟩, rfl⟩
        cases hn : (entry es "value").isNone
        · rfl
        · exact absurd (isNone_iff.mp hn) hv
      | _ => exact absurd hT (by decide)
  | enumeration =>
    subst hty
    simp only [readTyped, readEnumeration, guard_ok, bind_ok, get_map, Except.ok.injEq, readHdr_iff,
      Bool.not_eq_true]
    have hinv : EnumInv {} := ⟨rfl, rfl, by simp, .nil⟩
    constructor
    · rintro ⟨rfl, _, rfl, ht, h, ⟨hk, hh⟩, items, hi, b, hb, rfl⟩
      obtain ⟨h1, h2⟩ := (addValues_iff hinv (vs := b.values)).mp ⟨b, hb, rfl⟩
      exact ⟨(knownKeys_congr (by decide) (by decide)).mp hk,
        .enumeration rfl hh (by simpa using ht) (items_iff.mpr hi) h1 h2⟩
    · rintro ⟨hk, h⟩
      generalize hT : TypeInd.enumeration.text = T at h
      cases h with
      | primitive _ _ _ hk _ _ => cases hk <;> exact absurd hT (by decide)
      | enumeration hm hh ht hi hv hd =>
        subst hm
        obtain ⟨b, hb, hbv⟩ := (addValues_iff hinv).mpr ⟨hv, hd⟩
        refine ⟨rfl, _, rfl, by simpa using ht, _,
          ⟨(knownKeys_congr (by decide) (by decide)).mp hk, hh⟩, _, items_iff.mp hi, b, hb, ?_⟩
        rw [hbv]
        rfl
      | _ => exact absurd hT (by decide)
  | format =>
    subst hty
    simp only [readTyped, readFormat, guard_ok, bind_ok, getD_map, Except.ok.injEq, readHdr_iff,
      Bool.not_eq_true, readLayout_iff, readAttrs_iff]
    constructor
    · rintro ⟨rfl, h, ⟨hk, hh⟩, _, rfl, items, hi, l, hl, o, ho, rfl⟩
      refine ⟨(knownKeys_congr (by decide) (by decide)).mp hk, .format rfl hh ?_ ?_ (items_iff.mpr hi) hl⟩
      · rcases ho with ⟨ho, -⟩ | ⟨-, as, p, has, hka, -⟩
        · exact .inl (noValue_iff.mpr ho)
        · exact .inr ⟨as, has, hka.mono (by decide)⟩
      · rcases ho with ho | ⟨ht, as, p, has, hka, hp⟩
        · exact .inl ⟨noValue_iff.mpr ho.1, ho.2⟩
        · exact .inr ⟨value_iff.mpr ht, p, hp⟩
    · rintro ⟨hk, h⟩
      generalize hT : TypeInd.format.text = T at h
      cases h with
      | primitive _ _ _ hk _ _ => cases hk <;> exact absurd hT (by decide)
      | format hm hh ha ho hi hl =>
        subst hm
        refine ⟨rfl, _, ⟨(knownKeys_congr (by decide) (by decide)).mp hk, hh⟩, _, rfl, _, items_iff.mp hi, _, hl, _,
          ?_, rfl⟩
        rcases ho with ho | ⟨ht, p, hp⟩
        · exact .inl ⟨noValue_iff.mp ho.1, ho.2⟩
        · rcases ha with ha | ⟨as, has, hka⟩
          · exact absurd ha ht
          · exact .inr ⟨value_iff.mp ht, as, p, has, hka.mono (by decide), hp⟩
      | _ => exact absurd hT (by decide)
  | padding =>
    subst hty
    constructor
    · intro hr
      simp only [readTyped] at hr
      obtain ⟨rfl, es', h, a, he, hh, ha, hae, rfl⟩ := readPadding_ok hr
      cases he
      have hk : KnownKeys valuesPadding es := by
        obtain ⟨es', h1, h2⟩ := hh.keys
        cases h1
        exact h2
      refine ⟨(knownKeys_congr (by decide) (by decide)).mp hk, .padding rfl ?_ hae ha⟩
      obtain ⟨_, h1, h2⟩ := hh.aliases
      obtain ⟨_, h3, h4⟩ := hh.description
      cases h1; cases h3
      exact ⟨hh.name, hh.order, names_iff.mp h2, text?_iff.mp h4⟩
    · rintro ⟨hk, h⟩
      generalize hT : TypeInd.padding.text = T at h
      cases h with
      | primitive _ _ _ hk _ _ => cases hk <;> exact absurd hT (by decide)
      | @padding _ _ _ h a hm hh ha hs =>
        subst hm
        simp only [readTyped, readPadding, guard_ok, bind_ok, get_map, Except.ok.injEq, readHdr_iff]
        refine ⟨by simp, h, ⟨(knownKeys_congr (by decide) (by decide)).mp hk, hh⟩, _, rfl, ?_, ?_⟩
        · rw [ha]
          simp only [List.mem_cons, List.not_mem_nil, or_false] at hs
          rcases hs with rfl | rfl | rfl | rfl <;> simp [Yaml.truthy]
        · rw [ha]
          simp only [Env.toInt]
          rw [if_neg]
          · rfl
          · simp only [Bool.not_eq_true, Bool.not_eq_false', List.any_eq_true]
            exact ⟨a, hs, by simp [Yaml.lit, litEq_nat]⟩
      | _ => exact absurd hT (by decide)
  | sequence =>
    subst hty
    simp only [readTyped, readSequence, readElements_iff]
    rw [← keys_of (a := valuesElementsMember) (b := valuesElements) (by decide) (by decide)
      (by decide) (by decide)]
    refine and_congr_right fun _ => ?_
    constructor
    · rintro ⟨h, i, e, rfl, hk, he, hh⟩
      exact .sequence hk he hh
    · intro h
      generalize hT : TypeInd.sequence.text = T at h
      cases h with
      | primitive _ _ _ hk _ _ => cases hk <;> exact absurd hT (by decide)
      | sequence hk he hh =>
        exact ⟨_, _, _, rfl, hk, he, hh⟩
      | _ => exact absurd hT (by decide)
  | stream =>
    subst hty
    simp only [readTyped, readStream, readElements_iff]
    rw [← keys_of (a := valuesElementsMember) (b := valuesElements) (by decide) (by decide)
      (by decide) (by decide)]
    refine and_congr_right fun _ => ?_
    constructor
    · rintro ⟨h, i, e, rfl, hk, he, hh⟩
      exact .stream hk he hh
    · intro h
      generalize hT : TypeInd.stream.text = T at h
      cases h with
      | primitive _ _ _ hk _ _ => cases hk <;> exact absurd hT (by decide)
      | stream hk he hh =>
        exact ⟨_, _, _, rfl, hk, he, hh⟩
      | _ => exact absurd hT (by decide)
  | string =>
    subst hty
    simp only [readTyped, readString_iff]
    rw [← keys_of (a := valuesStringMember) (b := valuesString)
      (c := memberKeys (.str TypeInd.string.text)) (d := definitionKeys TypeInd.string.text)
      (by decide) (by decide) (by decide) (by decide)]
    refine and_congr_right fun _ => ?_
    constructor
    · rintro ⟨h, i, e, enc, rfl, hk, henc, hne, he, hh⟩
      exact .string hk henc hne he hh
    · intro h
      generalize hT : TypeInd.string.text = T at h
      cases h with
      | primitive _ _ _ hk _ _ => cases hk <;> exact absurd hT (by decide)
      | string hk hc hn he hh =>
        exact ⟨_, _, _, _, rfl, hk, hc, hn, he, hh⟩
      | _ => exact absurd hT (by decide)
  | «structure» =>
    subst hty
    simp only [readTyped, guard_ok, Bool.not_eq_true]
    rw [readWithMembers_iff (ty := "structure") (Rm := Rm true) (by decide) (by decide)
      (fun items hi m hm x => hrm items hi m hm true x)]
    constructor
    · rintro ⟨rfl, hk, h, o, items, ds, h1, h2, h3, h4, h5, h6, h7, rfl⟩
      exact ⟨(knownKeys_congr (by decide) (by decide)).mp hk, .structure rfl h1 h2 h3
        (value_iff.mpr h4) (items_iff.mpr h5) h6 h7⟩
    · rintro ⟨hk, h⟩
      generalize hT : TypeInd.«structure».text = T at h
      cases h with
      | primitive _ _ _ hk _ _ => cases hk <;> exact absurd hT (by decide)
      | «structure» hm h1 h2 h3 h4 h5 h6 h7 =>
        subst hm
        exact ⟨rfl, (knownKeys_congr (by decide) (by decide)).mp hk, _, _, _, _, h1, h2, h3,
          value_iff.mp h4, items_iff.mp h5, h6, h7, rfl⟩
      | _ => exact absurd hT (by decide)
  | union =>
    subst hty
    simp only [readTyped]
    rw [readWithMembers_iff (ty := "union") (Rm := Rm false) (by decide) (by decide)
      (fun items hi m hm x => hrm items hi m hm false x)]
    have hkk : KnownKeys (if mem then memberKeys (.str TypeInd.union.text)
        else definitionKeys TypeInd.union.text) es ↔ KnownKeys valuesWithMembers es := by
      cases mem
      · exact knownKeys_congr (by decide) (by decide)
      · exact knownKeys_congr (by decide) (by decide)
    rw [hkk]
    refine and_congr_right fun _ => ?_
    constructor
    · rintro ⟨h, o, items, ds, h1, h2, h3, h4, h5, h6, h7, rfl⟩
      exact .union h1 h2 h3 (value_iff.mpr h4) (items_iff.mpr h5) h6 h7
    · intro h
      generalize hT : TypeInd.union.text = T at h
      cases h with
      | primitive _ _ _ hk _ _ => cases hk <;> exact absurd hT (by decide)
      | union h1 h2 h3 h4 h5 h6 h7 =>
        exact ⟨_, _, _, _, h1, h2, h3, value_iff.mp h4, items_iff.mp h5, h6, h7, rfl⟩
      | _ => exact absurd hT (by decide)
  | family =>
    subst hty
    simp only [readTyped, readFamily, guard_ok, bind_ok, get_map, Except.ok.injEq, readHdr_iff,
      Bool.not_eq_true, checkKeys_iff, resolve_iff]
    constructor
    · rintro ⟨rfl, _, hk, _, rfl, hbt, b, hb, h, ⟨-, hh⟩, _, rfl, ht, items, hi, ds, hds, rfl⟩
      obtain ⟨h1, h2⟩ := (addFamily_iff (acc := []) (by simp)).mp hds
      exact ⟨(knownKeys_congr (by decide) (by decide)).mp hk, .family rfl hh hb (by simpa using hbt)
        (by simpa using ht) (items_iff.mpr hi) h1 h2⟩
    · rintro ⟨hk, h⟩
      generalize hT : TypeInd.family.text = T at h
      cases h with
      | primitive _ _ _ hk _ _ => cases hk <;> exact absurd hT (by decide)
      | family hm hh hb hbt ht hi hl hd =>
        subst hm
        have hk' := (knownKeys_congr (sup' := valuesFamily) (by decide) (by decide)).mp hk
        exact ⟨rfl, (), hk', _, rfl, by simpa using hbt, _, hb, _, ⟨hk', hh⟩, _, rfl,
          by simpa using ht, _, items_iff.mp hi, _, (addFamily_iff (acc := []) (by simp)).mpr ⟨hl, hd⟩, rfl⟩
      | _ => exact absurd hT (by decide)
  | group =>
    subst hty
    simp only [readTyped, readGroup, guard_ok, bind_ok, get_map, Except.ok.injEq, readHdr_iff,
      Bool.not_eq_true, checkKeys_iff, resolve_iff, text_iff]
    have hdef : ∀ df, readDefault E reg (entry es "default") = .ok df ↔
        (NoValue (entry es "default") ∧ df = none) ∨
        (¬ NoValue (entry es "default") ∧
          ∃ d, NameOf (reg.getByName E) (entry es "default") d ∧ df = some d) := by
      intro df
      unfold readDefault
      rw [value_iff, noValue_iff]
      cases hdt : (entry es "default").truthy
      · simp [eq_comm]
      · simp only [Bool.not_true, Bool.false_eq_true, if_false, Bool.true_eq_false, false_and,
          false_or, true_and]
        simp only [← resolve_iff]
        cases resolve E reg (entry es "default") <;> simp [Except.map, eq_comm]
    constructor
    · rintro ⟨rfl, _, hk, _, rfl, hbt, b, hb, _, rfl, hit, _, rfl, df, hdf, ident, hid, h, ⟨-, hh⟩, _,
        rfl, ht, items, hi, ds, hds, rfl⟩
      obtain ⟨h1, h2, h3⟩ := (addGroup_iff (acc := []) (by simp)).mp hds
      rw [hid] at hit
      exact ⟨(knownKeys_congr (by decide) (by decide)).mp hk, .group rfl
        (Spec.Head.reorder.mp ⟨h, hh, rfl⟩) hb (by simpa using hbt) hid
        (by simpa [Yaml.truthy] using hit) ((hdef df).mp hdf) (by simpa using ht)
        (items_iff.mpr hi) h1 h2 h3⟩
    · rintro ⟨hk, h⟩
      generalize hT : TypeInd.group.text = T at h
      cases h with
      | primitive _ _ _ hk _ _ => cases hk <;> exact absurd hT (by decide)
      | group hm hh hb hbt hid hin hdf ht hi hl hd hx =>
        subst hm
        have hk' := (knownKeys_congr (sup' := valuesGroup) (by decide) (by decide)).mp hk
        obtain ⟨h0, hh0, rfl⟩ := (Spec.Head.reorder (o := .native)).mpr hh
        exact ⟨rfl, (), hk', _, rfl, by simpa using hbt, _, hb, _, rfl,
          by rw [hid]; simpa [Yaml.truthy] using hin, _, rfl, _, (hdef _).mpr hdf, _, hid, h0, ⟨hk', hh0⟩, _, rfl,
          by simpa using ht, _, items_iff.mp hi, _, (addGroup_iff (acc := []) (by simp)).mpr ⟨hl, hd, hx⟩, rfl⟩
      | _ => exact absurd hT (by decide)

theorem typed_type {E : Env} {reg : Registry} {Rm : Bool → Yaml → Defn → Prop} {ty : String}
    {mem : Bool} {es : List (Key × Yaml)} {name : String} {x : Defn}
    (h : OfType E (reg.getByName E) Rm mem name es ty x) : ∃ t, TypeInd.ofString ty = some t := by
  cases h with
  | primitive _ _ _ hk _ _ => cases hk <;> exact ⟨_, rfl⟩
  | _ => exact ⟨_, rfl⟩

theorem callback_iff {y : Yaml} {t : TypeInd} :
    callback y = .ok t ↔ ∃ s, y = .str s ∧ TypeInd.ofString s = some t := by
  constructor
  · exact callback_ok
  · rintro ⟨s, rfl, h⟩
    simp only [callback, Yaml.hashable, Bool.not_true, Bool.false_eq_true, if_false, h]

theorem memberName_iff {y : Yaml} {n : String} :
    memberName y = .ok n ↔ (y = .str n ∧ n ≠ "") ∨ (y = .null ∧ n = "") := by
  unfold memberName
  split
  · simp [eq_comm]
  · rename_i s
    by_cases hs : s = ""
    · subst hs
      simp
    · simp only [beq_iff_eq, hs, if_false, Except.ok.injEq, Yaml.str.injEq, reduceCtorEq, false_and,
        or_false]
      constructor
      · rintro rfl; exact ⟨rfl, hs⟩
      · exact fun h => h.1
  · rename_i h1 h2
    simp only [reduceCtorEq, false_iff, not_or, not_and]
    exact ⟨fun e => absurd e (h2 n), fun e => absurd e h1⟩

theorem supportedBy_one {v vs : Yaml} {sv : Option (List Lit)} (h : SupportedBy v vs sv) :
    v = .null ∨ vs = .null := by
  cases h <;> simp

theorem members_depth {es : List (Key × Yaml)} {items : List Yaml}
    (hi : (entry es "members").iter = .ok items) {m : Yaml} (hm : m ∈ items) :
    m.depth < (Yaml.map es).depth := by
  have h1 := iter_depth hi hm
  have hne : es ≠ [] := by
    rintro rfl
    cases hi
  have h2 := entry_depth es "members" hne
  simp only [Yaml.depth]
  omega

theorem readMember_iff {E : Env} {reg : Registry} (f : Nat) (c : Bool) (d : Yaml) (x : Defn)
    (hf : d.depth ≤ f) : readMember E reg f c d = .ok x ↔ Member E (reg.getByName E) c d x := by
  induction f generalizing c d x with
  | zero => have := depth_pos d; omega
  | succ f ih =>
    have ht : ∀ (es : List (Key × Yaml)) ty t name x, d = .map es → TypeInd.ofString ty = some t →
        (readTyped E reg (readMember E reg f) t true (.map es) name = .ok x ↔
          KnownKeys (memberKeys (.str ty)) es ∧
            OfType E (reg.getByName E) (Member E (reg.getByName E)) true name es ty x) := by
      intro es ty t name x hd ho
      subst hd
      refine readTyped_iff (mem := true) ho fun items hi m hm c x => ih c m x ?_
      have := members_depth hi hm
      omega
    constructor
    · intro hr
      rw [readMember] at hr
      simp only [bind_ok, guard_ok, memberName_iff] at hr
      obtain ⟨hd, nv, hnv, ty, hty, hnt, nm, hnm, dv, hdv, h1, h2, cv, hcv, hc, vv, hvv, vs, hvs, h3,
        sv, hsv, hr⟩ := hr
      obtain ⟨es, rfl, rfl⟩ := get_ok hnv
      rw [get_map] at hty hdv hcv hvv hvs
      cases hty; cases hdv; cases hcv; cases hvv; cases hvs
      have hcc : c = false → NoValue (entry es "condition") := by
        rintro rfl
        simpa using hc
      have hvb : entry es "value" = .null ∨ entry es "values" = .null := by
        simp only [Bool.and_eq_true, Bool.not_eq_true', not_and, Bool.not_eq_false] at h3
        cases hn : (entry es "value").isNone
        · exact .inr (isNone_iff.mp (h3 hn))
        · exact .inl (isNone_iff.mp hn)
      have hsv' := (supportedValues_iff hvb).mp hsv
      split at hr
      · rename_i htn
        simp only [bind_ok] at hr
        obtain ⟨t, htt, inner, hin, cond, hcond, hr⟩ := hr
        obtain ⟨s, hs, ho⟩ := callback_ok htt
        obtain ⟨hk, hT⟩ := (ht es s t nm inner rfl ho).mp hin
        have hdn : entry es "data_type" = .null := by
          rw [hs] at h2
          simp only [Bool.and_eq_true, not_and, Bool.not_eq_true', Bool.not_eq_false] at h2
          cases hn : (entry es "data_type").isNone
          · have := h2 hn
            simp [Yaml.isNone] at this
          · exact isNone_iff.mp hn
        have hx : x = if truthyStr cond || sv.isSome then
            .member { name := nm, order := inner.orderOrNative } inner cond none sv else inner := by
          rw [memberCondition_ok hcond]
          split at hr <;> cases hr <;> simp_all
        rw [hx]
        refine .typed ?_ hs hdn (memberCondition_iff.mp hcond) hcc hsv' hk hT
        rcases hnm with hnm | ⟨hnm, rfl⟩
        · exact .inl hnm
        · refine .inr ⟨hnm, rfl, ?_⟩
          rw [hnm, hs] at hnt
          simp only [Yaml.truthy, Bool.not_false, Bool.true_and] at hnt
          split at hnt
          · rename_i e
            cases e
            rfl
          · simp at hnt
      · rename_i htn
        simp only [bind_ok, Except.ok.injEq, resolve_iff, checkKeys_iff, get_map, names_iff,
          text?_iff, memberCondition_iff, text_iff] at hr
        obtain ⟨inner, ⟨n, hn, hg⟩, _, hk, _, rfl, _, rfl, as, has, desc, hdesc, dt, hdt, cond, hcond,
          rfl⟩ := hr
        have hdn : dt = n := by rw [hn] at hdt; cases hdt; rfl
        subst hdn
        have htn' : entry es "type" = .null := isNone_iff.mp (by simpa using htn)
        refine .reference ?_ htn' hdt hcond hcc hsv' ((knownKeys_congr (by decide) (by decide)).mp hk)
          hg ⟨rfl, rfl, has, hdesc⟩
        rcases hnm with hnm | ⟨hnm, rfl⟩
        · exact hnm
        · rw [hnm, htn'] at hnt
          simp [Yaml.truthy] at hnt
    · intro h
      cases h with
      | @typed _ es name ty inner cond sv hn hty hdt hc hcc hv hk hi =>
        obtain ⟨t, ho⟩ := typed_type hi
        have hne : (Yaml.map es).truthy = true := by
          cases es with
          | nil => cases hty
          | cons e es => rfl
        have hvb : entry es "value" = .null ∨ entry es "values" = .null := by
          exact supportedBy_one hv
        rw [readMember]
        simp only [bind_ok, guard_ok, memberName_iff, get_map, Except.ok.injEq, exists_eq_left', hne,
          hty, hdt]
        refine ⟨by simp, ?_, name, ?_, by simp [Yaml.isNone], by simp [Yaml.isNone], ?_, ?_, sv,
          (supportedValues_iff hvb).mpr hv, ?_⟩
        · rcases hn with ⟨hn, he⟩ | ⟨-, -, rfl⟩
          · rw [hn]
            simp [Yaml.truthy, he]
          · simp
        · rcases hn with hn | ⟨hn, he, -⟩
          · exact .inl hn
          · exact .inr ⟨hn, he⟩
        · cases c
          · simp [noValue_iff.mp (hcc rfl)]
          · simp
        · rcases hvb with h | h <;> simp [h, Yaml.isNone]
        · simp only [Yaml.isNone, Bool.not_false, if_true, bind_ok, callback_iff]
          refine ⟨t, ⟨ty, rfl, ho⟩, inner, (ht es ty t name inner rfl ho).mpr ⟨hk, hi⟩, cond,
            memberCondition_iff.mpr hc, ?_⟩
          rw [← memberCondition_ok (memberCondition_iff.mpr hc)]
          split <;> simp_all
      | @reference _ es name dt h inner cond sv hn hty hdt hc hcc hv hk hi hh =>
        have hne : (Yaml.map es).truthy = true := by
          cases es with
          | nil => cases hdt
          | cons e es => rfl
        have hvb : entry es "value" = .null ∨ entry es "values" = .null := by
          exact supportedBy_one hv
        rw [readMember]
        simp only [bind_ok, guard_ok, memberName_iff, get_map, Except.ok.injEq, exists_eq_left', hne,
          hty, hdt]
        refine ⟨by simp, ?_, name, .inl hn, by simp [Yaml.isNone], by simp [Yaml.isNone], ?_, ?_, sv,
          (supportedValues_iff hvb).mpr hv, ?_⟩
        · rw [hn.1]
          simp [Yaml.truthy, hn.2]
        · cases c
          · simp [noValue_iff.mp (hcc rfl)]
          · simp
        · rcases hvb with h | h <;> simp [h, Yaml.isNone]
        · simp only [Yaml.isNone, Bool.not_true, Bool.false_eq_true, if_false, bind_ok, resolve_iff,
            checkKeys_iff, names_iff, text?_iff, memberCondition_iff, text_iff,
            Except.ok.injEq, exists_eq_left']
          refine ⟨inner, ⟨dt, rfl, hi⟩, (), (knownKeys_congr (by decide) (by decide)).mp hk, h.aliases,
            hh.aliases, h.description, hh.description, dt, rfl, cond, hc, ?_⟩
          have h1 := hh.name
          have h2 := hh.order
          cases h
          simp_all

/-- **C54**, one document: the reader builds a definition from a document exactly
when the document describes it. -/
theorem C54_document (E : Env) (reg : Registry) (d : Yaml) (x : Defn) :
    readDefinition E reg d = .ok x ↔ Describes E (reg.getByName E) d x := by
  constructor
  · intro hr
    obtain ⟨es, nm, ty, t, rfl, hn, hne, hty, ho, hr⟩ := readDefinition_ok hr
    obtain ⟨h1, h2⟩ := (readTyped_iff (mem := false) (Rm := Member E (reg.getByName E)) ho
      (fun items hi m hm c x => readMember_iff _ c m x (Nat.le_of_lt (members_depth hi hm)))).mp hr
    exact ⟨es, nm, ty, rfl, hn, hne, hty, h1, h2⟩
  · rintro ⟨es, nm, ty, rfl, hn, hne, hty, hk, hT⟩
    obtain ⟨t, ho⟩ := typed_type hT
    have hne' : (Yaml.map es).truthy = true := by
      cases es with
      | nil => cases hty
      | cons e es => rfl
    simp only [readDefinition, bind_ok, guard_ok, get_map, Except.ok.injEq, exists_eq_left', hne', hn,
      hty, text_iff, Yaml.str.injEq]
    refine ⟨by simp, by simp [Yaml.truthy, hne], ?_, t, callback_iff.mpr ⟨ty, rfl, ho⟩,
      (readTyped_iff (mem := false) (Rm := Member E (reg.getByName E)) ho
      (fun items hi m hm c x =>
        readMember_iff _ c m x (Nat.le_of_lt (members_depth hi hm)))).mpr ⟨hk, hT⟩⟩
    have : ty ≠ "" := by
      rintro rfl
      cases ho
    simp [Yaml.truthy, this]

/-- A document and its definition; with another size it describes nothing. -/
example : Describes exEnvR (({} : Registry).getByName exEnvR) docU8 exU8r :=
  (C54_document exEnvR {} docU8 exU8r).mp rfl

example : ¬ ∃ x, Describes exEnvR (({} : Registry).getByName exEnvR)
    (doc [("name", .str "u3"), ("type", .str "integer"),
      ("attributes", doc [("size", .int 3)])]) x := by
  rintro ⟨x, h⟩
  have := (C54_document exEnvR {} _ x).mpr h
  cases this

end Dtf
