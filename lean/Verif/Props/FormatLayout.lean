import Verif.Accessors
import Verif.Props.Library
import Verif.Props.Groups
/-!
# Property C100: the layout of a format is the one of its document
-/
namespace Dtf
open Spec

/-- After a file is read, the name of each of its documents finds the definition
the document describes, given the definitions before it. -/
theorem found {E : Env} {fs : List YamlFile} {as bs : List Yaml} {d : Yaml} {en : YamlEnd}
    (hr : (readFileObject E (readFiles E fs) { docs := as ++ d :: bs, ending := en }).1 = .ok ()) :
    ∃ prev x, Describes E (findName E prev) d x ∧
      (readFiles E (fs ++ [{ docs := as ++ d :: bs, ending := en }])).getByName E x.name = some x := by
  obtain ⟨k, xs, _, h1, h2, _⟩ := C44_stops E (readFiles E fs) { docs := as ++ d :: bs, ending := en }
  have hh := loaded_holds h1 (readFiles_holds E fs)
  obtain ⟨-, hl⟩ := (readFileObject_library (readFiles_holds E fs) _ xs).mp ⟨hr, h2⟩
  obtain ⟨ys, zs, rfl, -, hz⟩ := library_append.mp hl
  cases hz with
  | @cons _ _ _ x zs hd hf h =>
    refine ⟨_, x, hd, ?_⟩
    have : readFiles E (fs ++ [{ docs := as ++ d :: bs, ending := en }]) =
        (readFileObject E (readFiles E fs) { docs := as ++ d :: bs, ending := en }).2 := by
      simp [readFiles]
    rw [this, hh.getByName, findName, find_unique hh.nodup (by simp)]

theorem described_name {E : Env} {look : String → Option Defn} {rm : Bool → Yaml → Defn → Prop} {mem : Bool}
    {name : String} {es : List (Key × Yaml)} {ty : String} {x : Defn} (h : OfType E look rm mem name es ty x) :
    x.name = name := by
  cases h with
  | primitive ha ho hh => exact hh.name
  | uuid ha ho hh => exact hh.name
  | padding hm hh => exact hh.name
  | sequence hk he hh => exact hh.name
  | stream hk he hh => exact hh.name
  | string hk hc hn he hh => exact hh.name
  | «structure» hm ha ho hh => exact hh.name
  | union ha ho hh => exact hh.name
  | constant hm hh => exact hh.name
  | enumeration hm hh => exact hh.name
  | format hm hh => exact hh.name
  | family hm hh => exact hh.name
  | group hm hh => exact hh.name

/-- **C100**: after a file is read, CreateDataTypeMap gives for the name of a
format of the file a map whose layout is the one of the document, element by
element and in order, that refuses byte streams. -/
theorem C100_layout (E : Env) (fs : List YamlFile) (as bs : List Yaml) (es : List (Key × Yaml)) (n : String)
    (en : YamlEnd) (hn : entry es "name" = .str n) (hty : entry es "type" = .str "format")
    (hr : (readFileObject E (readFiles E fs) { docs := as ++ .map es :: bs, ending := en }).1 = .ok ()) :
    ∃ m l items, (readFiles E (fs ++ [{ docs := as ++ .map es :: bs, ending := en }])).createDataTypeMap E n = .ok m ∧
      m.layout = .ok l ∧ Items (entryD es "layout" (.list [])) items ∧ All2 LayoutElement items l ∧
      ∀ bs off depth c, (mapStream E m bs off depth c).1 = .error .mapping := by
  obtain ⟨prev, x, ⟨es', n', ty, he, hn', -, hty', -, h⟩, hx⟩ := found hr
  cases he
  rw [hn] at hn'
  cases hn'
  rw [hty] at hty'
  cases hty'
  rw [described_name h] at hx
  generalize hT : "format" = T at h
  cases h with
  | @format _ _ _ h o items l hm hh ha ho hi hl =>
    refine ⟨.format { h with name := (Defn.format h o l).name } l, l, items, ?_, rfl, hi, hl, fun bs off depth c => by rw [mapStream]⟩
    unfold Registry.createDataTypeMap
    rw [hx]
    show createMap E _ = _
    rw [createMap, createAs]
  | primitive ha ho hh hk => cases hk <;> simp at hT
  | _ => simp at hT

/-- The document of a format with two elements. -/
def exLayoutDoc : List (Key × Yaml) := [(.str "name", .str "f"), (.str "type", .str "format"),
  (.str "layout", .list [doc [("data_type", .str "u8"), ("offset", .int 0)], doc [("data_type", .str "u9")]])]

example : (readFileObject exEnvR (readFiles exEnvR []) { docs := [docU8] ++ .map exLayoutDoc :: [] }).1 = .ok () ∧
    entry exLayoutDoc "name" = .str "f" ∧ entry exLayoutDoc "type" = .str "format" ∧
    ((readFiles exEnvR [{ docs := [docU8, .map exLayoutDoc] }]).createDataTypeMap exEnvR "f").toOption.map DMap.layout =
      some (.ok [("u8", some 0), ("u9", none)]) :=
  ⟨rfl, rfl, rfl, rfl⟩

/-- The data types of a layout are not looked up: `u9` of the format above is
unknown, CreateDataTypeMap gives no map for it. -/
theorem C100_unknown :
    let reg := readFiles exEnvR [{ docs := [docU8, .map exLayoutDoc] }]
    (∃ m, reg.createDataTypeMap exEnvR "f" = .ok m ∧ m.layout = .ok [("u8", some 0), ("u9", none)]) ∧
    reg.createDataTypeMap exEnvR "u9" = .ok .missing :=
  ⟨⟨_, rfl, rfl⟩, rfl⟩

/-- Only formats have a layout. -/
theorem C100_only (E : Env) (r : Registry) (n : String) (m : DMap) (l : List (String × Option Int))
    (hm : r.createDataTypeMap E n = .ok m) (hl : m.layout = .ok l) :
    ∃ h o, r.getByName E n = some (.format h o l) := by
  cases m <;> simp only [DMap.layout, reduceCtorEq, Except.ok.injEq] at hl
  subst hl
  unfold Registry.createDataTypeMap at hm
  generalize r.getByName E n = q at hm ⊢
  rcases q with _ | d
  · cases hm
  · rcases createMap_kind hm with ⟨h, -⟩ | hk
    · cases h
    · cases d <;> simp only [KindOf] at hk
      subst hk
      exact ⟨_, _, rfl⟩

end Dtf
