import Verif.Variable
import Verif.Props.Primitive
/-!
An environment in which Python evaluates the expressions of `Verif/Variable.lean` as it
should: the conditions of `Spec.Arithmetic` can be met. It has a parser for the texts of
the expressions; that it gives back the expressions is proved here.
-/
namespace Dtf
open Spec

/-- A parsed text. -/
inductive Tree
  | num (e : Expr)
  | test (t : Test)

inductive Oper
  | plus
  | minus
  | times
  | over
  | bits
  | cond
  | rel (r : Rel)
  | conj
  | disj

def Oper.chars : Oper → List Char
  | .plus => ['+']
  | .minus => ['-']
  | .times => ['*']
  | .over => ['/', '/']
  | .bits => ['&']
  | .cond => [' ', 'i', 'f', ' ']
  | .rel r => r.text.toList
  | .conj => [' ', 'a', 'n', 'd', ' ']
  | .disj => [' ', 'o', 'r', ' ']

def readOp : List Char → Option (Oper × List Char)
  | '+' :: r => some (.plus, r)
  | '-' :: r => some (.minus, r)
  | '*' :: r => some (.times, r)
  | '/' :: '/' :: r => some (.over, r)
  | '&' :: r => some (.bits, r)
  | ' ' :: 'i' :: 'f' :: ' ' :: r => some (.cond, r)
  | '=' :: '=' :: r => some (.rel .eq, r)
  | '!' :: '=' :: r => some (.rel .ne, r)
  | '<' :: '=' :: r => some (.rel .le, r)
  | '<' :: r => some (.rel .lt, r)
  | ' ' :: 'a' :: 'n' :: 'd' :: ' ' :: r => some (.conj, r)
  | ' ' :: 'o' :: 'r' :: ' ' :: r => some (.disj, r)
  | _ => none

def join : Oper → Tree → Tree → Option Tree
  | .plus, .num a, .num b => some (.num (.plus a b))
  | .minus, .num a, .num b => some (.num (.minus a b))
  | .times, .num a, .num b => some (.num (.times a b))
  | .over, .num a, .num (.number n) => some (.num (.over a n))
  | .bits, .num a, .num b => some (.num (.bits a b))
  | .rel r, .num a, .num b => some (.test (.compare r a b))
  | .conj, .test t, .test u => some (.test (.both t u))
  | .disj, .test t, .test u => some (.test (.either t u))
  | _, _, _ => none

def isWord (c : Char) : Bool := c.isAlphanum || c == '_'

/-- A number, a name, or two names with a dot between them. -/
def readAtom (cs : List Char) : Option (Tree × List Char) :=
  match cs.takeWhile isWord with
  | [] => none
  | c :: w =>
    if c.isDigit then some (.num (.number (Nat.ofDigitChars 10 (c :: w) 0)), cs.dropWhile isWord)
    else
      match cs.dropWhile isWord with
      | '.' :: r => some (.num (.field (String.ofList (c :: w)) (String.ofList (r.takeWhile isWord))), r.dropWhile isWord)
      | r => some (.num (.given (String.ofList (c :: w))), r)

def readTree : Nat → List Char → Option (Tree × List Char)
  | 0, _ => none
  | f + 1, '(' :: cs =>
    if cs.take 4 = ['n', 'o', 't', ' '] then
      match readTree f (cs.drop 4) with
      | some (.test t, ')' :: r) => some (.test (.negation t), r)
      | _ => none
    else
      match readTree f cs with
      | none => none
      | some (x, cs) =>
        match readOp cs with
        | none => none
        | some (o, cs) =>
          match readTree f cs with
          | some (y, ')' :: r) => (join o x y).map fun z => (z, r)
          | some (y, ' ' :: 'e' :: 'l' :: 's' :: 'e' :: ' ' :: cs) =>
            match o, x, y, readTree f cs with
            | .cond, .num a, .test (.compare r c d), some (.num b, ')' :: cs) => some (.num (.choose a r c d b), cs)
            | _, _, _, _ => none
          | _ => none
  | _ + 1, cs => readAtom cs

def readText (s : String) : Option Tree :=
  match readTree (s.toList.length + 1) s.toList with
  | some (x, []) => some x
  | _ => none

def Tree.eval (ns : Namespace) : Tree → Option Val
  | .num e => (e.value ns).map .int
  | .test t => (t.holds ns).map .bool

/-- Python with these expressions. -/
def arithEnv : Env :=
  { exEnv with
    evalExpr := fun s ns => (readText s).bind (Tree.eval ns)
    parses := fun s => (readText s).isSome
    parseInt := fun s =>
      match readText s with
      | some (.num (.number n)) => some n
      | _ => none
    isKeyword := fun s => ["and", "class", "else", "if", "not", "or"].contains s }

/-! ### The parser gives back what was written -/

def Spec.Expr.chars : Expr → List Char
  | .number n => Nat.toDigits 10 n
  | .given n => n.toList
  | .field r f => r.toList ++ '.' :: f.toList
  | .plus a b => '(' :: (a.chars ++ '+' :: (b.chars ++ [')']))
  | .minus a b => '(' :: (a.chars ++ '-' :: (b.chars ++ [')']))
  | .times a b => '(' :: (a.chars ++ '*' :: (b.chars ++ [')']))
  | .over a n => '(' :: (a.chars ++ '/' :: '/' :: (Nat.toDigits 10 n ++ [')']))
  | .bits a b => '(' :: (a.chars ++ '&' :: (b.chars ++ [')']))
  | .choose a r c d b => '(' :: (a.chars ++ (Oper.cond.chars ++ ('(' :: (c.chars ++ (r.text.toList ++ (d.chars ++
      ')' :: ([' ', 'e', 'l', 's', 'e', ' '] ++ (b.chars ++ [')']))))))))

def Spec.Test.chars : Test → List Char
  | .compare r a b => '(' :: (a.chars ++ (r.text.toList ++ (b.chars ++ [')'])))
  | .both t u => '(' :: (t.chars ++ (Oper.conj.chars ++ (u.chars ++ [')'])))
  | .either t u => '(' :: (t.chars ++ (Oper.disj.chars ++ (u.chars ++ [')'])))
  | .negation t => '(' :: (['n', 'o', 't', ' '] ++ (t.chars ++ [')']))

theorem expr_chars (e : Expr) : e.text.toList = e.chars := by
  induction e with
  | number n => rw [Expr.text, Expr.chars, Nat.toString_eq_repr, Nat.repr, String.toList_ofList]
  | given n => rfl
  | field r f => simp [Expr.text, Expr.chars]
  | plus a b ha hb | minus a b ha hb | times a b ha hb | bits a b ha hb => simp [Expr.text, Expr.chars, ha, hb]
  | over a n ha => simp [Expr.text, Expr.chars, ha, Nat.toString_eq_repr, Nat.repr]
  | choose a r c d b ha hc hd hb => simp [Expr.text, Expr.chars, Oper.chars, ha, hb, hc, hd]

theorem test_chars (t : Test) : t.text.toList = t.chars := by
  induction t with
  | compare r a b => simp [Test.text, Test.chars, expr_chars]
  | both t u ht hu | either t u ht hu => simp [Test.text, Test.chars, Oper.chars, ht, hu]
  | negation t ht => simp [Test.text, Test.chars, ht]

/-- No word goes on here. -/
def Stops (r : List Char) : Prop := ∀ c, r.head? = some c → isWord c = false ∧ c ≠ '.'

theorem takeWhile_word {w r : List Char} (hw : ∀ c ∈ w, isWord c = true)
    (hr : ∀ c, r.head? = some c → isWord c = false) :
    (w ++ r).takeWhile isWord = w ∧ (w ++ r).dropWhile isWord = r := by
  induction w with
  | nil =>
    cases r with
    | nil => exact ⟨rfl, rfl⟩
    | cons c r => simp [hr c rfl]
  | cons c w ih =>
    have hc := hw c (List.mem_cons_self ..)
    obtain ⟨h1, h2⟩ := ih fun c hc => hw c (List.mem_cons_of_mem _ hc)
    simp [hc, h1, h2]

theorem usable_word {n : String} (h : Spec.Usable arithEnv n) :
    (∀ c ∈ n.toList, isWord c = true) ∧ ∃ c w, n.toList = c :: w ∧ c.isDigit = false := by
  obtain ⟨⟨h1, h2, h3⟩, -⟩ := h
  refine ⟨fun c hc => ?_, ?_⟩
  · rcases h3 c hc with h | h
    · have h : c.isAlphanum = true := h
      simp [isWord, h]
    · simp [isWord, h]
  · cases hn : n.toList with
    | nil => exact absurd hn h1
    | cons c w => exact ⟨c, w, rfl, h2 c (by rw [hn]; rfl)⟩

theorem digits_word (n : Nat) : (∀ c ∈ Nat.toDigits 10 n, isWord c = true) ∧
    ∃ c w, Nat.toDigits 10 n = c :: w ∧ c.isDigit = true := by
  have hd : ∀ c ∈ Nat.toDigits 10 n, c.isDigit = true := fun c hc => Nat.isDigit_of_mem_toDigits (by omega) (by omega) hc
  refine ⟨fun c hc => ?_, ?_⟩
  · simp [isWord, Char.isAlphanum, hd c hc]
  · cases hn : Nat.toDigits 10 n with
    | nil => exact absurd hn (by simp)
    | cons c w => exact ⟨c, w, rfl, hd c (by rw [hn]; exact List.mem_cons_self ..)⟩

theorem readAtom_number (n : Nat) {r : List Char} (hr : Stops r) :
    readAtom (Nat.toDigits 10 n ++ r) = some (.num (.number n), r) := by
  obtain ⟨hw, c, w, he, hd⟩ := digits_word n
  obtain ⟨h1, h2⟩ := takeWhile_word hw fun c hc => (hr c hc).1
  unfold readAtom
  rw [h1, h2, he]
  simp only [hd, if_true]
  rw [← he, Nat.ofDigitChars_ten_toDigits]

theorem readAtom_given {n : String} (hn : Spec.Usable arithEnv n) {r : List Char} (hr : Stops r) :
    readAtom (n.toList ++ r) = some (.num (.given n), r) := by
  obtain ⟨hw, c, w, he, hd⟩ := usable_word hn
  obtain ⟨h1, h2⟩ := takeWhile_word hw fun c hc => (hr c hc).1
  unfold readAtom
  rw [h1, h2, he]
  simp only [hd, Bool.false_eq_true, if_false]
  rw [← he, String.ofList_toList]
  split
  · exact absurd rfl (hr '.' rfl).2
  · rfl

theorem readAtom_field {n f : String} (hn : Spec.Usable arithEnv n) (hf : Spec.Usable arithEnv f) {r : List Char}
    (hr : Stops r) : readAtom (n.toList ++ '.' :: (f.toList ++ r)) = some (.num (.field n f), r) := by
  obtain ⟨hw, c, w, he, hd⟩ := usable_word hn
  obtain ⟨hw', -⟩ := usable_word hf
  obtain ⟨h1, h2⟩ := takeWhile_word (r := '.' :: (f.toList ++ r)) hw (by
    intro c hc
    cases hc
    decide)
  obtain ⟨h3, h4⟩ := takeWhile_word hw' fun c hc => (hr c hc).1
  unfold readAtom
  rw [h1, h2, he]
  simp only [hd, Bool.false_eq_true, if_false]
  rw [← he, String.ofList_toList, h3, h4, String.ofList_toList]

theorem no_not {l r : List Char} {c : Char} (hl : ∀ c ∈ l, c ≠ ' ') (hne : l ≠ ['n', 'o', 't'])
    (hc : c ≠ 'n' ∧ c ≠ 'o' ∧ c ≠ 't') : (l ++ c :: r).take 4 ≠ ['n', 'o', 't', ' '] := by
  intro h
  match l, hl, hne, h with
  | [], _, _, h => simp at h; exact hc.1 h.1
  | [_], _, _, h => simp at h; exact hc.2.1 h.2.1
  | [_, _], _, _, h => simp at h; exact hc.2.2 h.2.2.1
  | [_, _, _], _, hne, h => simp at h; simp [h] at hne
  | _ :: _ :: _ :: d :: _, hl, _, h => simp at h; exact hl d (by simp) h.2.2.2

theorem expr_not {e : Expr} (h : e.Named arithEnv) {r : List Char} {c : Char} (hc : c ≠ 'n' ∧ c ≠ 'o' ∧ c ≠ 't') :
    (e.chars ++ c :: r).take 4 ≠ ['n', 'o', 't', ' '] := by
  have hw : ∀ c, isWord c = true → c ≠ ' ' := by
    rintro c hc rfl
    revert hc
    decide
  have hu : ∀ {n : String}, Spec.Usable arithEnv n → n.toList ≠ ['n', 'o', 't'] := by
    intro n hn he
    have : n = "not" := by rw [← String.toList_inj, he]; decide +kernel
    subst this
    exact absurd hn.2.1 (by decide)
  cases e with
  | number n =>
    obtain ⟨h1, d, w, he, hd⟩ := digits_word n
    rw [Expr.chars, he]
    intro hx
    rw [List.cons_append, List.take_succ_cons] at hx
    rw [(List.cons.inj hx).1] at hd
    exact absurd hd (by decide)
  | given n => exact no_not (fun c hc => hw c ((usable_word h).1 c hc)) (hu h) hc
  | field n f =>
    rw [Expr.chars, List.append_assoc]
    exact no_not (fun c hc => hw c ((usable_word h.1).1 c hc)) (hu h.1) (by decide)
  | _ =>
    rw [Expr.chars]
    intro hx
    rw [List.cons_append, List.take_succ_cons] at hx
    exact absurd (List.cons.inj hx).1 (by decide)

theorem readOp_chars (o : Oper) (r : List Char) (hr : ∀ c, r.head? = some c → c ≠ '=') :
    readOp (o.chars ++ r) = some (o, r) := by
  cases o with
  | rel x =>
    cases x with
    | lt =>
      cases r with
      | nil => rfl
      | cons c r =>
        have := hr c rfl
        show readOp ('<' :: c :: r) = _
        unfold readOp
        split <;> simp_all
    | _ => rfl
  | _ => rfl

theorem readTree_op {f : Nat} {l r : List Char} {x y z : Tree} {o : Oper} {m : List Char}
    (hnot : (l ++ (o.chars ++ (m ++ ')' :: r))).take 4 ≠ ['n', 'o', 't', ' '])
    (h1 : readTree f (l ++ (o.chars ++ (m ++ ')' :: r))) = some (x, o.chars ++ (m ++ ')' :: r)))
    (hm : ∀ c, (m ++ ')' :: r).head? = some c → c ≠ '=')
    (h2 : readTree f (m ++ ')' :: r) = some (y, ')' :: r)) (hj : join o x y = some z) :
    readTree (f + 1) ('(' :: (l ++ (o.chars ++ (m ++ ')' :: r)))) = some (z, r) := by
  rw [readTree, if_neg hnot]
  simp only [h1, readOp_chars o _ hm, h2, hj, Option.map_some]

theorem head_chars {e : Expr} (h : e.Named arithEnv) (r : List Char) : ∀ c, (e.chars ++ r).head? = some c → c ≠ '=' := by
  have hw : ∀ c, isWord c = true → c ≠ '=' := by
    rintro c hc rfl
    revert hc
    decide
  intro c hc
  cases e with
  | number n =>
    obtain ⟨h1, d, w, he, -⟩ := digits_word n
    rw [Expr.chars, he] at hc
    cases hc
    exact hw _ (h1 _ (by rw [he]; exact List.mem_cons_self ..))
  | given n =>
    obtain ⟨h1, d, w, he, -⟩ := usable_word h
    rw [Expr.chars, he] at hc
    cases hc
    exact hw _ (h1 _ (by rw [he]; exact List.mem_cons_self ..))
  | field n f =>
    obtain ⟨h1, d, w, he, -⟩ := usable_word h.1
    rw [Expr.chars, he] at hc
    cases hc
    exact hw _ (h1 _ (by rw [he]; exact List.mem_cons_self ..))
  | _ =>
    rw [Expr.chars] at hc
    cases hc
    decide

theorem stops_cons {c : Char} (h : isWord c = false ∧ c ≠ '.') (r : List Char) : Stops (c :: r) := by
  rintro d hd
  cases hd
  exact h

theorem readTree_word {f : Nat} {l : List Char} {c : Char} {w : List Char} (h : l = c :: w) (hc : c ≠ '(') :
    readTree (f + 1) l = readAtom l := by
  subst h
  rw [readTree.eq_3]
  rintro _ he
  cases he
  exact hc rfl

theorem word_paren {c : Char} (h : isWord c = true) : c ≠ '(' := by
  rintro rfl
  revert h
  decide

theorem rel_head (r : Rel) : ∃ c w, r.text.toList = c :: w ∧ (isWord c = false ∧ c ≠ '.') ∧
    c ≠ 'n' ∧ c ≠ 'o' ∧ c ≠ 't' := by
  cases r with
  | eq => exact ⟨'=', ['='], by decide +kernel, by decide, by decide⟩
  | ne => exact ⟨'!', ['='], by decide +kernel, by decide, by decide⟩
  | lt => exact ⟨'<', [], by decide +kernel, by decide, by decide⟩
  | le => exact ⟨'<', ['='], by decide +kernel, by decide, by decide⟩

theorem readTree_compare {f : Nat} {a b : Expr} {rel : Rel} {r : List Char} (ha : a.Named arithEnv) (hb : b.Named arithEnv)
    (h1 : ∀ {r}, Stops r → readTree f (a.chars ++ r) = some (.num a, r))
    (h2 : ∀ {r}, Stops r → readTree f (b.chars ++ r) = some (.num b, r)) :
    readTree (f + 1) ('(' :: (a.chars ++ (rel.text.toList ++ (b.chars ++ ')' :: r)))) = some (.test (.compare rel a b), r) := by
  obtain ⟨c, w, hc, hs, hn⟩ := rel_head rel
  refine readTree_op (o := .rel rel) (x := .num a) (y := .num b) ?_ ?_ (head_chars hb _)
    (h2 (stops_cons (by decide) _)) rfl
  · rw [Oper.chars, hc]
    exact expr_not ha hn
  · rw [Oper.chars, hc]
    exact h1 (stops_cons hs _)

theorem readTree_expr {e : Expr} (h : e.Named arithEnv) : ∀ {f : Nat} {r : List Char}, e.chars.length < f → Stops r →
    readTree f (e.chars ++ r) = some (.num e, r) := by
  induction e with
  | number n =>
    intro f r hf hr
    cases f with
    | zero => omega
    | succ f =>
      obtain ⟨h1, c, w, he, -⟩ := digits_word n
      have : c ≠ '(' := word_paren (h1 c (by rw [he]; exact List.mem_cons_self ..))
      rw [Expr.chars, readTree_word (w := w ++ r) (by rw [he]; rfl) this, readAtom_number n hr]
  | given n =>
    intro f r hf hr
    cases f with
    | zero => omega
    | succ f =>
      obtain ⟨h1, c, w, he, -⟩ := usable_word h
      have : c ≠ '(' := word_paren (h1 c (by rw [he]; exact List.mem_cons_self ..))
      rw [Expr.chars, readTree_word (w := w ++ r) (by rw [he]; rfl) this, readAtom_given h hr]
  | field n x =>
    intro f r hf hr
    cases f with
    | zero => omega
    | succ f =>
      obtain ⟨h1, c, w, he, -⟩ := usable_word h.1
      have : c ≠ '(' := word_paren (h1 c (by rw [he]; exact List.mem_cons_self ..))
      rw [Expr.chars, List.append_assoc, List.cons_append,
        readTree_word (w := w ++ '.' :: (x.toList ++ r)) (by rw [he]; rfl) this, readAtom_field h.1 h.2 hr]
  | plus a b ha hb =>
    intro f r hf hr
    cases f with
    | zero => omega
    | succ f =>
      rw [Expr.chars] at hf ⊢
      simp only [List.length_cons, List.length_append, List.length_nil] at hf
      simp only [List.cons_append, List.append_assoc, List.nil_append]
      exact readTree_op (o := .plus) (expr_not h.1 (by decide)) (ha h.1 (by omega) (stops_cons (by decide) _))
        (head_chars h.2 _) (hb h.2 (by omega) (stops_cons (by decide) _)) rfl
  | minus a b ha hb =>
    intro f r hf hr
    cases f with
    | zero => omega
    | succ f =>
      rw [Expr.chars] at hf ⊢
      simp only [List.length_cons, List.length_append, List.length_nil] at hf
      simp only [List.cons_append, List.append_assoc, List.nil_append]
      exact readTree_op (o := .minus) (expr_not h.1 (by decide)) (ha h.1 (by omega) (stops_cons (by decide) _))
        (head_chars h.2 _) (hb h.2 (by omega) (stops_cons (by decide) _)) rfl
  | times a b ha hb =>
    intro f r hf hr
    cases f with
    | zero => omega
    | succ f =>
      rw [Expr.chars] at hf ⊢
      simp only [List.length_cons, List.length_append, List.length_nil] at hf
      simp only [List.cons_append, List.append_assoc, List.nil_append]
      exact readTree_op (o := .times) (expr_not h.1 (by decide)) (ha h.1 (by omega) (stops_cons (by decide) _))
        (head_chars h.2 _) (hb h.2 (by omega) (stops_cons (by decide) _)) rfl
  | bits a b ha hb =>
    intro f r hf hr
    cases f with
    | zero => omega
    | succ f =>
      rw [Expr.chars] at hf ⊢
      simp only [List.length_cons, List.length_append, List.length_nil] at hf
      simp only [List.cons_append, List.append_assoc, List.nil_append]
      exact readTree_op (o := .bits) (expr_not h.1 (by decide)) (ha h.1 (by omega) (stops_cons (by decide) _))
        (head_chars h.2 _) (hb h.2 (by omega) (stops_cons (by decide) _)) rfl
  | over a n ha =>
    intro f r hf hr
    cases f with
    | zero => omega
    | succ f =>
      rw [Expr.chars] at hf ⊢
      simp only [List.length_cons, List.length_append, List.length_nil] at hf
      simp only [List.cons_append, List.append_assoc, List.nil_append]
      obtain ⟨h1, c, w, he, -⟩ := digits_word n
      have hc := h1 c (by rw [he]; exact List.mem_cons_self ..)
      have hn : readTree f (Nat.toDigits 10 n ++ ')' :: r) = some (.num (.number n), ')' :: r) := by
        cases f with
        | zero => omega
        | succ f =>
          rw [readTree_word (w := w ++ ')' :: r) (by rw [he]; rfl) (word_paren hc), readAtom_number n (stops_cons (by decide) _)]
      refine readTree_op (o := .over) (expr_not h.1 (by decide)) (ha h.1 (by omega) (stops_cons (by decide) _)) ?_ hn rfl
      exact head_chars (e := .number n) trivial _
  | choose a rel c d b ha hc hd hb =>
    intro f r hf hr
    cases f with
    | zero => omega
    | succ f =>
      rw [Expr.chars] at hf ⊢
      simp only [List.length_cons, List.length_append, List.length_nil, Oper.chars] at hf
      simp only [List.cons_append, List.append_assoc, List.nil_append, Oper.chars]
      rw [readTree, if_neg (expr_not h.1.1 (by decide)), ha h.1.1 (by omega) (stops_cons (by decide) _)]
      obtain ⟨g, rfl⟩ : ∃ g, f = g + 1 := ⟨f - 1, by omega⟩
      simp only [readOp]
      rw [readTree_compare h.2.1 h.2.2 (hc h.2.1 (by omega)) (hd h.2.2 (by omega))]
      have := hb h.1.2 (f := g + 1) (by omega) (stops_cons (c := ')') (by decide) r)
      simp only [this]

theorem test_head (t : Test) : ∃ w, t.chars = '(' :: w := by
  cases t <;> exact ⟨_, rfl⟩

theorem readTree_test {t : Test} (h : t.Named arithEnv) : ∀ {f : Nat} {r : List Char}, t.chars.length < f →
    readTree f (t.chars ++ r) = some (.test t, r) := by
  have hne : ∀ (t : Test) (r : List Char), (t.chars ++ r).take 4 ≠ ['n', 'o', 't', ' '] := by
    intro t r hc
    obtain ⟨w, hw⟩ := test_head t
    rw [hw, List.cons_append, List.take_succ_cons] at hc
    exact absurd (List.cons.inj hc).1 (by decide)
  have heq : ∀ (t : Test) (r : List Char) (c : Char), (t.chars ++ r).head? = some c → c ≠ '=' := by
    intro t r c hc
    obtain ⟨w, hw⟩ := test_head t
    rw [hw] at hc
    cases hc
    decide
  induction t with
  | compare rel a b =>
    intro f r hf
    cases f with
    | zero => omega
    | succ f =>
      obtain ⟨c, w, hc, hs, hn⟩ := rel_head rel
      rw [Test.chars] at hf ⊢
      simp only [List.length_cons, List.length_append, List.length_nil] at hf
      simp only [List.cons_append, List.append_assoc, List.nil_append]
      refine readTree_op (o := .rel rel) (x := .num a) (y := .num b) ?_ ?_ (head_chars h.2 _)
        (readTree_expr h.2 (by omega) (stops_cons (by decide) _)) rfl
      · rw [Oper.chars, hc]
        exact expr_not h.1 hn
      · refine readTree_expr h.1 (by omega) ?_
        rw [Oper.chars, hc]
        exact stops_cons hs _
  | both t u ht hu =>
    intro f r hf
    cases f with
    | zero => omega
    | succ f =>
      rw [Test.chars] at hf ⊢
      simp only [List.length_cons, List.length_append, List.length_nil] at hf
      simp only [List.cons_append, List.append_assoc, List.nil_append]
      exact readTree_op (o := .conj) (hne t _) (ht h.1 (by omega)) (heq u _) (hu h.2 (by omega)) rfl
  | either t u ht hu =>
    intro f r hf
    cases f with
    | zero => omega
    | succ f =>
      rw [Test.chars] at hf ⊢
      simp only [List.length_cons, List.length_append, List.length_nil] at hf
      simp only [List.cons_append, List.append_assoc, List.nil_append]
      exact readTree_op (o := .disj) (hne t _) (ht h.1 (by omega)) (heq u _) (hu h.2 (by omega)) rfl
  | negation t ht =>
    intro f r hf
    cases f with
    | zero => omega
    | succ f =>
      rw [Test.chars] at hf ⊢
      simp only [List.length_cons, List.length_append, List.length_nil] at hf
      simp only [List.cons_append, List.append_assoc, List.nil_append]
      rw [readTree, if_pos (by simp)]
      have := ht h (f := f) (r := ')' :: r) (by omega)
      simp only [List.drop_succ_cons, List.drop_zero, this]

theorem readText_expr {e : Expr} (h : e.Named arithEnv) : readText e.text = some (.num e) := by
  unfold readText
  have := readTree_expr h (f := e.chars.length + 1) (r := []) (by omega) (fun c hc => nomatch hc)
  rw [List.append_nil] at this
  rw [expr_chars, this]

theorem readText_test {t : Test} (h : t.Named arithEnv) : readText t.text = some (.test t) := by
  unfold readText
  have := readTree_test h (f := t.chars.length + 1) (r := []) (by omega)
  rw [List.append_nil] at this
  rw [test_chars, this]

/-- In the environment all of them are accepted. -/
theorem expr_accepted {e : Expr} (h : e.Named arithEnv) : e.Accepted arithEnv := by
  refine ⟨h, ?_⟩
  show (readText e.text).isSome = true
  rw [readText_expr h]
  rfl

theorem test_accepted {t : Test} (h : t.Named arithEnv) : t.Accepted arithEnv := by
  refine ⟨h, ?_⟩
  show (readText t.text).isSome = true
  rw [readText_test h]
  rfl

/-- There is such an environment. -/
theorem arithmetic_exists : Arithmetic arithEnv where
  evaluates e ns i h hv := by
    show (readText e.text).bind (Tree.eval ns) = _
    rw [readText_expr h.1]
    simp only [Option.bind_some, Tree.eval, hv, Option.map_some]
  no_number e h hc := by
    show (match readText e.text with
      | some (.num (.number n)) => some (n : Int)
      | _ => none) = none
    rw [readText_expr h.1]
    cases e with
    | number n => exact absurd rfl (hc n)
    | _ => rfl
  decides t ns b h hv := by
    show (readText t.text).bind (Tree.eval ns) = _
    rw [readText_test h.1]
    simp only [Option.bind_some, Tree.eval, hv, Option.map_some]

end Dtf
