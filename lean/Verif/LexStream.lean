import Verif.PropsLexer
import Verif.LexPrint
import Verif.LexAppend
/-!
# The lexer on its character iterator (`src/lexer.rs`)

`Lexer.lean` models the lexer on the list of characters it has not read. Here the same code is
modelled with its `Peekable<Fuse<I>>`, so that we can tell which characters have been taken from the
iterator the lexer was given.
-/
namespace Conch

/-- `Peekable<Fuse<I>>` of the standard library (lexer.rs:19): a character that was peeked (or the end), and the
characters that have not been taken from the iterator `I`. -/
structure Chars where
  peeked : Option (Option Char)
  rest : Str
  deriving DecidableEq, Repr

/-- `Peekable::next` of the standard library (as called in lexer.rs:33-189). -/
def Chars.next (i : Chars) : Option Char × Chars :=
  match i.peeked with
  | some v => (v, { i with peeked := none })
  | none => (i.rest.head?, { peeked := none, rest := i.rest.tail })

/-- `Peekable::peek` of the standard library (as called in lexer.rs:33-189). -/
def Chars.peek (i : Chars) : Option Char × Chars :=
  match i.peeked with
  | some v => (v, i)
  | none => (i.rest.head?, { peeked := some i.rest.head?, rest := i.rest.tail })

/-- The characters not read yet. -/
def Chars.left (i : Chars) : Str := i.peeked.join.toList ++ i.rest

/-- `Lexer`, lexer.rs:16-21. -/
structure SLexer where
  inner : Chars
  peeked : Option TokenOrLiteral
  deriving DecidableEq, Repr

/-- `Lexer::new`, lexer.rs:25-30. -/
def SLexer.new (cs : Str) : SLexer := { inner := { peeked := none, rest := cs }, peeked := none }

/-- `Lexer::next_is`, lexer.rs:32-39. -/
def Chars.nextIs (c : Char) (i : Chars) : Bool × Chars :=
  if i.peek.1 = some c then (true, i.peek.2.next.2) else (false, i.peek.2)

/-- The whitespace loop of `next_internal`, lexer.rs:174-181; the budget is the number of characters
left. -/
def Chars.takeBlank (cc : CharClass) : Nat → Chars → Str × Chars
  | 0, i => ([], i)
  | n + 1, i =>
    match i.peek with
    | (some c, i) =>
      if cc.whitespace c && c != '\n' then
        let (buf, rest) := Chars.takeBlank cc n i.next.2
        (c :: buf, rest)
      else ([], i)
    | (none, i) => ([], i)

/-- `Lexer::next_internal` after the first character and without the backslash, lexer.rs:51-189. -/
def Chars.lexOne (cc : CharClass) (cur : Char) (i : Chars) : TokenOrLiteral × Chars :=
  match cur with
  | '\n' => (.Tok .Newline, i)
  | '!' => (.Tok .Bang, i)
  | '~' => (.Tok .Tilde, i)
  | '#' => (.Tok .Pound, i)
  | '*' => (.Tok .Star, i)
  | '?' => (.Tok .Question, i)
  | '%' => (.Tok .Percent, i)
  | '-' => (.Tok .Dash, i)
  | '=' => (.Tok .Equals, i)
  | '+' => (.Tok .Plus, i)
  | ':' => (.Tok .Colon, i)
  | '@' => (.Tok .At, i)
  | '^' => (.Tok .Caret, i)
  | '/' => (.Tok .Slash, i)
  | ',' => (.Tok .Comma, i)
  | '\'' => (.Tok .SingleQuote, i)
  | '"' => (.Tok .DoubleQuote, i)
  | '`' => (.Tok .Backtick, i)
  | ';' =>
    let (b, i) := i.nextIs ';'
    (.Tok (if b then .DSemi else .Semi), i)
  | '&' =>
    let (b, i) := i.nextIs '&'
    (.Tok (if b then .AndIf else .Amp), i)
  | '|' =>
    let (b, i) := i.nextIs '|'
    (.Tok (if b then .OrIf else .Pipe), i)
  | '(' => (.Tok .ParenOpen, i)
  | ')' => (.Tok .ParenClose, i)
  | '{' => (.Tok .CurlyOpen, i)
  | '}' => (.Tok .CurlyClose, i)
  | '[' => (.Tok .SquareOpen, i)
  | ']' => (.Tok .SquareClose, i)
  | '$' =>
    match i.peek with
    | (none, i) => (.Tok .Dollar, i)
    | (some d, i) =>
      match positionalOfChar d with
      | some p => (.Tok (.ParamPositional p), i.next.2)
      | none => (.Tok .Dollar, i)
  | '<' =>
    let (b, i) := i.nextIs '<'
    if b then
      let (b, i) := i.nextIs '-'
      (.Tok (if b then .DLessDash else .DLess), i)
    else
      let (b, i) := i.nextIs '&'
      if b then (.Tok .LessAnd, i)
      else
        let (b, i) := i.nextIs '>'
        (.Tok (if b then .LessGreat else .Less), i)
  | '>' =>
    let (b, i) := i.nextIs '&'
    if b then (.Tok .GreatAnd, i)
    else
      let (b, i) := i.nextIs '>'
      if b then (.Tok .DGreat, i)
      else
        let (b, i) := i.nextIs '|'
        (.Tok (if b then .Clobber else .Great), i)
  | c =>
    if cc.whitespace c then
      let (buf, rest) := i.takeBlank cc (i.rest.length + 2)
      (.Tok (.Whitespace (c :: buf)), rest)
    else (.Lit c, i)

/-- `Lexer::next_internal`, lexer.rs:41-190. -/
def SLexer.nextInternal (cc : CharClass) (l : SLexer) : Option TokenOrLiteral × SLexer :=
  match l.peeked with
  | some p => (some p, { l with peeked := none })
  | none =>
    match l.inner.next with
    | (none, i) => (none, { l with inner := i })
    | (some c, i) =>
      if c = '\\' then
        (some (.Escaped (i.next.1.map (lexSingle cc))), { l with inner := i.next.2 })
      else
        let (t, i) := i.lexOne cc c
        (some t, { l with inner := i })

/-- The word loop of `Lexer::next`, lexer.rs:223-244, as in `Lexer.wordLoop`. -/
def SLexer.wordLoop (cc : CharClass) (isName : Bool) : Nat → Str → SLexer → Token × SLexer
  | 0, word, l => (if isName then .Name word else .Literal word, l)
  | n + 1, word, l =>
    match l.nextInternal cc with
    | (some (.Tok t), l') =>
      (if isName then .Name word else .Literal word, { l' with peeked := some (.Tok t) })
    | (some (.Escaped t), l') =>
      (if isName then .Name word else .Literal word, { l' with peeked := some (.Escaped t) })
    | (some (.Lit c), l') =>
      if isName && !cc.nameChar c then
        (.Name word, { l' with peeked := some (.Lit c) })
      else SLexer.wordLoop cc isName n (word ++ [c]) l'
    | (none, l') => (if isName then .Name word else .Literal word, l')

/-- `Lexer::next`, lexer.rs:196-253. -/
def SLexer.next (cc : CharClass) (l : SLexer) : Option Token × SLexer :=
  match l.nextInternal cc with
  | (none, l) => (none, l)
  | (some (.Tok t), l) => (some t, l)
  | (some (.Escaped t), l) => (some .Backslash, { l with peeked := t.map .Tok })
  | (some (.Lit c), l) =>
    let (t, l) := SLexer.wordLoop cc (cc.nameStart c) (l.inner.left.length + 1) [c] l
    (some t, l)

/-! ## It is the same lexer -/

/-- Once the end was peeked, nothing is left. -/
def Chars.Ok (i : Chars) : Prop := i.peeked = some none → i.rest = []

theorem Chars.next_spec {i : Chars} (h : i.Ok) :
    i.next.1 = i.left.head? ∧ i.next.2.left = i.left.tail ∧ i.next.2.peeked = none := by
  obtain ⟨p, r⟩ := i
  rcases p with _ | _ | c
  · simp [Chars.next, Chars.left]
  · obtain rfl : r = [] := h rfl
    simp [Chars.next, Chars.left]
  · simp [Chars.next, Chars.left]

theorem Chars.ok_of_none {i : Chars} (h : i.peeked = none) : i.Ok := by intro h'; rw [h] at h'; cases h'

theorem Chars.peek_spec {i : Chars} (h : i.Ok) :
    i.peek.1 = i.left.head? ∧ i.peek.2.left = i.left ∧ i.peek.2.Ok := by
  obtain ⟨p, r⟩ := i
  rcases p with _ | _ | c
  · rcases r with _ | ⟨c, r⟩ <;> simp [Chars.peek, Chars.left, Chars.Ok]
  · obtain rfl : r = [] := h rfl
    exact ⟨by simp [Chars.peek, Chars.left], rfl, h⟩
  · exact ⟨by simp [Chars.peek, Chars.left], rfl, h⟩

/-- `f'` does on the iterator what `f` does on the characters left. -/
def Sims {α : Type} (r' : α × Chars) (r : α × Str) : Prop := r'.1 = r.1 ∧ r'.2.left = r.2 ∧ r'.2.Ok

theorem nextIs_sims (c : Char) {i : Chars} (h : i.Ok) : Sims (i.nextIs c) (Conch.nextIs c i.left) := by
  obtain ⟨h1, h2, h3⟩ := Chars.peek_spec h
  unfold Chars.nextIs Conch.nextIs Sims
  rw [h1]
  obtain ⟨g1, g2, g3⟩ := Chars.next_spec h3
  rw [h2] at g2
  cases hl : i.left with
  | nil => simp [h2, h3, hl]
  | cons d ds =>
    rw [hl] at g2
    by_cases hd : d = c
    · simp [hd, g2, Chars.ok_of_none g3]
    · simp [hd, h2, h3, hl]

theorem takeBlank_sims (cc : CharClass) (n : Nat) {i : Chars} (h : i.Ok) (hn : i.left.length < n) :
    Sims (i.takeBlank cc n) (Conch.takeBlank cc i.left) := by
  induction n generalizing i with
  | zero => omega
  | succ n ih =>
    obtain ⟨h1, h2, h3⟩ := Chars.peek_spec h
    obtain ⟨g1, g2, g3⟩ := Chars.next_spec h3
    unfold Chars.takeBlank
    generalize i.peek = z at *
    obtain ⟨p, i'⟩ := z
    simp only at *
    rw [h2] at g2
    cases hl : i.left with
    | nil =>
      rw [hl] at h1 h2
      subst h1
      exact ⟨rfl, h2, h3⟩
    | cons c cs =>
      rw [hl] at h1 h2 g2 hn
      subst h1
      simp only [List.head?_cons, Conch.takeBlank]
      split
      · have := ih (Chars.ok_of_none g3) (by rw [g2]; simpa using hn)
        rw [g2] at this
        obtain ⟨k1, k2, k3⟩ := this
        exact ⟨by simp [k1], k2, k3⟩
      · exact ⟨rfl, h2, h3⟩

theorem sims_refl {α : Type} (x : α) {i : Chars} (h : i.Ok) : Sims (x, i) (x, i.left) := ⟨rfl, rfl, h⟩

theorem left_length (i : Chars) : i.left.length < i.rest.length + 2 := by
  obtain ⟨p, r⟩ := i
  rcases p with _ | _ | c <;> simp [Chars.left]

theorem lexOne_sims (cc : CharClass) (c : Char) {i : Chars} (h : i.Ok) :
    Sims (i.lexOne cc c) (Conch.lexOne cc c i.left) := by
  have one : ∀ {α : Type} {β : Type} {r' : α × Chars} {r : α × Str} (f : α → β), Sims r' r →
      Sims (f r'.1, r'.2) (f r.1, r.2) := fun f h => ⟨by rw [h.1], h.2.1, h.2.2⟩
  have ite : ∀ {α : Type} {r' : Bool × Chars} {r : Bool × Str} (f' g' : Chars → α × Chars) (f g : Str → α × Str),
      Sims r' r → (∀ i, i.Ok → Sims (f' i) (f i.left)) → (∀ i, i.Ok → Sims (g' i) (g i.left)) →
      Sims (if r'.1 = true then f' r'.2 else g' r'.2) (if r.1 = true then f r.2 else g r.2) := by
    intro α r' r f' g' f g h hf hg
    rw [← h.1, ← h.2.1]
    split
    · exact hf _ h.2.2
    · exact hg _ h.2.2
  unfold Chars.lexOne Conch.lexOne
  split <;> first | exact sims_refl _ h | skip
  · exact one (fun b => TokenOrLiteral.Tok (if b = true then .DSemi else .Semi)) (nextIs_sims ';' h)
  · exact one (fun b => TokenOrLiteral.Tok (if b = true then .AndIf else .Amp)) (nextIs_sims '&' h)
  · exact one (fun b => TokenOrLiteral.Tok (if b = true then .OrIf else .Pipe)) (nextIs_sims '|' h)
  · obtain ⟨h1, h2, h3⟩ := Chars.peek_spec h
    obtain ⟨g1, g2, g3⟩ := Chars.next_spec h3
    generalize i.peek = z at *
    obtain ⟨p, i'⟩ := z
    simp only at *
    rw [h2] at g2
    cases hl : i.left with
    | nil =>
      rw [hl] at h1 h2
      subst h1
      exact ⟨rfl, h2, h3⟩
    | cons d ds =>
      rw [hl] at h1 h2 g2
      subst h1
      simp only [List.head?_cons]
      cases positionalOfChar d with
      | some p => exact ⟨rfl, g2, Chars.ok_of_none g3⟩
      | none => exact ⟨rfl, h2, h3⟩
  · exact ite (fun i => ((TokenOrLiteral.Tok (if (i.nextIs '-').1 = true then .DLessDash else .DLess), (i.nextIs '-').2)))
      (fun i => if (i.nextIs '&').1 = true then (TokenOrLiteral.Tok .LessAnd, (i.nextIs '&').2) else
        (TokenOrLiteral.Tok (if ((i.nextIs '&').2.nextIs '>').1 = true then .LessGreat else .Less), ((i.nextIs '&').2.nextIs '>').2))
      (fun i => ((TokenOrLiteral.Tok (if (Conch.nextIs '-' i).1 = true then .DLessDash else .DLess), (Conch.nextIs '-' i).2)))
      (fun i => if (Conch.nextIs '&' i).1 = true then (TokenOrLiteral.Tok .LessAnd, (Conch.nextIs '&' i).2) else
        (TokenOrLiteral.Tok (if (Conch.nextIs '>' (Conch.nextIs '&' i).2).1 = true then .LessGreat else .Less), (Conch.nextIs '>' (Conch.nextIs '&' i).2).2))
      (nextIs_sims '<' h)
      (fun i h => one (fun b => TokenOrLiteral.Tok (if b = true then .DLessDash else .DLess)) (nextIs_sims '-' h))
      (fun i h => ite (fun i => (TokenOrLiteral.Tok .LessAnd, i))
        (fun i => (TokenOrLiteral.Tok (if (i.nextIs '>').1 = true then .LessGreat else .Less), (i.nextIs '>').2))
        (fun i => (TokenOrLiteral.Tok .LessAnd, i))
        (fun i => (TokenOrLiteral.Tok (if (Conch.nextIs '>' i).1 = true then .LessGreat else .Less), (Conch.nextIs '>' i).2))
        (nextIs_sims '&' h) (fun i h => sims_refl _ h)
        (fun i h => one (fun b => TokenOrLiteral.Tok (if b = true then .LessGreat else .Less)) (nextIs_sims '>' h)))
  · exact ite (fun i => (TokenOrLiteral.Tok .GreatAnd, i))
      (fun i => if (i.nextIs '>').1 = true then (TokenOrLiteral.Tok .DGreat, (i.nextIs '>').2) else
        (TokenOrLiteral.Tok (if ((i.nextIs '>').2.nextIs '|').1 = true then .Clobber else .Great), ((i.nextIs '>').2.nextIs '|').2))
      (fun i => (TokenOrLiteral.Tok .GreatAnd, i))
      (fun i => if (Conch.nextIs '>' i).1 = true then (TokenOrLiteral.Tok .DGreat, (Conch.nextIs '>' i).2) else
        (TokenOrLiteral.Tok (if (Conch.nextIs '|' (Conch.nextIs '>' i).2).1 = true then .Clobber else .Great), (Conch.nextIs '|' (Conch.nextIs '>' i).2).2))
      (nextIs_sims '&' h)
      (fun i h => sims_refl _ h)
      (fun i h => ite (fun i => (TokenOrLiteral.Tok .DGreat, i))
        (fun i => (TokenOrLiteral.Tok (if (i.nextIs '|').1 = true then .Clobber else .Great), (i.nextIs '|').2))
        (fun i => (TokenOrLiteral.Tok .DGreat, i))
        (fun i => (TokenOrLiteral.Tok (if (Conch.nextIs '|' i).1 = true then .Clobber else .Great), (Conch.nextIs '|' i).2))
        (nextIs_sims '>' h) (fun i h => sims_refl _ h)
        (fun i h => one (fun b => TokenOrLiteral.Tok (if b = true then .Clobber else .Great)) (nextIs_sims '|' h)))
  · have e : Conch.lexOne cc c i.left = if cc.whitespace c = true then
        (.Tok (.Whitespace (c :: (Conch.takeBlank cc i.left).1)), (Conch.takeBlank cc i.left).2)
        else (.Lit c, i.left) := by
      unfold Conch.lexOne
      split <;> first | contradiction | rfl
    change Sims _ (Conch.lexOne cc c i.left)
    rw [e]
    by_cases hw : cc.whitespace c = true
    · rw [if_pos hw, if_pos hw]
      exact one (fun b => TokenOrLiteral.Tok (.Whitespace (c :: b))) (takeBlank_sims cc _ h (left_length i))
    · rw [if_neg hw, if_neg hw]
      exact sims_refl _ h

/-- The lexer on the characters left. -/
def SLexer.abs (l : SLexer) : Lexer := ⟨l.inner.left, l.peeked⟩

theorem nextInternal_sims (cc : CharClass) {l : SLexer} (h : l.inner.Ok) :
    (l.nextInternal cc).1 = (l.abs.nextInternal cc).1 ∧ (l.nextInternal cc).2.abs = (l.abs.nextInternal cc).2 ∧
      (l.nextInternal cc).2.inner.Ok := by
  obtain ⟨i, p⟩ := l
  cases p with
  | some p => exact ⟨rfl, rfl, h⟩
  | none =>
    obtain ⟨h1, h2, h3⟩ := Chars.next_spec h
    simp only [SLexer.nextInternal, Lexer.nextInternal, SLexer.abs]
    generalize i.next = z at *
    obtain ⟨c, i'⟩ := z
    simp only at *
    have hok := Chars.ok_of_none h3
    obtain ⟨g1, g2, g3⟩ := Chars.next_spec hok
    match hl : i.left with
    | [] =>
      rw [hl] at h1 h2
      subst h1
      exact ⟨rfl, by simp [h2], hok⟩
    | d :: ds =>
      rw [hl] at h1 h2
      simp only [List.head?_cons, List.tail_cons] at h1 h2
      subst h1
      simp only
      rw [h2] at g1 g2
      by_cases hd : d = '\\'
      · subst hd
        simp only [if_true]
        cases ds with
        | nil => exact ⟨by simp [g1], by simp [g2], Chars.ok_of_none g3⟩
        | cons e es => exact ⟨by simp [g1], by simp [g2], Chars.ok_of_none g3⟩
      · have := lexOne_sims cc d hok
        rw [h2] at this
        rw [if_neg hd]
        obtain ⟨k1, k2, k3⟩ := this
        split
        · rename_i e; cases e
        · rename_i e; cases e; exact absurd rfl hd
        · rename_i e; cases e; exact absurd rfl hd
        · rename_i e
          cases e
          exact ⟨by simp [k1], by simp [k2], k3⟩

theorem wordLoop_sims (cc : CharClass) (b : Bool) (n : Nat) (w : Str) {l : SLexer} (h : l.inner.Ok) :
    (l.wordLoop cc b n w).1 = (l.abs.wordLoop cc b n w).1 ∧ (l.wordLoop cc b n w).2.abs = (l.abs.wordLoop cc b n w).2 ∧
      (l.wordLoop cc b n w).2.inner.Ok := by
  induction n generalizing l w with
  | zero => exact ⟨rfl, rfl, h⟩
  | succ n ih =>
    obtain ⟨h1, h2, h3⟩ := nextInternal_sims cc h
    simp only [SLexer.wordLoop, Lexer.wordLoop]
    generalize l.nextInternal cc = z at *
    generalize l.abs.nextInternal cc = z' at *
    obtain ⟨x, l1⟩ := z
    obtain ⟨x', l1'⟩ := z'
    simp only at h1 h2 h3
    subst h1 h2
    rcases x with _ | t | t | c
    · exact ⟨rfl, rfl, h3⟩
    · exact ⟨rfl, rfl, h3⟩
    · exact ⟨rfl, rfl, h3⟩
    · simp only
      split
      · exact ⟨rfl, rfl, h3⟩
      · exact ih _ h3

/-- `Lexer::next` on the iterator of characters is `Lexer::next` on the characters left. -/
theorem next_sims (cc : CharClass) {l : SLexer} (h : l.inner.Ok) :
    (l.next cc).1 = (l.abs.next cc).1 ∧ (l.next cc).2.abs = (l.abs.next cc).2 ∧ (l.next cc).2.inner.Ok := by
  obtain ⟨h1, h2, h3⟩ := nextInternal_sims cc h
  simp only [SLexer.next, Lexer.next]
  generalize l.nextInternal cc = z at *
  generalize l.abs.nextInternal cc = z' at *
  obtain ⟨x, l1⟩ := z
  obtain ⟨x', l1'⟩ := z'
  simp only at h1 h2 h3
  subst h1 h2
  rcases x with _ | t | t | c
  · exact ⟨rfl, rfl, h3⟩
  · exact ⟨rfl, rfl, h3⟩
  · exact ⟨rfl, rfl, h3⟩
  · obtain ⟨k1, k2, k3⟩ := wordLoop_sims cc (cc.nameStart c) (l1.inner.left.length + 1) [c] h3
    exact ⟨congrArg some k1, k2, k3⟩

/-- The lexer after `n` calls of `next`. -/
def Spec.afterS (cc : CharClass) (l : SLexer) : Nat → SLexer
  | 0 => l
  | n + 1 => ((afterS cc l n).next cc).2

open Spec

theorem afterS_sims (cc : CharClass) (src : Str) (n : Nat) :
    (afterS cc (.new src) n).abs = after cc (.new src) n ∧ (afterS cc (.new src) n).inner.Ok := by
  induction n with
  | zero => exact ⟨rfl, fun h => by cases h⟩
  | succ n ih =>
    obtain ⟨h1, h2, h3⟩ := next_sims cc ih.2
    rw [ih.1] at h2
    exact ⟨h2, h3⟩

/-! ## What it takes from the iterator -/

/-- The text of what `next_internal` returned. -/
def TokenOrLiteral.text : TokenOrLiteral → Str
  | .Tok t => t.asStr
  | .Escaped none => ['\\']
  | .Escaped (some t) => '\\' :: t.asStr
  | .Lit c => [c]

/-- The characters taken from the iterator that are not part of a token that was returned. -/
def SLexer.ahead (l : SLexer) : Str :=
  (match l.peeked with | some p => p.text | none => []) ++ l.inner.peeked.join.toList

/-- A newline is at most the last of these characters. -/
def Spec.CharsWithinLine (x : Str) : Prop := ∀ y z, x = y ++ '\n' :: z → z = []

theorem charsWithin_snoc {x : Str} (h : '\n' ∉ x) (o : Option Char) : CharsWithinLine (x ++ o.toList) := by
  intro y z e
  cases o with
  | none => simp at e; subst e; simp at h
  | some c =>
    rcases List.eq_nil_or_concat z with rfl | ⟨z', d, rfl⟩
    · rfl
    · exfalso
      have e : x ++ [c] = (y ++ '\n' :: z') ++ [d] := by simpa using e
      have := (List.append_inj' e rfl).1
      subst this
      simp at h

/-- What `next_internal` returned, and what is peeked after that. -/
def Tidy (t : TokenOrLiteral) (i : Chars) : Prop :=
  '\n' ∉ t.text ∨ i.peeked = none ∧ ∃ x, t.text = x ++ ['\n'] ∧ '\n' ∉ x

theorem Tidy.within {t : TokenOrLiteral} {i : Chars} (h : Tidy t i) : CharsWithinLine (t.text ++ i.peeked.join.toList) := by
  rcases h with h | ⟨h, x, hx, hn⟩
  · exact charsWithin_snoc h _
  · rw [h, hx]
    have := charsWithin_snoc hn (some '\n')
    simpa using this

theorem lexSingle_text (cc : CharClass) (c : Char) : (lexSingle cc c).asStr = [c] := single_asStr (lexSingle_spec cc c)

theorem lexOne_tidy (cc : CharClass) (c : Char) {i : Chars} (h : i.peeked = none) (hc : c ≠ '\\') :
    Tidy (i.lexOne cc c).1 (i.lexOne cc c).2 := by
  by_cases hn : c = '\n'
  · subst hn
    exact .inr ⟨h, [], rfl, by simp⟩
  left
  rw [(lexOne_sims cc c (Chars.ok_of_none h)).1]
  rcases lexOne_spec cc c i.left hc with ⟨o, t, e, h2⟩ | ⟨h1, h2, e⟩ | ⟨h1, e⟩
  · rw [e]
    show '\n' ∉ t.asStr
    rw [operators_asStr (o, t) h2.1]
    intro hm
    have := newline_op h2.1 hm
    simp only at this
    subst this
    have := h2.2.1
    simp at this
    exact hn this.symm
  · rw [e]
    show '\n' ∉ (c :: (takeBlank cc i.left).1)
    have := (takeBlank_maximal cc i.left).1
    intro hm
    rcases List.mem_cons.1 hm with hm | hm
    · exact hn hm.symm
    · exact (this _ hm).2 rfl
  · rw [e]
    show '\n' ∉ [c]
    simpa using Ne.symm hn

theorem nextInternal_tidy (cc : CharClass) {l : SLexer} (h : l.inner.Ok) (hp : ∀ p, l.peeked = some p → Tidy p l.inner) :
    (l.nextInternal cc).2.peeked = none ∧ ∀ t, (l.nextInternal cc).1 = some t → Tidy t (l.nextInternal cc).2.inner := by
  obtain ⟨i, p⟩ := l
  cases p with
  | some p => exact ⟨rfl, fun t ht => by cases ht; exact hp _ rfl⟩
  | none =>
    obtain ⟨h1, h2, h3⟩ := Chars.next_spec h
    simp only [SLexer.nextInternal]
    generalize i.next = z at *
    obtain ⟨c, i'⟩ := z
    simp only at *
    have hok := Chars.ok_of_none h3
    obtain ⟨g1, g2, g3⟩ := Chars.next_spec hok
    cases c with
    | none => exact ⟨rfl, fun t ht => by cases ht⟩
    | some c =>
      simp only
      split
      · refine ⟨rfl, fun t ht => ?_⟩
        cases ht
        cases hn : i'.next.1 with
        | none => left; show '\n' ∉ ['\\']; decide
        | some d =>
          by_cases hd : d = '\n'
          · subst hd
            exact .inr ⟨g3, ['\\'], by show '\\' :: (lexSingle cc _).asStr = _; rw [lexSingle_text]; rfl, by decide⟩
          · left
            show '\n' ∉ '\\' :: (lexSingle cc d).asStr
            rw [lexSingle_text]
            simp [Ne.symm hd]
      · rename_i hc
        exact ⟨rfl, fun t ht => by cases ht; exact lexOne_tidy cc c h3 hc⟩

/-- The invariant: what is peeked is tidy. -/
def SLexer.Tidy (l : SLexer) : Prop := l.inner.Ok ∧ ∀ p, l.peeked = some p → Conch.Tidy p l.inner

theorem tidy_none {l : SLexer} (h : l.inner.Ok) (hp : l.peeked = none) : l.Tidy :=
  ⟨h, fun p h => by rw [hp] at h; cases h⟩

theorem wordLoop_tidy (cc : CharClass) (b : Bool) (n : Nat) (w : Str) {l : SLexer} (h : l.Tidy) :
    (l.wordLoop cc b n w).2.Tidy ∧ (l.wordLoop cc b n w).1 ≠ .Newline := by
  have hw : ∀ w : Str, (if b = true then Token.Name w else .Literal w) ≠ .Newline := by intro w; split <;> simp
  induction n generalizing l w with
  | zero => exact ⟨h, hw w⟩
  | succ n ih =>
    obtain ⟨h1, h2⟩ := nextInternal_tidy cc h.1 h.2
    have h3 := (nextInternal_sims cc h.1).2.2
    simp only [SLexer.wordLoop]
    generalize l.nextInternal cc = z at *
    obtain ⟨x, l1⟩ := z
    simp only at h1 h2 h3
    rcases x with _ | t | t | c
    · exact ⟨tidy_none h3 h1, hw w⟩
    · exact ⟨⟨h3, fun p hp => by cases hp; exact h2 _ rfl⟩, hw w⟩
    · exact ⟨⟨h3, fun p hp => by cases hp; exact h2 _ rfl⟩, hw w⟩
    · simp only
      split
      · exact ⟨⟨h3, fun p hp => by cases hp; exact h2 _ rfl⟩, by simp⟩
      · exact ih _ (tidy_none h3 h1)

theorem Tidy.escaped {t : Token} {i : Chars} (h : Tidy (.Escaped (some t)) i) : Tidy (.Tok t) i := by
  rcases h with h | ⟨h1, x, h2, h3⟩
  · left
    intro hm
    exact h (List.mem_cons_of_mem _ hm)
  · right
    refine ⟨h1, ?_⟩
    cases x with
    | nil => cases h2
    | cons y x =>
      injection h2 with _ h2
      exact ⟨x, h2, fun hm => h3 (List.mem_cons_of_mem _ hm)⟩

theorem next_tidy (cc : CharClass) {l : SLexer} (h : l.Tidy) :
    (l.next cc).2.Tidy ∧ ((l.next cc).1 = some .Newline → (l.next cc).2.ahead = []) := by
  obtain ⟨h1, h2⟩ := nextInternal_tidy cc h.1 h.2
  have h3 := (nextInternal_sims cc h.1).2.2
  simp only [SLexer.next]
  generalize l.nextInternal cc = z at *
  obtain ⟨x, l1⟩ := z
  simp only at h1 h2 h3
  rcases x with _ | t | t | c
  · exact ⟨tidy_none h3 h1, fun h => by cases h⟩
  · refine ⟨tidy_none h3 h1, fun h => ?_⟩
    cases h
    rcases h2 _ rfl with h | ⟨h, -⟩
    · exact absurd (by decide) h
    · simp only [SLexer.ahead, h1, h]
      rfl
  · refine ⟨⟨h3, fun p hp => ?_⟩, fun h => by cases h⟩
    cases t with
    | none => cases hp
    | some t => cases hp; exact (h2 _ rfl).escaped
  · obtain ⟨k1, k2⟩ := wordLoop_tidy cc (cc.nameStart c) (l1.inner.left.length + 1) [c] (tidy_none h3 h1)
    exact ⟨k1, fun h => absurd (Option.some.inj h) k2⟩

theorem afterS_tidy (cc : CharClass) (src : Str) (n : Nat) : (afterS cc (.new src) n).Tidy := by
  induction n with
  | zero => exact tidy_none (fun h => by cases h) rfl
  | succ n ih => exact (next_tidy cc ih).1

theorem SLexer.Tidy.within {l : SLexer} (h : l.Tidy) : CharsWithinLine l.ahead := by
  obtain ⟨i, p⟩ := l
  cases p with
  | none => exact charsWithin_snoc (x := []) (by simp) _
  | some p => exact (h.2 p rfl).within

theorem lexes_concat {cc : CharClass} {s : Str} {ts : List Token} (h : Lexes cc s ts) : concatTokens ts = s := by
  rw [← (C03_tokens_iff_grammar cc s ts).2 h]
  exact C01_concat_tokens cc s

theorem rem_concat {cc : CharClass} {l : SLexer} {ts : List Token} (h : Rem cc l.abs ts) :
    concatTokens ts = l.ahead ++ l.inner.rest := by
  obtain ⟨i, p⟩ := l
  generalize hl : SLexer.abs ⟨i, p⟩ = l' at h
  cases h with
  | none h => cases hl; rw [lexes_concat h]; simp [SLexer.ahead, Chars.left]
  | tok h =>
    cases hl
    rw [show concatTokens (_ :: _) = _ ++ concatTokens _ from rfl, lexes_concat h]
    simp [SLexer.ahead, Chars.left, TokenOrLiteral.text]
  | escNone =>
    have h1 : i.left = [] := congrArg Lexer.inner hl
    have h2 : p = _ := congrArg Lexer.peeked hl
    subst h2
    simp only [Chars.left, List.append_eq_nil_iff] at h1
    simp [SLexer.ahead, TokenOrLiteral.text, h1.1, h1.2]
    rfl
  | esc h =>
    cases hl
    rw [show concatTokens (_ :: _ :: _) = _ ++ (_ ++ concatTokens _) from rfl, lexes_concat h]
    simp [SLexer.ahead, Chars.left, TokenOrLiteral.text, Token.asStr]
  | lit hp h =>
    cases hl
    rw [lexes_concat h]
    simp [SLexer.ahead, Chars.left, TokenOrLiteral.text]

/-! ## The claims -/

/-- The characters the lexer has not taken from the iterator it was given. -/
def SLexer.untaken (l : SLexer) : Str := l.inner.rest

/-- The lexer with its iterator yields the tokens of the text, one by one. -/
theorem C45_lexer_tokens (cc : CharClass) (src : Str) (n : Nat) :
    ((afterS cc (.new src) n).next cc).1 = (lex cc src)[n]? := by
  obtain ⟨h1, h2⟩ := afterS_sims cc src n
  rw [(next_sims cc h2).1, h1, C06_next_yields_sequence]

theorem afterS_text (cc : CharClass) (src : Str) (n : Nat) :
    src = concatTokens ((lex cc src).take n) ++ (afterS cc (.new src) n).ahead ++ (afterS cc (.new src) n).untaken := by
  have h := (after_spec cc (Lexer.new src) .none _ (.none (lex_lexes cc src)) n).2.1
  rw [← (afterS_sims cc src n).1] at h
  rw [List.append_assoc, SLexer.untaken, ← rem_concat h]
  have := C01_concat_tokens cc src
  rw [← List.take_append_drop n (lex cc src), concatTokens_append] at this
  exact this.symm

/-- **C45.** After any number of tokens, the lexer has taken from its iterator the text of those tokens
and perhaps some characters more, none of which is after a newline. -/
theorem C45_lexer_within_line (cc : CharClass) (src : Str) (n : Nat) :
    ∃ ahead, src = concatTokens ((lex cc src).take n) ++ ahead ++ (afterS cc (.new src) n).untaken ∧
      CharsWithinLine ahead :=
  ⟨_, afterS_text cc src n, (afterS_tidy cc src n).within⟩

/-- **C45.** When the lexer yields a newline, it has taken nothing after it. -/
theorem C45_lexer_newline (cc : CharClass) (src : Str) (n : Nat) (h : (lex cc src)[n]? = some .Newline) :
    src = concatTokens ((lex cc src).take (n + 1)) ++ (afterS cc (.new src) (n + 1)).untaken := by
  have := afterS_text cc src (n + 1)
  rw [show (afterS cc (.new src) (n + 1)).ahead = [] from
    (next_tidy cc (afterS_tidy cc src n)).2 (by rw [C45_lexer_tokens]; exact h)] at this
  simpa using this

example : (lex ascii "ab\ncd".toList)[1]? = some .Newline ∧
    (afterS ascii (.new "ab\ncd".toList) 2).untaken = "cd".toList := by decide

end Conch
