import Verif.Token
/-!
# The lexer (`src/lexer.rs`)

`char::is_alphabetic` and `char::is_whitespace` (Unicode tables of the Rust standard library)
are parameters (`CharClass`).
-/
namespace Conch

/-- The two Unicode predicates of Rust's `char` the lexer uses (lexer.rs:169, 175 and 198). -/
structure CharClass where
  alphabetic : Char → Bool
  whitespace : Char → Bool

/-- `char::is_digit(10)`, lexer.rs:202. -/
def isDigit (c : Char) : Bool := '0' ≤ c && c ≤ '9'

/-- `name_start_char`, lexer.rs:197-199. -/
def CharClass.nameStart (cc : CharClass) (c : Char) : Bool := c == '_' || cc.alphabetic c

/-- `name_char`, lexer.rs:205-207. -/
def CharClass.nameChar (cc : CharClass) (c : Char) : Bool := isDigit c || cc.nameStart c

/-- `TokenOrLiteral`, lexer.rs:8-13. -/
inductive TokenOrLiteral
  | Tok (t : Token)
  | Escaped (t : Option Token)
  | Lit (c : Char)
  deriving DecidableEq, Repr

/-- `Lexer`, lexer.rs:16-21. `inner` is the (fused, peekable) character iterator: the characters
not read yet. -/
structure Lexer where
  inner : Str
  peeked : Option TokenOrLiteral
  deriving DecidableEq, Repr

/-- `Lexer::new`, lexer.rs:25-30. -/
def Lexer.new (cs : Str) : Lexer := { inner := cs, peeked := none }

/-- `Lexer::next_is`, lexer.rs:32-39, on the unread characters. -/
def nextIs (c : Char) (cs : Str) : Bool × Str :=
  match cs with
  | d :: ds => if d = c then (true, ds) else (false, d :: ds)
  | [] => (false, [])

/-- The whitespace loop of `next_internal`, lexer.rs:174-181: reads whitespace other than `\n`. -/
def takeBlank (cc : CharClass) : Str → Str × Str
  | [] => ([], [])
  | c :: cs =>
    if cc.whitespace c && c != '\n' then
      let (buf, rest) := takeBlank cc cs
      (c :: buf, rest)
    else ([], c :: cs)

/-- The digit table of the `$` case, lexer.rs:117-129. -/
def positionalOfChar : Char → Option Positional
  | '0' => some .Zero | '1' => some .One | '2' => some .Two | '3' => some .Three
  | '4' => some .Four | '5' => some .Five | '6' => some .Six | '7' => some .Seven
  | '8' => some .Eight | '9' => some .Nine
  | _ => none

/-- `Lexer::next_internal` without the `peeked` check and without the backslash case
(lexer.rs:51-189): one character `cur` has been read, `cs` are the characters after it.
Returns the token or literal and the characters left. -/
def lexOne (cc : CharClass) (cur : Char) (cs : Str) : TokenOrLiteral × Str :=
  match cur with
  | '\n' => (.Tok .Newline, cs)
  | '!' => (.Tok .Bang, cs)
  | '~' => (.Tok .Tilde, cs)
  | '#' => (.Tok .Pound, cs)
  | '*' => (.Tok .Star, cs)
  | '?' => (.Tok .Question, cs)
  | '%' => (.Tok .Percent, cs)
  | '-' => (.Tok .Dash, cs)
  | '=' => (.Tok .Equals, cs)
  | '+' => (.Tok .Plus, cs)
  | ':' => (.Tok .Colon, cs)
  | '@' => (.Tok .At, cs)
  | '^' => (.Tok .Caret, cs)
  | '/' => (.Tok .Slash, cs)
  | ',' => (.Tok .Comma, cs)
  | '\'' => (.Tok .SingleQuote, cs)
  | '"' => (.Tok .DoubleQuote, cs)
  | '`' => (.Tok .Backtick, cs)
  | ';' =>
    let (b, cs) := nextIs ';' cs
    (.Tok (if b then .DSemi else .Semi), cs)
  | '&' =>
    let (b, cs) := nextIs '&' cs
    (.Tok (if b then .AndIf else .Amp), cs)
  | '|' =>
    let (b, cs) := nextIs '|' cs
    (.Tok (if b then .OrIf else .Pipe), cs)
  | '(' => (.Tok .ParenOpen, cs)
  | ')' => (.Tok .ParenClose, cs)
  | '{' => (.Tok .CurlyOpen, cs)
  | '}' => (.Tok .CurlyClose, cs)
  | '[' => (.Tok .SquareOpen, cs)
  | ']' => (.Tok .SquareClose, cs)
  | '$' =>
    match cs with
    | [] => (.Tok .Dollar, [])
    | d :: ds =>
      match positionalOfChar d with
      | some p => (.Tok (.ParamPositional p), ds)
      | none => (.Tok .Dollar, d :: ds)
  | '<' =>
    let (b, cs) := nextIs '<' cs
    if b then
      let (b, cs) := nextIs '-' cs
      (.Tok (if b then .DLessDash else .DLess), cs)
    else
      let (b, cs) := nextIs '&' cs
      if b then (.Tok .LessAnd, cs)
      else
        let (b, cs) := nextIs '>' cs
        (.Tok (if b then .LessGreat else .Less), cs)
  | '>' =>
    let (b, cs) := nextIs '&' cs
    if b then (.Tok .GreatAnd, cs)
    else
      let (b, cs) := nextIs '>' cs
      if b then (.Tok .DGreat, cs)
      else
        let (b, cs) := nextIs '|' cs
        (.Tok (if b then .Clobber else .Great), cs)
  | c =>
    if cc.whitespace c then
      let (buf, rest) := takeBlank cc cs
      (.Tok (.Whitespace (c :: buf)), rest)
    else (.Lit c, cs)

/-- `Lexer::new(std::iter::once(c)).next()`, lexer.rs:83: the token of a single character on its
own. (A backslash yields `Backslash`, lexer.rs:211-216 with `Escaped(None)`; a literal character
yields a `Name` or `Literal`, lexer.rs:218-251 with an exhausted iterator.)
`Lexer.next_once` proves that this is what the state machine below does. -/
def lexSingle (cc : CharClass) (c : Char) : Token :=
  if c = '\\' then .Backslash else
  match (lexOne cc c []).1 with
  | .Tok t => t
  | .Escaped _ => .Backslash
  | .Lit c => if cc.nameStart c then .Name [c] else .Literal [c]

/-- `Lexer::next_internal`, lexer.rs:41-190. -/
def Lexer.nextInternal (cc : CharClass) (l : Lexer) : Option TokenOrLiteral × Lexer :=
  match l.peeked with
  | some p => (some p, { l with peeked := none })
  | none =>
    match l.inner with
    | [] => (none, l)
    | '\\' :: [] => (some (.Escaped none), { l with inner := [] })
    | '\\' :: c :: cs => (some (.Escaped (some (lexSingle cc c))), { l with inner := cs })
    | c :: cs =>
      let (t, rest) := lexOne cc c cs
      (some t, { l with inner := rest })

/-- The word loop of `Lexer::next`, lexer.rs:223-244. `word` is what has been collected, the
budget `n` bounds the number of iterations (`Lexer.next` supplies enough). The returned `Bool`
tells whether the loop returned `Name` early. -/
def Lexer.wordLoop (cc : CharClass) (isName : Bool) : Nat → Str → Lexer → Token × Lexer
  | 0, word, l => (if isName then .Name word else .Literal word, l)
  | n + 1, word, l =>
    match l.nextInternal cc with
    | (some (.Tok t), l') =>
      (if isName then .Name word else .Literal word, { l' with peeked := some (.Tok t) })
    | (some (.Escaped t), l') =>
      (if isName then .Name word else .Literal word, { l' with peeked := some (.Escaped t) })
    | (some (.Lit c), l') =>
      if isName && !cc.nameChar c then
        (.Name word, { l' with peeked := some (.Lit c) })
      else Lexer.wordLoop cc isName n (word ++ [c]) l'
    | (none, l') => (if isName then .Name word else .Literal word, l')

/-- `Lexer::next`, lexer.rs:196-253. -/
def Lexer.next (cc : CharClass) (l : Lexer) : Option Token × Lexer :=
  match l.nextInternal cc with
  | (none, l) => (none, l)
  | (some (.Tok t), l) => (some t, l)
  | (some (.Escaped t), l) => (some .Backslash, { l with peeked := t.map .Tok })
  | (some (.Lit c), l) =>
    let (t, l) := Lexer.wordLoop cc (cc.nameStart c) (l.inner.length + 1) [c] l
    (some t, l)

/-- Size hint of the character iterator behind `Peekable<Fuse<_>>`, as a pair of bounds on the
number of characters left; `str::Chars` gives `((bytes+3)/4, Some(bytes))`. -/
structure SizeHint where
  low : Nat
  high : Option Nat
  deriving DecidableEq, Repr

/-- `Lexer::size_hint`, lexer.rs:255-265; `innerHint` is the hint of the character iterator. -/
def Lexer.sizeHint (l : Lexer) (innerHint : SizeHint) : SizeHint :=
  { low := if l.peeked.isSome then 1 else 0, high := innerHint.high }

/-- All tokens the lexer yields: `lexer.collect()`. -/
def Lexer.collectN (cc : CharClass) : Nat → Lexer → List Token
  | 0, _ => []
  | n + 1, l =>
    match l.next cc with
    | (none, _) => []
    | (some t, l') => t :: Lexer.collectN cc n l'

/-- `Lexer::new(src.chars()).collect()`. The budget is one more than the number of characters;
`lex_complete` shows that it is enough. -/
def lex (cc : CharClass) (src : Str) : List Token :=
  Lexer.collectN cc (src.length + 1) (Lexer.new src)

end Conch
