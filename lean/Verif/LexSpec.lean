import Verif.Lexer
/-!
# Specification of the lexical grammar (properties C01–C06)

Independent of the lexer's state machine: a table of operators and the rule "longest operator
first".
-/
namespace Conch.Spec
open Conch

/-- The fixed spellings of the language. -/
def operators : List (Str × Token) :=
  [ (['\n'], .Newline), (['('], .ParenOpen), ([')'], .ParenClose), (['{'], .CurlyOpen),
    (['}'], .CurlyClose), (['['], .SquareOpen), ([']'], .SquareClose), (['!'], .Bang),
    (['~'], .Tilde), (['#'], .Pound), (['*'], .Star), (['?'], .Question), (['%'], .Percent),
    (['-'], .Dash), (['='], .Equals), (['+'], .Plus), ([':'], .Colon), (['@'], .At),
    (['^'], .Caret), (['/'], .Slash), ([','], .Comma), (['\''], .SingleQuote),
    (['"'], .DoubleQuote), (['`'], .Backtick),
    ([';'], .Semi), ([';', ';'], .DSemi), (['&'], .Amp), (['&', '&'], .AndIf),
    (['|'], .Pipe), (['|', '|'], .OrIf),
    (['<'], .Less), (['<', '<'], .DLess), (['<', '<', '-'], .DLessDash), (['<', '&'], .LessAnd),
    (['<', '>'], .LessGreat),
    (['>'], .Great), (['>', '>'], .DGreat), (['>', '&'], .GreatAnd), (['>', '|'], .Clobber),
    (['$'], .Dollar),
    (['$', '0'], .ParamPositional .Zero), (['$', '1'], .ParamPositional .One),
    (['$', '2'], .ParamPositional .Two), (['$', '3'], .ParamPositional .Three),
    (['$', '4'], .ParamPositional .Four), (['$', '5'], .ParamPositional .Five),
    (['$', '6'], .ParamPositional .Six), (['$', '7'], .ParamPositional .Seven),
    (['$', '8'], .ParamPositional .Eight), (['$', '9'], .ParamPositional .Nine) ]

/-- Characters that start an operator. -/
def opStart (c : Char) : Prop := ∃ p ∈ operators, p.1.head? = some c

/-- `o` is the longest operator at the start of `s`, and its token is `t`. -/
def LongestOp (s o : Str) (t : Token) : Prop :=
  (o, t) ∈ operators ∧ o <+: s ∧ ∀ p ∈ operators, p.1 <+: s → p.1.length ≤ o.length

/-- Blank: whitespace other than a newline. -/
def Blank (cc : CharClass) (c : Char) : Prop := cc.whitespace c = true ∧ c ≠ '\n'

/-- A character without any special meaning: not a backslash, no operator, not whitespace. -/
def Plain (cc : CharClass) (c : Char) : Prop :=
  c ≠ '\\' ∧ ¬ opStart c ∧ cc.whitespace c = false

/-- The token a single escaped character becomes. -/
inductive Single (cc : CharClass) : Char → Token → Prop
  | backslash : Single cc '\\' .Backslash
  | op {c t} : ([c], t) ∈ operators → Single cc c t
  | blank {c} : c ≠ '\\' → ¬ opStart c → cc.whitespace c = true → Single cc c (.Whitespace [c])
  | name {c} : Plain cc c → cc.nameStart c = true → Single cc c (.Name [c])
  | literal {c} : Plain cc c → cc.nameStart c = false → Single cc c (.Literal [c])

/-- `run ++ rest` is cut after the maximal run of characters satisfying `Q`. -/
def MaximalRun (Q : Char → Prop) (run rest : Str) : Prop :=
  (∀ c ∈ run, Q c) ∧ ∀ c, rest.head? = some c → ¬ Q c

/-- `Lexes cc s ts`: the source `s` consists of the tokens `ts`. -/
inductive Lexes (cc : CharClass) : Str → List Token → Prop
  | nil : Lexes cc [] []
  | trailingBackslash : Lexes cc ['\\'] [.Backslash]
  | escape {c t s ts} : Single cc c t → Lexes cc s ts →
      Lexes cc ('\\' :: c :: s) (.Backslash :: t :: ts)
  | op {o t s ts} : LongestOp (o ++ s) o t → Lexes cc s ts → Lexes cc (o ++ s) (t :: ts)
  | blank {c run s ts} : c ≠ '\\' → ¬ opStart c → cc.whitespace c = true →
      MaximalRun (Blank cc) run s → Lexes cc s ts →
      Lexes cc (c :: run ++ s) (.Whitespace (c :: run) :: ts)
  | name {c run s ts} : Plain cc c → cc.nameStart c = true →
      MaximalRun (fun d => Plain cc d ∧ cc.nameChar d = true) run s → Lexes cc s ts →
      Lexes cc (c :: run ++ s) (.Name (c :: run) :: ts)
  | literal {c run s ts} : Plain cc c → cc.nameStart c = false →
      MaximalRun (Plain cc) run s → Lexes cc s ts →
      Lexes cc (c :: run ++ s) (.Literal (c :: run) :: ts)

/-- Tokens paired with "was escaped by the backslash before it". -/
def escapes : Bool → List Token → List (Token × Bool)
  | _, [] => []
  | true, t :: ts => (t, true) :: escapes false ts
  | false, t :: ts => (t, false) :: escapes (t == .Backslash) ts

/-- The second token could have been part of the first one. -/
def Absorbs (cc : CharClass) : Token → Token → Prop
  | .Whitespace _, .Whitespace _ => True
  | .Name _, .Name _ => True
  | .Name _, .Literal (c :: _) => cc.nameChar c = true
  | .Literal _, .Name _ => True
  | .Literal _, .Literal _ => True
  | _, _ => False

end Conch.Spec
