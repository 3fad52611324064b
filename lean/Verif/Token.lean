/-!
# Tokens (`src/token.rs`)

Strings are modelled as `List Char` (`Str`); byte lengths are UTF-8 lengths.
-/
namespace Conch

/-- Rust `String`/`&str` (token.rs, lexer.rs, parse.rs), modelled as the list of its characters. -/
abbrev Str := List Char

/-- `str::len` (token.rs:193, parse.rs:972 and 1040): the number of UTF-8 bytes. -/
def Str.byteLen (s : Str) : Nat := (s.map Char.utf8Size).sum

/-- `Positional`, token.rs:8-29. -/
inductive Positional
  | Zero | One | Two | Three | Four | Five | Six | Seven | Eight | Nine
  deriving DecidableEq, Repr

/-- `Positional::as_num`, token.rs:33-46. -/
def Positional.asNum : Positional → Nat
  | .Zero => 0 | .One => 1 | .Two => 2 | .Three => 3 | .Four => 4
  | .Five => 5 | .Six => 6 | .Seven => 7 | .Eight => 8 | .Nine => 9

/-- `Positional::from_num`, token.rs:49-63 (`u8` modelled as `Nat`). -/
def Positional.fromNum : Nat → Option Positional
  | 0 => some .Zero | 1 => some .One | 2 => some .Two | 3 => some .Three | 4 => some .Four
  | 5 => some .Five | 6 => some .Six | 7 => some .Seven | 8 => some .Eight | 9 => some .Nine
  | _ => none

/-- `Token`, token.rs:74-177. -/
inductive Token
  | Newline
  | ParenOpen | ParenClose | CurlyOpen | CurlyClose | SquareOpen | SquareClose
  | Bang | Tilde | Pound | Star | Question | Backslash | Percent | Dash | Equals | Plus
  | Colon | At | Caret | Slash | Comma
  | SingleQuote | DoubleQuote | Backtick
  | Semi | Amp | Pipe | AndIf | OrIf | DSemi
  | Less | Great | DLess | DGreat | GreatAnd | LessAnd | DLessDash | Clobber | LessGreat
  | Dollar
  | ParamPositional (p : Positional)
  | Whitespace (s : Str)
  | Literal (s : Str)
  | Name (s : Str)
  deriving DecidableEq, Repr

namespace Token

/-- `Token::as_str`, token.rs:212-269. -/
def asStr : Token → Str
  | Newline => ['\n']
  | ParenOpen => ['(']
  | ParenClose => [')']
  | CurlyOpen => ['{']
  | CurlyClose => ['}']
  | SquareOpen => ['[']
  | SquareClose => [']']
  | Dollar => ['$']
  | Bang => ['!']
  | Semi => [';']
  | Amp => ['&']
  | Less => ['<']
  | Great => ['>']
  | Pipe => ['|']
  | Tilde => ['~']
  | Pound => ['#']
  | Star => ['*']
  | Question => ['?']
  | Backslash => ['\\']
  | Percent => ['%']
  | Dash => ['-']
  | Equals => ['=']
  | Plus => ['+']
  | Colon => [':']
  | At => ['@']
  | Caret => ['^']
  | Slash => ['/']
  | Comma => [',']
  | SingleQuote => ['\'']
  | DoubleQuote => ['"']
  | Backtick => ['`']
  | AndIf => ['&', '&']
  | OrIf => ['|', '|']
  | DSemi => [';', ';']
  | DLess => ['<', '<']
  | DGreat => ['>', '>']
  | GreatAnd => ['>', '&']
  | LessAnd => ['<', '&']
  | DLessDash => ['<', '<', '-']
  | Clobber => ['>', '|']
  | LessGreat => ['<', '>']
  | ParamPositional .Zero => ['$', '0']
  | ParamPositional .One => ['$', '1']
  | ParamPositional .Two => ['$', '2']
  | ParamPositional .Three => ['$', '3']
  | ParamPositional .Four => ['$', '4']
  | ParamPositional .Five => ['$', '5']
  | ParamPositional .Six => ['$', '6']
  | ParamPositional .Seven => ['$', '7']
  | ParamPositional .Eight => ['$', '8']
  | ParamPositional .Nine => ['$', '9']
  | Whitespace s => s
  | Name s => s
  | Literal s => s

/-- `Token::len`, token.rs:192-194: the byte length of `as_str`
(its documentation says "number of characters"). -/
def len (t : Token) : Nat := t.asStr.byteLen

/-- `Token::is_empty`, token.rs:187-189. -/
def isEmpty (t : Token) : Bool := t.len == 0

/-- `Token::is_word_delimiter`, token.rs:198-209. -/
def isWordDelimiter : Token → Bool
  | Newline | ParenOpen | ParenClose | Semi | Amp | Less | Great | Pipe | AndIf | OrIf
  | DSemi | DLess | DGreat | GreatAnd | LessAnd | DLessDash | Clobber | LessGreat
  | Whitespace _ => true
  | Bang | Star | Question | Backslash | SingleQuote | DoubleQuote | Backtick | Percent
  | Dash | Equals | Plus | Colon | At | Caret | Slash | Comma | CurlyOpen
  | CurlyClose | SquareOpen | SquareClose | Dollar | Tilde | Pound | Name _
  | Literal _ | ParamPositional _ => false

end Token

/-- `concat_tokens`, parse.rs:2915-2920. -/
def concatTokens (ts : List Token) : Str := ts.flatMap Token.asStr

end Conch
