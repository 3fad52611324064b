import Verif.Token
/-!
# Source positions and errors (`src/parse.rs`)
-/
namespace Conch

/-- `SourcePos`, parse.rs:47-54 (`usize` modelled as `Nat`). -/
structure SourcePos where
  byte : Nat
  line : Nat
  col : Nat
  deriving DecidableEq, Repr

/-- `SourcePos::new`, parse.rs:64-70. -/
def SourcePos.new : SourcePos := { byte := 0, line := 1, col := 1 }

/-- The `newlines` of `SourcePos::advance`, parse.rs:74-84. -/
def Token.newlines : Token → Nat
  | .Name s | .Literal s | .Whitespace s => (s.filter (· == '\n')).length
  | .Newline => 1
  | _ => 0

/-- `SourcePos::advance`, parse.rs:73-90. -/
def SourcePos.advance (p : SourcePos) (t : Token) : SourcePos :=
  { byte := p.byte + t.len
    line := p.line + t.newlines
    col := if t.newlines = 0 then p.col + t.len else 1 }

/-- `SourcePos::advance_tabs`, parse.rs:93-96. -/
def SourcePos.advanceTabs (p : SourcePos) (n : Nat) : SourcePos :=
  { p with byte := p.byte + n, col := p.col + n }

/-- `ParseError`, parse.rs:101-123. Keywords (`&'static str`) are `Str`. -/
inductive ParseError (ε : Type)
  | BadFd (s e : SourcePos)
  | BadIdent (s : Str) (p : SourcePos)
  | BadSubst (t : Token) (p : SourcePos)
  | Unmatched (t : Token) (p : SourcePos)
  | IncompleteCmd (cmd : Str) (start : SourcePos) (kw : Str) (kwPos : SourcePos)
  | Unexpected (t : Token) (p : SourcePos)
  | UnexpectedEOF
  | Custom (e : ε)
  deriving DecidableEq, Repr

/-- `UnmatchedError`, iter.rs:12-13. -/
structure UnmatchedError where
  tok : Token
  pos : SourcePos
  deriving DecidableEq, Repr

end Conch
