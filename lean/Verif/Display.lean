import Verif.Ast
import Verif.Pos
/-!
# Error messages (`src/parse.rs`, `src/token.rs`)

`fmt::Display` writes to a formatter; the model gives the text that is written. The flags of the
formatter (width, precision) are not used by these implementations.
-/
namespace Conch

/-- `impl Display for SourcePos`, parse.rs:186-190. -/
def SourcePos.display (p : SourcePos) : Str := natDigits p.line ++ ":".toList ++ natDigits p.col

/-- `impl Display for Token`, token.rs:179-183. -/
def Token.display (t : Token) : Str := t.asStr

namespace Msg
/-! The literal pieces of the messages, parse.rs:145-174. -/
/-- parse.rs:147 -/
def fd1 : Str := "file descriptor found between lines ".toList
/-- parse.rs:147 -/
def fd2 : Str := " - ".toList
/-- parse.rs:147 -/
def fd3 : Str := " cannot possibly be a valid".toList
/-- parse.rs:151 -/
def ident1 : Str := "not a valid identifier ".toList
/-- parse.rs:151 -/
def ident2 : Str := ": ".toList
/-- parse.rs:154 -/
def subst1 : Str := "bad substitution ".toList
/-- parse.rs:154 -/
def subst2 : Str := ": invalid token: ".toList
/-- parse.rs:157 -/
def unmatched1 : Str := "unmatched `".toList
/-- parse.rs:157 -/
def unmatched2 : Str := "` starting on line ".toList
/-- parse.rs:162 -/
def cmd1 : Str := "did not find `".toList
/-- parse.rs:162 -/
def cmd2 : Str := "` keyword on line ".toList
/-- parse.rs:162 -/
def cmd3 : Str := ", in `".toList
/-- parse.rs:162 -/
def cmd4 : Str := "` command which starts on line ".toList
/-- parse.rs:168, 171 -/
def unexpected1 : Str := "found unexpected token on line ".toList
/-- parse.rs:168 -/
def unexpected2 : Str := ": \\n".toList
/-- parse.rs:171 -/
def unexpected3 : Str := ": ".toList
/-- parse.rs:174 -/
def eof : Str := "unexpected end of input".toList
end Msg

/-- `impl Display for ParseError`, parse.rs:142-178; `sh` is the `Display` of the builder's errors. -/
def ParseError.display {ε : Type} (sh : ε → Str) : ParseError ε → Str
  | .BadFd start fin => Msg.fd1 ++ start.display ++ Msg.fd2 ++ fin.display ++ Msg.fd3
  | .BadIdent id pos => Msg.ident1 ++ pos.display ++ Msg.ident2 ++ id
  | .BadSubst t pos => Msg.subst1 ++ pos.display ++ Msg.subst2 ++ t.display
  | .Unmatched t pos => Msg.unmatched1 ++ t.display ++ Msg.unmatched2 ++ pos.display
  | .IncompleteCmd c start kw kwPos =>
      Msg.cmd1 ++ kw ++ Msg.cmd2 ++ kwPos.display ++ Msg.cmd3 ++ c ++ Msg.cmd4 ++ start.display
  | .Unexpected t pos =>
      if t = .Newline then Msg.unexpected1 ++ pos.display ++ Msg.unexpected2
      else Msg.unexpected1 ++ pos.display ++ Msg.unexpected3 ++ t.display
  | .UnexpectedEOF => Msg.eof
  | .Custom e => sh e

/-- `Error::cause`, parse.rs:125-140. -/
def ParseError.cause {ε : Type} : ParseError ε → Option ε
  | .BadFd .. | .BadIdent .. | .BadSubst .. | .Unmatched .. | .IncompleteCmd .. | .Unexpected ..
  | .UnexpectedEOF => none
  | .Custom e => some e

end Conch
