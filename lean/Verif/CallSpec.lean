import Verif.Builder
import Verif.Pos
/-!
# What builder methods may be called with (C21), and the positions an error reports (C18)
-/
namespace Conch.Spec
open Conch

/-- A group of commands that is not empty. -/
def NonEmpty {C : Type} (g : CommandGroup C) : Prop := g.commands ≠ []

/-- A word made of several parts has at least two of them. -/
def WordOk {C : Type} : ComplexWordKind C → Prop
  | .Concat ws => 2 ≤ ws.length
  | .Single _ => True

/-- What the documentation of `Builder` promises about the arguments of each method. The second
case of `subshell` is what `function f ( # comment⏎ )` produces (see DESIGN.md, finding 6). -/
def CallOk {T : BTypes} : Call T → Prop
  | .completeCommand _ _ sep comment =>
    (sep = .Newline → comment ≠ none) ∧ (sep = .Other → comment = none)
  | .andOrList _ _ => True
  | .pipeline _ cmds => cmds ≠ []
  | .simpleCommand vars args => vars ≠ [] ∨ args ≠ []
  | .braceGroup g _ => NonEmpty g
  | .subshell g io => NonEmpty g ∨ (io = [] ∧ g.trailingComments ≠ [])
  | .loopCommand _ p _ => NonEmpty p.guard ∧ NonEmpty p.body
  | .ifCommand f _ =>
    f.conditionals ≠ [] ∧ (∀ p ∈ f.conditionals, NonEmpty p.guard ∧ NonEmpty p.body) ∧
      ∀ g, f.elseBranch = some g → NonEmpty g
  | .forCommand f _ => NonEmpty f.body
  | .caseCommand f _ => ∀ a ∈ f.arms, a.patterns.patternAlternatives ≠ []
  | .compoundCommandIntoPipeable _ => True
  | .functionDeclaration .. => True
  | .comments cs => cs ≠ []
  | .word w => WordOk w
  | .redirect _ => True

/-- A subshell has a command: the case that `CallOk` leaves out. -/
def SubshellOk {T : BTypes} : Call T → Prop
  | .subshell g _ => NonEmpty g
  | _ => True

/-- The token is the unquoted word `function`. -/
def FunctionWord (t : Token) : Prop := t = .Name "function".toList ∨ t = .Literal "function".toList

/-- The source positions an error carries. -/
def positions {ε : Type} : ParseError ε → List SourcePos
  | .BadFd s e => [s, e]
  | .BadIdent _ p | .BadSubst _ p | .Unmatched _ p | .Unexpected _ p => [p]
  | .IncompleteCmd _ s _ p => [s, p]
  | .UnexpectedEOF | .Custom _ => []

end Conch.Spec
