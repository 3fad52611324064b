import Verif.BlankSpec
import Verif.ParserLex
/-!
# What errors about incomplete commands name (C34)
-/
namespace Conch.Spec
open Conch

/-- The pairs of a command and a keyword it may lack. -/
def lackable : List (Str × Str) :=
  [(DO, DONE), (WHILE, DO), (IF, THEN), (IF, FI), (FOR, IN), (FOR, DO), (CASE, IN), (CASE, ESAC)]

/-- The words a command with that name starts with: `until` is reported as `while`. -/
def startWords (cmd : Str) : List Str := if cmd = WHILE then [WHILE, UNTIL] else [cmd]

/-- `KeywordAt ws l r`: after blanks, the tokens `l` start with one of the words, unquoted and on its
own; `r` is what follows it. -/
def KeywordAt (ws : List Str) (l r : List PTok) : Prop :=
  ∃ bs p w, w ∈ ws ∧ Blanks bs ∧ (l = bs ++ (p, .Name w) :: r ∨ l = bs ++ (p, .Literal w) :: r) ∧
    EndsWord r

/-- The tokens that need a closing one. -/
def openers : List Token := [.SingleQuote, .DoubleQuote, .Backtick, .ParenOpen, .CurlyOpen]

end Conch.Spec
