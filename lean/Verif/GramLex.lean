import Verif.ArithGrammar
import Verif.ParserWord
/-!
# The grammar of shell words and commands (C24-C26, C29-C31, C33, C35): the lexical part

Everything here is about lists of tokens without positions. A relation `X l a r` says that reading
`X` from the tokens `l` gives `a` and leaves the tokens `r`.
-/
namespace Conch.Gram
open Conch

/-- Blanks: whitespace tokens and escaped newlines. -/
inductive Blanks : List Token → Prop
  | nil : Blanks []
  | ws {w r} : Blanks r → Blanks (.Whitespace w :: r)
  | escaped {r} : Blanks r → Blanks (.Backslash :: .Newline :: r)

/-- The list does not start with a blank. -/
def NoBlank (l : List Token) : Prop :=
  (∀ w r, l ≠ .Whitespace w :: r) ∧ ∀ r, l ≠ .Backslash :: .Newline :: r

/-- `Skip l r`: `r` is `l` without the blanks it starts with. -/
def Skip (l r : List Token) : Prop := ∃ bs, l = bs ++ r ∧ Blanks bs ∧ NoBlank r

/-- `Line l n r`: after blanks `l` holds a newline, or a comment with its newline (or the end of
input). -/
inductive Line : List Token → Nl → List Token → Prop
  | newline {bs r} : Blanks bs → Line (bs ++ .Newline :: r) ⟨none⟩ r
  | comment {bs cs r} : Blanks bs → (∀ t ∈ cs, t ≠ .Newline) →
      Line (bs ++ .Pound :: cs ++ .Newline :: r) ⟨some (concatTokens (.Pound :: cs))⟩ r
  | lastComment {bs cs} : Blanks bs → (∀ t ∈ cs, t ≠ .Newline) →
      Line (bs ++ .Pound :: cs) ⟨some (concatTokens (.Pound :: cs))⟩ []

/-- The list starts neither with a newline nor with a comment. -/
def NoLineStart (l : List Token) : Prop := ∀ r, l ≠ .Newline :: r ∧ l ≠ .Pound :: r

/-- `OptLine l n r`: reading a line if there is one, else only blanks. -/
inductive OptLine : List Token → Option Nl → List Token → Prop
  | some {l n r} : Line l n r → OptLine l (some n) r
  | none {l r} : Skip l r → NoLineStart r → OptLine l none r

/-- `Lines l ns r`: reading as many lines as there are, and the blanks after them. -/
inductive Lines : List Token → List Nl → List Token → Prop
  | nil {l r} : Skip l r → NoLineStart r → Lines l [] r
  | cons {l n l' ns r} : Line l n l' → Lines l' ns r → Lines l (n :: ns) r

/-- A word ends here: at the end of input or before a word delimiter. -/
def EndsWord (l : List Token) : Prop := ∀ t r, l = t :: r → t.isWordDelimiter = true

/-- `Keyword w l r`: `l` starts with the unquoted word `w`, on its own. -/
def Keyword (w : Str) (l r : List Token) : Prop :=
  (l = .Name w :: r ∨ l = .Literal w :: r) ∧ EndsWord r

/-- The same, after blanks. -/
def Kw (w : Str) (l r : List Token) : Prop := ∃ l', Skip l l' ∧ Keyword w l' r

/-- What ends a group of commands: one of some tokens, or one of some words or tokens on their
own. -/
def AtDelim (cfg : Delims) (l : List Token) : Prop :=
  (∃ t ∈ cfg.exactTokens, ∃ r, l = t :: r) ∨ (∃ w ∈ cfg.reservedWords, ∃ r, Keyword w l r) ∨
    (∃ t ∈ cfg.reservedTokens, ∃ r, l = t :: r ∧ EndsWord r)

/-- Delimiters that are not blanks, newlines or comments. -/
def Delims.Proper (cfg : Delims) : Prop :=
  ∀ t ∈ cfg.exactTokens ++ cfg.reservedTokens,
    (∀ w, t ≠ .Whitespace w) ∧ t ≠ .Backslash ∧ t ≠ .Newline ∧ t ≠ .Pound

/-- Positions do not matter to the relations of the other specification files; this gives every
token the same one. -/
def anywhere (l : List Token) : List Spec.PTok := l.map fun t => (⟨0, 1, 1⟩, t)

end Conch.Gram
