import Verif.BalancedSpec
import Verif.Builder
/-!
# Specification of blanks, comments and reserved words (C17, C27, C28)
-/
namespace Conch.Spec
open Conch

/-- Blanks: whitespace tokens and escaped newlines. -/
inductive Blanks : List PTok → Prop
  | nil : Blanks []
  | ws {p w r} : Blanks r → Blanks ((p, .Whitespace w) :: r)
  | escaped {p q r} : Blanks r → Blanks ((p, .Backslash) :: (q, .Newline) :: r)

/-- The list does not start with a blank. -/
def NoBlank (l : List PTok) : Prop :=
  (∀ p w r, l ≠ (p, .Whitespace w) :: r) ∧
  (∀ p q r, l ≠ (p, .Backslash) :: (q, .Newline) :: r)

/-- `Line l n rest`: after blanks the list `l` holds a newline or a comment with its newline (or the
end of input); `n` is the comment, `rest` what follows. -/
inductive Line : List PTok → Nl → List PTok → Prop
  | newline {bs q rest} : Blanks bs → Line (bs ++ (q, .Newline) :: rest) ⟨none⟩ rest
  | comment {bs q cs r rest} : Blanks bs → (∀ t ∈ cs, t.2 ≠ .Newline) →
      Line (bs ++ (q, .Pound) :: cs ++ (r, .Newline) :: rest)
        ⟨some (concatTokens (.Pound :: cs.map (·.2)))⟩ rest
  | lastComment {bs q cs} : Blanks bs → (∀ t ∈ cs, t.2 ≠ .Newline) →
      Line (bs ++ (q, .Pound) :: cs) ⟨some (concatTokens (.Pound :: cs.map (·.2)))⟩ []

/-- The list starts, after blanks, neither with a newline nor with a comment. -/
def NoLine (l : List PTok) : Prop := ∀ n rest, ¬ Line l n rest

/-- `Lines l ns rest`: `l` consists of lines with the comments `ns`, then `rest`. -/
inductive Lines : List PTok → List Nl → List PTok → Prop
  | nil {l} : Lines l [] l
  | cons {l n l' ns rest} : Line l n l' → Lines l' ns rest → Lines l (n :: ns) rest

end Conch.Spec

namespace Conch
open Spec

/-- The list is empty or starts with a word delimiter. -/
def EndsWord (l : List PTok) : Prop := ∀ x r, l = x :: r → x.2.isWordDelimiter = true

/-- The list starts with the word `w`, unquoted and on its own. -/
def WordAt (l : List PTok) (w : Str) : Prop :=
  ∃ p r, (l = (p, .Name w) :: r ∨ l = (p, .Literal w) :: r) ∧ EndsWord r

/-- The list starts with the token `t`, on its own. -/
def TokenAt (l : List PTok) (t : Token) : Prop := ∃ p r, l = (p, t) :: r ∧ EndsWord r

end Conch
