import Verif.Balanced
/-!
# Specification of balanced scanning (C11, C12)
-/
namespace Conch.Spec
open Conch

/-- A token with its position. -/
abbrev PTok := SourcePos × Token

/-- `Opens c t c'`: inside a region that ends at `c` (`none`: outside of all regions) the token `t`
opens a region that ends at `c'`. Single quotes mean nothing inside double quotes. -/
inductive Opens : Option Token → Token → Token → Prop
  | backtick {c} : Opens c .Backtick .Backtick
  | squote {c} : c ≠ some .DoubleQuote → Opens c .SingleQuote .SingleQuote
  | dquote {c} : Opens c .DoubleQuote .DoubleQuote
  | paren {c} : Opens c .ParenOpen .ParenClose

/-- Tokens that neither open a region nor escape anything. (`$` matters before a `{`.) -/
def Ordinary (c : Option Token) (t : Token) : Prop :=
  t ≠ .Backslash ∧ t ≠ .Dollar ∧ ∀ c', ¬ Opens c t c'

/-- `Body c xs`: `xs` can stand between an opener and its closing token `c`: nested regions are
closed, and `c` itself only occurs in nested regions or escaped. -/
inductive Body : Token → List PTok → Prop
  | nil {c} : Body c []
  /-- within single quotes everything but the quote is text -/
  | quoted {t xs} : t.2 ≠ .SingleQuote → Body .SingleQuote xs → Body .SingleQuote (t :: xs)
  | plain {c t xs} : c ≠ .SingleQuote → t.2 ≠ c → Ordinary (some c) t.2 → Body c xs →
      Body c (t :: xs)
  /-- a backslash takes the next token with it -/
  | escape {c p t xs} : c ≠ .SingleQuote → Body c xs → Body c ((p, .Backslash) :: t :: xs)
  | nested {c c' o xs q ys} : c ≠ .SingleQuote → o.2 ≠ c → Opens (some c) o.2 c' → Body c' xs →
      Body c ys → Body c (o :: (xs ++ (q, c') :: ys))
  | brace {c p q r xs ys} : c ≠ .SingleQuote → Body .CurlyClose xs → Body c ys →
      Body c ((p, .Dollar) :: (q, .CurlyOpen) :: (xs ++ (r, .CurlyClose) :: ys))
  | dollar {c p xs} : c ≠ .SingleQuote → xs.head?.map (·.2) ≠ some .CurlyOpen → Body c xs →
      Body c ((p, .Dollar) :: xs)

/-- The opener of a region that ends at `c`. -/
def opener : Token → Token
  | .ParenClose => .ParenOpen
  | .CurlyClose => .CurlyOpen
  | c => c

/-- `Unclosed c p l e`: a region opened at `p`, to be closed by `c`, is not closed by the
remaining tokens `l`, and `e` names the innermost region that is open at the end of input. -/
inductive Unclosed : Token → SourcePos → List PTok → UnmatchedError → Prop
  | here {c p l} : Body c l → Unclosed c p l ⟨opener c, p⟩
  | backslash {c p xs q} : c ≠ .SingleQuote → Body c xs →
      Unclosed c p (xs ++ [(q, .Backslash)]) ⟨opener c, p⟩
  | inner {c c' p xs o l e} : c ≠ .SingleQuote → o.2 ≠ c → Body c xs → Opens (some c) o.2 c' →
      Unclosed c' o.1 l e → Unclosed c p (xs ++ o :: l) e
  | innerBrace {c p xs a q l e} : c ≠ .SingleQuote → Body c xs → Unclosed .CurlyClose q l e →
      Unclosed c p (xs ++ (a, .Dollar) :: (q, .CurlyOpen) :: l) e

/-- `TopUnit u rest`: outside of all regions, `u` is the first unit of `u ++ rest`: an ordinary
token, an escaped token, or an opener with everything up to its closing token. -/
inductive TopUnit : List PTok → List PTok → Prop
  | empty : TopUnit [] []
  | plain {t rest} : Ordinary none t.2 → TopUnit [t] rest
  | escape {p t rest} : TopUnit [(p, .Backslash), t] rest
  | lastBackslash {p} : TopUnit [(p, .Backslash)] []
  | nested {c o xs q rest} : Opens none o.2 c → Body c xs → TopUnit (o :: (xs ++ [(q, c)])) rest
  | brace {p q r xs rest} : Body .CurlyClose xs →
      TopUnit ((p, .Dollar) :: (q, .CurlyOpen) :: (xs ++ [(r, .CurlyClose)])) rest
  | dollarParen {p q r xs rest} : Body .ParenClose xs →
      TopUnit ((p, .Dollar) :: (q, .ParenOpen) :: (xs ++ [(r, .ParenClose)])) rest
  | dollar {p rest} : rest.head?.map (·.2) ≠ some .CurlyOpen →
      rest.head?.map (·.2) ≠ some .ParenOpen → TopUnit [(p, .Dollar)] rest

/-- Outside of all regions, the first unit of the remaining tokens is not closed. -/
inductive TopUnclosed : List PTok → UnmatchedError → Prop
  | inner {c o l e} : Opens none o.2 c → Unclosed c o.1 l e → TopUnclosed (o :: l) e
  | innerBrace {p q l e} : Unclosed .CurlyClose q l e →
      TopUnclosed ((p, .Dollar) :: (q, .CurlyOpen) :: l) e
  | innerParen {p q l e} : Unclosed .ParenClose q l e →
      TopUnclosed ((p, .Dollar) :: (q, .ParenOpen) :: l) e

/-- The tokens that end a region. -/
def Closer (c : Token) : Prop :=
  c = .SingleQuote ∨ c = .DoubleQuote ∨ c = .Backtick ∨ c = .ParenClose ∨ c = .CurlyClose

/-- Removal of the backslashes that are followed by `\`, `$` or a backtick. -/
def unescape : List PTok → List PTok
  | [] => []
  | [x] => [x]
  | x :: y :: r =>
    if x.2 = .Backslash then
      if y.2 = .Backslash ∨ y.2 = .Dollar ∨ y.2 = .Backtick then y :: unescape r
      else x :: y :: unescape r
    else x :: unescape (y :: r)

/-- Every token starts where the one before it ends; the last ends at `e`. -/
def Contiguous : List PTok → SourcePos → Prop
  | [], _ => True
  | [x], e => x.1.advance x.2 = e
  | x :: y :: r, e => x.1.advance x.2 = y.1 ∧ Contiguous (y :: r) e

end Conch.Spec
