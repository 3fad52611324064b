import Verif.Grammar
/-!
# The streams of tokens that a parser reads (C14, C18, C40, C41)

Most of the time a parser reads the input token by token. There are two exceptions: the body of a pair
of backticks is read as a stream of its own, with the backslashes before `\`, `$` and backticks
removed; and at a here-document the parser takes the lines of its body out of the input and reads them
as a stream of their own, while the rest of the line with the operator is put before what follows the
body.
-/
namespace Conch.Spec
open Conch

/-- `Units u r`: outside of all quotes and parentheses, `u` is a sequence of ordinary tokens, escaped
tokens and closed regions, without newlines outside of them; `r` is what follows. -/
inductive Units : List PTok → List PTok → Prop
  | nil {r} : Units [] r
  | cons {u v r} : u ≠ [] → (∀ p, u ≠ [(p, .Newline)]) → TopUnit u (v ++ r) → Units v r →
      Units (u ++ v) r

/-- `LogicalLine l r`: `l` is the rest of a line with its newline (or all that is left), `r` is what
follows. A newline inside quotes or parentheses, or an escaped one, does not end a line. -/
def LogicalLine (l r : List PTok) : Prop :=
  (∃ u q, l = u ++ [(q, .Newline)] ∧ Units u ((q, .Newline) :: r)) ∨ (Units l [] ∧ r = [])

/-- `BodyLines strip e l cs r`: the lines `cs` of a here-document that are taken from the front of the
tokens `l`, each with its position, leaving `r` (what was left out between is the line with the
delimiter, if any). A line starts where its first token is, or, in a `<<-` here-document, to the right of
that position by the number of tabs that were removed anywhere in the line. -/
inductive BodyLines (strip : Bool) (e : SourcePos) :
    List PTok → List (List Token × SourcePos) → List PTok → Prop
  /-- the line with the delimiter -/
  | delim {c q r} : (∀ t ∈ c, t.2 ≠ .Newline) → BodyLines strip e (c ++ (q, .Newline) :: r) [] r
  /-- the end, or the line with the delimiter is the last one -/
  | eof {c} : (∀ t ∈ c, t.2 ≠ .Newline) → BodyLines strip e c [] []
  | line {c q l p cs r} : (∀ t ∈ c, t.2 ≠ .Newline) →
      p = (AIter.pos ⟨c ++ (q, .Newline) :: l, e⟩).advanceTabs (Gram.cut strip (c.map (·.2))) → BodyLines strip e l cs r →
      BodyLines strip e (c ++ (q, .Newline) :: l)
        ((Gram.lineOf strip (c.map (·.2)) ++ [.Newline], p) :: cs) r
  | lastLine {c p} : (∀ t ∈ c, t.2 ≠ .Newline) → p = (AIter.pos ⟨c, e⟩).advanceTabs (Gram.cut strip (c.map (·.2))) →
      BodyLines strip e c [(Gram.lineOf strip (c.map (·.2)), p)] []

/-- `Here t it it' body`: after the here-document operator `t`, the stream `it` is divided in two: the
stream `it'` with the rest `sv` of the line (what comes after the delimiter) and what follows the body,
and the stream `body`. -/
def Here (t : Token) (it it' body : AIter) : Prop :=
  ∃ d sv l cs r, it.rest = d ++ (sv ++ l) ∧ LogicalLine (d ++ sv) l ∧
    BodyLines (t = .DLessDash) it.endPos l cs r ∧
    it' = ⟨annotate (AIter.pos ⟨sv ++ l, it.endPos⟩) (sv.map (·.2)) ++ r, it.endPos⟩ ∧
    body = ⟨cs.flatMap fun c => annotate c.2 c.1, AIter.pos ⟨l, it.endPos⟩⟩

/-- The token is a here-document operator, `<<` or `<<-`. -/
def HeredocOp (t : Token) : Prop := t = .DLess ∨ t = .DLessDash

/-- `Part it0 it`: the stream `it` comes from the stream `it0`. Nothing is said about the positions in
the body of backticks inside of which positions were not contiguous. -/
inductive Part (it0 : AIter) : AIter → Prop
  | all : Part it0 it0
  | tail {x r e} : Part it0 ⟨x :: r, e⟩ → Part it0 ⟨r, e⟩
  | backticks {p q xs ys e sub} : Part it0 ⟨(p, .Backtick) :: (xs ++ (q, .Backtick) :: ys), e⟩ →
      Body .Backtick xs → sub.toks = (unescape xs).map (·.2) →
      (Contiguous xs q → sub = ⟨unescape xs, AIter.pos ⟨ys, e⟩⟩) → Part it0 sub
  | hereRest {p t r e it body} : Part it0 ⟨(p, t) :: r, e⟩ → HeredocOp t → Here t ⟨r, e⟩ it body →
      Part it0 it
  | hereBody {p t r e it body} : Part it0 ⟨(p, t) :: r, e⟩ → HeredocOp t → Here t ⟨r, e⟩ it body →
      Part it0 body

end Conch.Spec
