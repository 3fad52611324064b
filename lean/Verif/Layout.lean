import Verif.SyntaxTree
import Verif.HereText
/-!
# The ways of writing a program (C47)

`Syn.text` (`SyntaxTree.lean`) is one text for a program. `Writes` relates a program to all the texts
that differ from it in layout: blanks, escaped newlines, comments and empty lines, the separators
`;`, `&` and newline, operators directly next to words, and the optional parts of the syntax
(`$x` for `${x}`, backticks, `function`, `for x;`, `(` before a pattern, the last `;;`). It also covers
here-documents, which `Syn.text` does not write.
-/
namespace Conch.Spec
open Conch

variable (cc : CharClass)

/-- Blanks and escaped newlines. -/
inductive Filler : Str → Prop
  | nil : Filler []
  | blank {c s} : Blank cc c → Filler s → Filler (c :: s)
  | escaped {s} : Filler s → Filler ('\\' :: '\n' :: s)

/-- What may stand between words: blanks and, after the first of them, escaped newlines. -/
def Gap (s : Str) : Prop := Filler cc s ∧ s.head? ≠ some '\\'

/-- What may stand between commands: gaps, newlines and comments. -/
inductive Layout : Str → Prop
  | gap {g} : Gap cc g → Layout g
  | newline {g l} : Gap cc g → Layout l → Layout (g ++ '\n' :: l)
  | comment {g x l} : Gap cc g → '\n' ∉ x → Layout l → Layout (g ++ '#' :: (x ++ '\n' :: l))

/-- The text starts with a newline, or with a comment after the gap `g`. -/
def NewLine (g s : Str) : Prop := s.head? = some '\n' ∨ s.head? = some '#' ∧ g ≠ []

/-- The text starts with a redirection operator. -/
def StartsRedir (s : Str) : Prop := s.head? = some '<' ∨ s.head? = some '>'

/-- `g` separates `s` from what comes before it: it is empty at the start of a command (`first`),
else it may be empty only before a redirection operator. -/
def Apart (first : Bool) (g s : Str) : Prop :=
  Gap cc g ∧ (first = true → g = []) ∧ (first = false → g ≠ [] ∨ StartsRedir s)

/-- The text does not go on with a letter, digit or underscore. -/
def NameStop (s : Str) : Prop := ∀ c, s.head? = some c → cc.nameChar c = false

/-- The word could be a file descriptor. -/
def Syn.isNumber : Syn .parts → Bool
  | .lit s .nil => s.all fun c => isDigit c || c == '+'
  | _ => false

/-- The first pattern is the word `esac`. -/
def Syn.startsEsac : Syn .pats → Bool
  | .patLast (.lit s .nil) | .patCons (.lit s .nil) _ => s == "esac".toList
  | _ => false

def Syn.noPres : Syn .pres → Bool
  | .pnil => true
  | _ => false

def Syn.isJob : Syn .command → Bool
  | .command job _ _ => job

/-- The word a loop starts with. -/
def loopName : LoopKind → Str
  | .While => "while".toList
  | .Until => "until".toList

/-- `Writes cc o x k t`: the text `t` is a way of writing `x` before the text `k`: what is left when `x` is
taken away from `t` is `k`. The flag `o` is used
- for what comes before and after the command word: the text starts the command;
- for sequences of commands: the separator after the last one may be missing. -/
inductive Writes : Bool → {s : Srt} → Syn s → Str → Str → Prop
  -- Expansions
  | braced {p k} : Writes false (.param p) k ('$' :: '{' :: (paramText p ++ '}' :: k))
  | short {x k} : NameStop cc k → Writes false (.param (.Var x)) k ('$' :: (x ++ k))
  | special {p k} : p ∈ [.At, .Star, .Pound, .Question, .Dash, .Bang] →
      Writes false (.param p) k ('$' :: (paramText p ++ k))
  | pid {k} : NameStop cc k → Writes false (.param .Dollar) k ('$' :: '$' :: k)
  | digit {n k} : n < 10 → Writes false (.param (.Positional n)) k ('$' :: (natDigits n ++ k))
  | len {p k} : Writes false (.len p) k ('$' :: '{' :: '#' :: (paramText p ++ '}' :: k))
  | subst {op p w k t} : Writes false w ('}' :: k) t →
      Writes false (.subst op p w) k ('$' :: '{' :: (paramText p ++ (op.text ++ t)))
  | cmdSubst {cs k t} : Writes true cs (')' :: k) t → t.head? ≠ some '(' → Writes false (.cmdSubst cs) k ('$' :: '(' :: t)
  | backticks {cs k t} : Writes true cs [] t → (∀ c ∈ t, c ∉ "\\`'\"({".toList) →
      Writes false (.cmdSubst cs) k ('`' :: (t ++ '`' :: k))
  | arith {a k} : Writes false (.arith a) k ("$(( ".toList ++ (arithText a ++ (" ))".toList ++ k)))
  -- The inside of double quotes
  | dnil {k} : Writes false .dnil k k
  | dtext {s r k t} : Writes false r k t → Writes false (.dtext s r) k (s ++ t)
  | desc {c r k t} : Writes false r k t → Writes false (.desc c r) k ('\\' :: c :: t)
  | dexp {e r k k' t} : Writes false e k' t → Writes false r k k' → Writes false (.dexp e r) k t
  -- Words
  | nil {k} : Writes false .nil k k
  | lit {s r k t} : Writes false r k t → Writes false (.lit s r) k (s ++ t)
  | esc {c r k t} : Writes false r k t → Writes false (.esc c r) k ('\\' :: c :: t)
  | glob {g r k t} : Writes false r k t → Writes false (.glob g r) k (g.text :: t)
  | single {s r k t} : Writes false r k t → Writes false (.single s r) k ('\'' :: (s ++ '\'' :: t))
  | double {d r k k' t} : Writes false d ('"' :: k') t → Writes false r k k' → Writes false (.double d r) k ('"' :: t)
  | exp {e r k k' t} : Writes false e k' t → Writes false r k k' → Writes false (.exp e r) k t
  -- Several words, each after a gap
  | wnil {k} : Writes false .wnil k k
  | wcons {g w ws k k' t} : Gap cc g → g ≠ [] → Writes false w k' t → Writes false ws k k' →
      Writes false (.wcons w ws) k (g ++ t)
  -- Redirections
  | file {fd op g w k t} : Gap cc g → Writes false w k t →
      Writes false (.file fd op w) k (fdOptText fd ++ (op.text ++ (g ++ t)))
  | dup {fd op g n k} : Gap cc g → Writes false (.dup fd op n) k (fdOptText fd ++ (op.text ++ (g ++ (natDigits n ++ k))))
  | close {fd op g k} : Gap cc g → Writes false (.close fd op) k (fdOptText fd ++ (op.text ++ (g ++ '-' :: k)))
  /-- The here-document `<<d` with a quoted delimiter: its body are the lines after the rest of this line
  up to the delimiter; what is left is the rest of the line and what follows the delimiter. -/
  | hereQuoted {fd strip g d q tail} {lines : List (Str × Str)} {text last after} : Gap cc g → WritesDelim cc true d q → d ≠ [] →
      (strip = true → cc.whitespace '\t' = true) → (strip = false → (g ++ q).head? ≠ some '-') →
      Spans '\n' tail → tail.head? ≠ some '(' →
      (∀ p ∈ lines, '\n' ∉ p.1 ∧ Strips strip p.1 p.2 ∧ ¬ DelimLine d p.2) → HereEnd strip d text last after →
      Writes false (.hereQuoted fd (linesText (lines.map (·.2)) ++ last)) (tail ++ '\n' :: after)
        (fdOptText fd ++ (hereOp strip ++ (g ++ (q ++ (tail ++ '\n' :: (linesText (lines.map (·.1)) ++ text))))))
  /-- With an unquoted delimiter the body is read like the inside of double quotes. -/
  | here {fd strip g d q tail} {lines : List (Str × Str)} {text last after body} : Gap cc g → WritesDelim cc false d q → d ≠ [] →
      (strip = true → cc.whitespace '\t' = true) → (strip = false → (g ++ q).head? ≠ some '-') →
      Spans '\n' tail → tail.head? ≠ some '(' →
      (∀ p ∈ lines, '\n' ∉ p.1 ∧ Strips strip p.1 p.2 ∧ ¬ DelimLine d p.2) → HereEnd strip d text last after →
      Writes false body [] (linesText (lines.map (·.2)) ++ last) →
      Writes false (.here fd body) (tail ++ '\n' :: after)
        (fdOptText fd ++ (hereOp strip ++ (g ++ (q ++ (tail ++ '\n' :: (linesText (lines.map (·.1)) ++ text))))))
  | rnil {k} : Writes false .rnil k k
  | rcons {g r rs k k' t} : Apart cc false g t → Writes false r k' t → Writes false rs k k' →
      Writes false (.rcons r rs) k (g ++ t)
  -- Before and after the command word
  | pnil {o k} : Writes o .pnil k k
  | passign {o g x w r k k' t} : Apart cc o g x → Writes false w k' t → Writes false r k k' →
      Writes o (.passign x w r) k (g ++ (x ++ '=' :: t))
  | predir {o g a r k k' t} : Apart cc o g t → Writes false a k' t → Writes false r k k' →
      Writes o (.predir a r) k (g ++ t)
  | anil {o k} : Writes o .anil k k
  | aword {o g w r k k' t} : Apart cc o g t → Writes false w k' t → Writes false r k k' →
      (StartsRedir k' → w.isNumber = false) → Writes o (.aword w r) k (g ++ t)
  | aredir {o g a r k k' t} : Apart cc o g t → Writes false a k' t → Writes false r k k' →
      Writes o (.aredir a r) k (g ++ t)
  -- Compound commands
  | brace {cs io k k' t} : Writes false cs ('}' :: k') t → Delim cc t → Writes false io k k' →
      Writes false (.brace cs io) k ('{' :: t)
  | subshell {cs io k k' t} : Writes true cs (')' :: k') t → Writes false io k k' →
      Writes false (.subshell cs io) k ('(' :: t)
  | loop {i g b io k k' t t'} : Writes false g ("do".toList ++ t') t → Delim cc t →
      Writes false b ("done".toList ++ k') t' → Delim cc t' → Writes false io k k' →
      Writes false (.loop i g b io) k (loopName i ++ t)
  | if_ {f io k k' t} : Writes false f ("fi".toList ++ k') t → Delim cc t → Writes false io k k' →
      Writes false (.if_ f io) k ("if".toList ++ t)
  /-- `for x in ws` ends with `;` or a newline -/
  | forInSemi {x ws b io g l g' l' k k' t t'} : Gap cc g → g ≠ [] → Layout cc l → Delim cc l →
      Writes false ws (g' ++ ';' :: (l' ++ ("do".toList ++ t'))) t → Gap cc g' → Layout cc l' →
      Writes false b ("done".toList ++ k') t' → Delim cc t' → Writes false io k k' →
      Writes false (.forIn x ws b io) k ("for".toList ++ (g ++ (x ++ (l ++ ("in".toList ++ t)))))
  | forInLine {x ws b io g l g' l' k k' t t'} : Gap cc g → g ≠ [] → Layout cc l → Delim cc l →
      Writes false ws (g' ++ (l' ++ ("do".toList ++ t'))) t → Gap cc g' → Layout cc l' → NewLine g' l' →
      Writes false b ("done".toList ++ k') t' → Delim cc t' → Writes false io k k' →
      Writes false (.forIn x ws b io) k ("for".toList ++ (g ++ (x ++ (l ++ ("in".toList ++ t)))))
  | forSemi {x b io g g' l k k' t} : Gap cc g → g ≠ [] → Gap cc g' → Layout cc l →
      Writes false b ("done".toList ++ k') t → Delim cc t → Writes false io k k' →
      Writes false (.forArgs x b io) k ("for".toList ++ (g ++ (x ++ (g' ++ ';' :: (l ++ ("do".toList ++ t))))))
  | forLine {x b io g l k k' t} : Gap cc g → g ≠ [] → Layout cc l → Delim cc l →
      Writes false b ("done".toList ++ k') t → Delim cc t → Writes false io k k' →
      Writes false (.forArgs x b io) k ("for".toList ++ (g ++ (x ++ (l ++ ("do".toList ++ t)))))
  | case_ {w as io g l k k' t t'} : Gap cc g → g ≠ [] → Writes false w (l ++ ("in".toList ++ t')) t → Layout cc l →
      Delim cc l → Writes false as ("esac".toList ++ k') t' → Delim cc t' → Writes false io k k' →
      Writes false (.case_ w as io) k ("case".toList ++ (g ++ t))
  -- After `if`
  | fi {g b k t t'} : Writes false g ("then".toList ++ t') t → Writes false b k t' → Delim cc t' →
      Writes false (.fi g b) k t
  | else_ {g b e k t t' t''} : Writes false g ("then".toList ++ t') t → Writes false b ("else".toList ++ t'') t' →
      Delim cc t' → Writes false e k t'' → Delim cc t'' → Writes false (.else_ g b e) k t
  | elif {g b f k t t' t''} : Writes false g ("then".toList ++ t') t → Writes false b ("elif".toList ++ t'') t' →
      Delim cc t' → Writes false f k t'' → Delim cc t'' → Writes false (.elif g b f) k t
  -- The arms of a `case`
  | patLast {w g g' k t} : Gap cc g → Writes false w (g' ++ k) t → Gap cc g' → Writes false (.patLast w) k (g ++ t)
  | patCons {w ps g g' k t t'} : Gap cc g → Writes false w (g' ++ '|' :: t') t → Gap cc g' → Writes false ps k t' →
      Writes false (.patCons w ps) k (g ++ t)
  | armsNil {l k} : Layout cc l → Writes false .armsNil k (l ++ k)
  | armsCons {ps cs r l p k t t' t''} : Layout cc l → (p = ['('] ∨ p = [] ∧ ps.startsEsac = false) →
      Writes false ps (')' :: t') t → Writes true cs (';' :: ';' :: t'') t' → Writes false r k t'' →
      Writes false (.armsCons ps cs r) k (l ++ (p ++ t))
  /-- the last arm without `;;` -/
  | armsLast {ps cs l p k t t'} : Layout cc l → (p = ['('] ∨ p = [] ∧ ps.startsEsac = false) →
      Writes false ps (')' :: t') t → Writes false cs k t' →
      Writes false (.armsCons ps cs .armsNil) k (l ++ (p ++ t))
  -- Commands
  | simple {pre args k k' t} : Writes true pre k' t → Writes pre.noPres args k k' → Writes false (.simple pre args) k t
  | compound {c k t} : Writes false c k t → Writes false (.compound c) k t
  | function {x c w g l k t} : (∀ c ∈ w, Blank cc c) → Gap cc g → Layout cc l → Writes false c k t →
      Writes false (.function x c) k (x ++ (w ++ '(' :: (g ++ ')' :: (l ++ t))))
  /-- `function f ()` -/
  | functionKw {x c g g' g'' l k t} : Gap cc g → g ≠ [] → Gap cc g' → Gap cc g'' → Layout cc l → Writes false c k t →
      Writes false (.function x c) k ("function".toList ++ (g ++ (x ++ (g' ++ '(' :: (g'' ++ ')' :: (l ++ t))))))
  /-- `function f` -/
  | functionBare {x c g l k t} : Gap cc g → g ≠ [] → Layout cc l → Delim cc l → Writes false c k t → t.head? ≠ some '(' →
      Writes false (.function x c) k ("function".toList ++ (g ++ (x ++ (l ++ t))))
  -- Pipelines
  | last {c k t} : Writes false c k t → Writes false (.last c) k t
  | into {c r g l k t t'} : Writes false c (g ++ '|' :: (l ++ t')) t → Gap cc g → Layout cc l → Writes false r k t' →
      Writes false (.into c r) k t
  | pipeline {p k t} : Writes false p k t → Writes false (.pipeline false p) k t
  | bang {p g k t} : Gap cc g → g ≠ [] → Writes false p k t → Writes false (.pipeline true p) k ('!' :: (g ++ t))
  -- And-or lists
  | restNil {k} : Writes false .restNil k k
  | and {l r g s k k' t} : Gap cc g → Layout cc s → Writes false l k' t → Writes false r k k' →
      Writes false (.and l r) k (g ++ '&' :: '&' :: (s ++ t))
  | or {l r g s k k' t} : Gap cc g → Layout cc s → Writes false l k' t → Writes false r k k' →
      Writes false (.or l r) k (g ++ '|' :: '|' :: (s ++ t))
  -- Sequences of commands
  | command {job l r k k' t} : Writes false l k' t → Writes false r k k' → Writes false (.command job l r) k t
  | cnil {o l k} : Layout cc l → Writes o .cnil k (l ++ k)
  /-- the text may end with a comment -/
  | cend {o l x} : Layout cc l → '\n' ∉ x → Writes o .cnil [] (l ++ '#' :: x)
  | semi {o c cs l g k t t'} : Layout cc l → Writes false c (g ++ ';' :: t') t → c.isJob = false → Gap cc g →
      Writes o cs k t' → t'.head? ≠ some ';' → Writes o (.ccons c cs) k (l ++ t)
  | amp {o c cs l g k t t'} : Layout cc l → Writes false c (g ++ '&' :: t') t → c.isJob = true → Gap cc g →
      Writes o cs k t' → Writes o (.ccons c cs) k (l ++ t)
  | line {o c cs l g k t t'} : Layout cc l → Writes false c (g ++ t') t → c.isJob = false → Gap cc g →
      Writes o cs k t' → NewLine g t' → Writes o (.ccons c cs) k (l ++ t)
  | open_ {c l g k t} : Layout cc l → Writes false c (g ++ k) t → c.isJob = false → Gap cc g →
      Writes true (.ccons c .cnil) k (l ++ t)

end Conch.Spec
