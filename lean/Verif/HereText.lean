import Verif.LexSpec
/-!
# The text of here-documents (C30, C47)
-/
namespace Conch.Spec
open Conch

/-- The text starts with something that ends a word. -/
def Delim (cc : CharClass) (s : Str) : Prop := ∃ c r, s = c :: r ∧ (Blank cc c ∨ c ∈ "\n;&|<>()".toList)

/-- `Spans e s`: text that can stand before the character `e` that ends a line (`e` is the newline) or
closes a quoted or parenthesised region: `e` itself only occurs escaped or in nested regions, and these
are closed. -/
inductive Spans : Char → Str → Prop
  | nil {e} : Spans e []
  | char {e x s} : x ≠ e → x ∉ "\\$`(".toList → (e ≠ '"' → x ∉ "'\"".toList) → Spans e s → Spans e (x :: s)
  | escaped {e x s} : Spans e s → Spans e ('\\' :: x :: s)
  /-- within double quotes, single quotes mean nothing -/
  | quoted {e q s} : e ≠ '"' → '\'' ∉ q → Spans e s → Spans e ('\'' :: (q ++ '\'' :: s))
  | nested {e o c q s} : (o, c) ∈ [('"', '"'), ('`', '`'), ('(', ')')] → e ≠ o → Spans c q → Spans e s →
      Spans e (o :: (q ++ c :: s))
  | braces {e q s} : Spans '}' q → Spans e s → Spans e ('$' :: '{' :: (q ++ '}' :: s))
  | dollar {e s} : s.head? ≠ some '{' → Spans e s → Spans e ('$' :: s)

/-- Characters of a delimiter that stand for themselves: no blanks, operators, quotes, backslashes, `$`. -/
def Bare (cc : CharClass) (c : Char) : Prop := cc.whitespace c = false ∧ c ∉ "\n;&|<>()'\"`\\$".toList

/-- `WritesDelim cc b d q`: the text `q` is a way of writing the delimiter `d`; `b` says whether any part
of it is quoted. -/
inductive WritesDelim (cc : CharClass) : Bool → Str → Str → Prop
  | nil : WritesDelim cc false [] []
  | bare {b c d q} : Bare cc c → WritesDelim cc b d q → WritesDelim cc b (c :: d) (c :: q)
  | escaped {b c d q} : c ≠ '\n' → WritesDelim cc b d q → WritesDelim cc true (c :: d) ('\\' :: c :: q)
  | single {b s d q} : '\'' ∉ s → WritesDelim cc b d q → WritesDelim cc true (s ++ d) ('\'' :: (s ++ '\'' :: q))
  | double {b s d q} : (∀ c ∈ s, c ∉ "\"\\$`(".toList) → WritesDelim cc b d q →
      WritesDelim cc true (s ++ d) ('"' :: (s ++ '"' :: q))

/-- Every line with its newline. -/
def linesText (lines : List Str) : Str := lines.flatMap fun l => l ++ ['\n']

/-- The line is the delimiter `d`, possibly with a carriage return. -/
def DelimLine (d line : Str) : Prop := line = d ∨ line = d ++ ['\r']

/-- What a line `raw` of the source contributes to the body: with `<<-` the tabs at its start are
removed. (Only lines without further tabs are considered; see the findings in DESIGN.md.) -/
def Strips (strip : Bool) (raw line : Str) : Prop :=
  if strip then ∃ n, raw = List.replicate n '\t' ++ line ∧ '\t' ∉ line else raw = line

/-- `HereEnd strip d text last after`: how a here-document ends: with the delimiter line, after which
the text `after` follows, or with the input, possibly after a last line `last` without a newline. -/
inductive HereEnd (strip : Bool) (d : Str) : Str → Str → Str → Prop
  | delim {raw line after} : '\n' ∉ raw → Strips strip raw line → DelimLine d line →
      HereEnd strip d (raw ++ '\n' :: after) [] after
  | eofDelim {raw line} : '\n' ∉ raw → Strips strip raw line → DelimLine d line → HereEnd strip d raw [] []
  | eof {raw line} : '\n' ∉ raw → Strips strip raw line → ¬ DelimLine d line → HereEnd strip d raw line []

/-- The operator. -/
def hereOp (strip : Bool) : Str := (if strip then "<<-" else "<<").toList

end Conch.Spec
