import Verif.GramLex
import Verif.ParserCmd
/-!
# The grammar of shell words and commands (C24-C26, C29-C31, C33, C35)

`Reads n b l a r b'`: reading the non-terminal `n` from the tokens `l` gives `a` and leaves the
tokens `r`; on the way the methods of the builder are called exactly as the productions say, in
order, taking its state from `b` to `b'`. What a production requires of the tokens after it is
stated about `r`.
-/
namespace Conch.Gram
open Conch

/-! ## Tables -/

/-- Tokens that stand for themselves in a word. -/
def literalTokens : List Token :=
  [.Bang, .Pound, .Percent, .Dash, .Equals, .Plus, .At, .Caret, .Slash, .Comma, .CurlyOpen,
   .CurlyClose]

/-- Tokens with a meaning of their own in a word. -/
def specialTokens (C : Type) : List (Token × SimpleWordKind C) :=
  [(.Star, .Star), (.Question, .Question), (.Tilde, .Tilde), (.SquareOpen, .SquareOpen),
   (.SquareClose, .SquareClose), (.Colon, .Colon)]

/-- What a backslash escapes in double quotes. -/
def quotable : List Token := [.Dollar, .Backtick, .DoubleQuote, .Backslash, .Newline]

/-- The special parameters. -/
def specialParams : List (Token × DefaultParameter) :=
  [(.Star, .Star), (.Pound, .Pound), (.Question, .Question), (.Dollar, .Dollar), (.Bang, .Bang),
   (.Dash, .Dash), (.At, .At)]

/-- `ParamName t q`: after `$` the token `t` names the parameter `q`. -/
inductive ParamName : Token → DefaultParameter → Prop
  | special {t q} : (t, q) ∈ specialParams → ParamName t q
  | var {x} : ParamName (.Name x) (.Var x)

/-- `ParamIn t q`: after `${` the token `t` names the parameter `q`. A number must fit into
`u32`. -/
inductive ParamIn : Token → DefaultParameter → Prop
  | name {t q} : ParamName t q → ParamIn t q
  | number {s n} : Spec.Signed 10 s n → n ≤ 2 ^ 32 - 1 → s.head? ≠ some '-' →
      ParamIn (.Literal s) (.Positional n.toNat)

/-- What a substitution such as `${x:-w}` means. -/
abbrev SubstMk (C : Type) :=
  Bool → DefaultParameter → Option (ComplexWordKind C) →
    ParameterSubstitutionKind (ComplexWordKind C) C

/-- The operators of `${x op w}` that may follow a colon. -/
def substOps (C : Type) : List (Token × SubstMk C) :=
  [(.Dash, .Default), (.Equals, .Assign), (.Question, .Error), (.Plus, .Alternative)]

/-- The redirection operators that take a path. -/
def pathOps (W : Type) : List (Token × (Option Nat → W → RedirectKind W)) :=
  [(.Less, .Read), (.Great, .Write), (.DGreat, .Append), (.Clobber, .Clobber),
   (.LessGreat, .ReadWrite)]

/-- The redirection operators that take a file descriptor. -/
def dupOps (W : Type) : List (Token × (Option Nat → W → RedirectKind W)) :=
  [(.LessAnd, .DupRead), (.GreatAnd, .DupWrite)]

/-- All redirection operators. -/
def redirOps : List Token :=
  [.Less, .Great, .DGreat, .Clobber, .LessGreat, .LessAnd, .GreatAnd, .DLess, .DLessDash]

/-! ## Parts of double quoted words -/

/-- Text that is not empty. -/
def textOf {C : Type} (s : Str) : List (SimpleWordKind C) :=
  if s = [] then [] else [.Literal s]

/-- Joins neighbouring text; `s` is the text so far. -/
def gather {C : Type} (s : Str) : List (Str ⊕ SimpleWordKind C) → List (SimpleWordKind C)
  | [] => textOf s
  | .inl t :: ps => gather (s ++ t) ps
  | .inr w :: ps => textOf s ++ w :: gather [] ps

/-- No word, one part, or several. -/
def wordOf {C : Type} : List (WordKind C) → Option (ComplexWordKind C)
  | [] => none
  | [w] => some (.Single w)
  | ws => some (.Concat ws)

/-! ## Numbers as file descriptors -/

/-- `LiteralWord w s`: the word consists of unquoted literals with the text `s`. -/
inductive LiteralWord {C : Type} : ComplexWordKind C → Str → Prop
  | single {s} : LiteralWord (.Single (.Simple (.Literal s))) s
  | concat {ss : List Str} : LiteralWord (.Concat (ss.map fun s => .Simple (.Literal s))) ss.flatten

/-- `FdWord w n`: the word is an unquoted decimal numeral that fits into `u16`. -/
def FdWord {C : Type} (w : ComplexWordKind C) (n : Nat) : Prop :=
  ∃ s, LiteralWord w s ∧ Spec.Signed 10 s n ∧ n ≤ 65535 ∧ s.head? ≠ some '-'

/-- Only decimal digits. -/
def AllDigits (s : Str) : Prop := ∀ c ∈ s, c ∈ "0123456789".toList

/-- A part of a word that could be numeric. -/
inductive NumericSimple {C : Type} : SimpleWordKind C → Prop
  | literal {s} : AllDigits s → NumericSimple (.Literal s)
  | escaped {s} : AllDigits s → NumericSimple (.Escaped s)
  | param {p} : NumericSimple (.Param p)
  | subst {s} : NumericSimple (.Subst s)
  | command {g} : NumericSimple (.CommandSubst g)

/-- A part of a word that could be numeric. -/
inductive NumericPart {C : Type} : WordKind C → Prop
  | simple {s} : NumericSimple s → NumericPart (.Simple s)
  | single {s} : AllDigits s → NumericPart (.SingleQuoted s)
  | double {ss} : (∀ s ∈ ss, NumericSimple s) → NumericPart (.DoubleQuoted ss)

/-- A word that could be numeric. -/
inductive NumericWord {C : Type} : ComplexWordKind C → Prop
  | single {w} : NumericPart w → NumericWord (.Single w)
  | concat {ws} : (∀ w ∈ ws, NumericPart w) → NumericWord (.Concat ws)

/-! ## Here-documents -/

/-- `DelimToks l u r`: the tokens `u` of the delimiter of a here-document: units (single tokens,
escaped tokens, quoted or parenthesised regions) up to a word delimiter other than `(`. -/
inductive DelimToks : List Token → List Token → List Token → Prop
  | nil {r} : (∀ t r', r = t :: r' → t.isWordDelimiter = true ∧ t ≠ .ParenOpen) → DelimToks r [] r
  | cons {u l v r} : u ≠ [] → (∀ t u', u = t :: u' → t.isWordDelimiter = false ∨ t = .ParenOpen) →
      Spec.TopUnit (anywhere u) (anywhere l) → DelimToks l v r → DelimToks (u ++ l) (u ++ v) r

/-- Removal of the backslashes before what is special in double quotes. -/
def dqUnquote : List Token → List Token
  | [] => []
  | [x] => [x]
  | x :: y :: r =>
    if x = .Backslash then
      if y ∈ quotable then y :: dqUnquote r else x :: y :: dqUnquote r
    else x :: dqUnquote (y :: r)

/-- Removal of the backslashes that are followed by `\`, `$` or a backtick. -/
def unescape (l : List Token) : List Token := (Spec.unescape (anywhere l)).map (·.2)

/-- `DelimText u q s`: the delimiter tokens `u` mean the text `s`; `q` says whether any of them is
quoted. -/
inductive DelimText : List Token → Bool → Str → Prop
  | nil : DelimText [] false []
  | escaped {t u q s} : DelimText u q s → DelimText (.Backslash :: t :: u) true (t.asStr ++ s)
  | lastBackslash : DelimText [.Backslash] true []
  | single {x u q s} : (∀ t ∈ x, t ≠ .SingleQuote) → DelimText u q s →
      DelimText (.SingleQuote :: x ++ .SingleQuote :: u) true (concatTokens x ++ s)
  | double {x u q s} : Spec.Body .DoubleQuote (anywhere x) → DelimText u q s →
      DelimText (.DoubleQuote :: x ++ .DoubleQuote :: u) true (concatTokens (dqUnquote x) ++ s)
  | backtick {x u q s} : Spec.Body .Backtick (anywhere x) → DelimText u q s →
      DelimText (.Backtick :: x ++ .Backtick :: u) true
        (concatTokens (.Backtick :: unescape x ++ [.Backtick]) ++ s)
  | plain {t u q s} : t ∉ [Token.Backslash, .SingleQuote, .DoubleQuote, .Backtick] →
      DelimText u q s → DelimText (t :: u) q (t.asStr ++ s)

/-- `RestOfLine l u r`: `u` is the rest of the line, with its newline unless the input ends;
newlines in quoted or parenthesised regions do not count. -/
inductive RestOfLine : List Token → List Token → List Token → Prop
  | eof : RestOfLine [] [] []
  | newline {r} : RestOfLine (.Newline :: r) [.Newline] r
  | cons {u l v r} : u ≠ [] → (∀ u', u ≠ .Newline :: u') →
      Spec.TopUnit (anywhere u) (anywhere l) → RestOfLine l v r → RestOfLine (u ++ l) (u ++ v) r

/-- Removal of the tabs at the start of whitespace (`<<-`). -/
def untab (w : Str) : List Token :=
  let s := w.dropWhile (· = '\t')
  if s = [] then [] else [.Whitespace s]

/-- What `<<-` does to a line: every whitespace token loses the tabs it starts with (but not one
that directly follows another one). -/
def stripLine : List Token → List Token
  | [] => []
  | [.Whitespace w] => untab w
  | .Whitespace w :: t :: r => untab w ++ t :: stripLine r
  | t :: r => t :: stripLine r

/-- How many tabs a whitespace text starts with, in bytes. -/
def tabs (w : Str) : Nat := Str.byteLen w - Str.byteLen (w.dropWhile (· = '\t'))

/-- How many tabs `stripLine` removes. -/
def stripped : List Token → Nat
  | [] => 0
  | [.Whitespace w] => tabs w
  | .Whitespace w :: _ :: r => tabs w + stripped r
  | _ :: r => stripped r

/-- How many tabs `lineOf` removes. -/
def cut (strip : Bool) (c : List Token) : Nat := if strip then stripped c else 0

/-- The line as it is compared with the delimiter and put into the body. -/
def lineOf (strip : Bool) (c : List Token) : List Token := if strip then stripLine c else c

/-- The line is the delimiter, possibly with a carriage return. -/
def IsDelim (delim : Str) (c : List Token) : Prop :=
  concatTokens c = delim ∨ concatTokens c = delim ++ ['\r']

/-- `HereLines strip delim l body r`: the lines of a here-document up to the delimiter or the end
of input. -/
inductive HereLines (strip : Bool) (delim : Str) : List Token → List Token → List Token → Prop
  | delim {c r} : (∀ t ∈ c, t ≠ .Newline) → IsDelim delim (lineOf strip c) →
      HereLines strip delim (c ++ .Newline :: r) [] r
  | line {c l body r} : (∀ t ∈ c, t ≠ .Newline) → ¬ IsDelim delim (lineOf strip c) →
      HereLines strip delim l body r →
      HereLines strip delim (c ++ .Newline :: l) (lineOf strip c ++ .Newline :: body) r
  | lastDelim {c} : (∀ t ∈ c, t ≠ .Newline) →
      IsDelim delim (lineOf strip c) → HereLines strip delim c [] []
  | lastLine {c} : (∀ t ∈ c, t ≠ .Newline) →
      ¬ IsDelim delim (lineOf strip c) → HereLines strip delim c (lineOf strip c) []

/-- The word of an unquoted here-document. -/
def hereWord {C : Type} : List (SimpleWordKind C) → ComplexWordKind C
  | [] => .Single (.Simple (.Literal []))
  | [w] => .Single (.Simple w)
  | ws => .Concat (ws.map .Simple)

/-! ## Commands -/

/-- `SepAfter l sep c r`: the separator after a command and the comment after it. -/
inductive SepAfter : List Token → SeparatorKind → Option Nl → List Token → Prop
  | semi {l c r} : OptLine l c r → SepAfter (.Semi :: l) .Semi c r
  | amp {l c r} : OptLine l c r → SepAfter (.Amp :: l) .Amp c r
  | newline {l n r} : Line l n r → (∀ l', l ≠ .Semi :: l' ∧ l ≠ .Amp :: l') →
      SepAfter l .Newline (some n) r
  | other {l r} : Skip l r → NoLineStart r → (∀ l', l ≠ .Semi :: l' ∧ l ≠ .Amp :: l') →
      SepAfter l .Other none r

/-- What a compound command starts with. -/
inductive CompoundStart : List Token → CompoundKw → Prop
  | subshell {r} : CompoundStart (.ParenOpen :: r) .Subshell
  | brace {r} : EndsWord r → CompoundStart (.CurlyOpen :: r) .Brace
  | forKw {l r} : Keyword FOR l r → CompoundStart l .For
  | caseKw {l r} : Keyword CASE l r → CompoundStart l .Case
  | ifKw {l r} : Keyword IF l r → CompoundStart l .If
  | whileKw {l r} : Keyword WHILE l r → CompoundStart l .While
  | untilKw {l r} : Keyword UNTIL l r → CompoundStart l .Until

/-- What a function declaration starts with. -/
inductive FunctionStart : List Token → Prop
  | keyword {l r} : Keyword FUNCTION l r → FunctionStart l
  | paren {x r} : FunctionStart (.Name x :: .ParenOpen :: r)
  | wsParen {x w r} : FunctionStart (.Name x :: .Whitespace w :: .ParenOpen :: r)

/-- What an assignment starts with. -/
def AssignStart (l : List Token) : Prop := ∃ x r, l = .Name x :: .Equals :: r

/-- `Parens l r`: `(`, blanks, `)`. -/
def Parens (l r : List Token) : Prop := ∃ l', l = .ParenOpen :: l' ∧ Skip l' (.ParenClose :: r)

/-- The keyword of a loop. -/
def loopWord : LoopKind → Str
  | .While => WHILE
  | .Until => UNTIL

/-- The non-terminals. -/
inductive NT
  /-- a part of a word; the parts of a word up to a delimiter; a word after blanks -/
  | piece | pieces (d : Option Token) | rawWord (d : Option Token)
  /-- a word, without and with the blanks after it; words -/
  | wordP | word | words
  /-- parts of a double quoted word or a here-document -/
  | interpParts (d : Option Token) | interp (d : Option Token)
  | param | curly (q : DefaultParameter) | substPieces (mid : Bool) | substWord | backtick
  | subshell (emptyOk : Bool) | group (cfg : Delims) | brace | doGroup
  | redirTail (fd : Option Nat) | heredoc (fd : Option Nat) | redirect | redirects
  | assigns | args | simple
  | ifArms | ifCommand | loopCommand | forWords (post : List Nl) | forCommand
  | patterns | arms | caseCommand
  | compound (kw : CompoundKw) | fnStart (found : Bool) | function
  | command | pipelineCmds | pipeline | andOrRest | andOr | complete (pre : List Nl) | top

/-- What is read. -/
@[reducible] def NT.Res (B : Builder) : NT → Type
  | .piece => WordKind B.Command
  | .pieces _ | .substPieces _ => List (WordKind B.Command)
  | .rawWord _ | .substWord => Option (ComplexWordKind B.Command)
  | .wordP | .word => Option B.Word
  | .words | .patterns => List B.Word
  | .interpParts _ => List (Str ⊕ SimpleWordKind B.Command)
  | .interp _ => List (SimpleWordKind B.Command)
  | .param | .curly _ | .backtick => SimpleWordKind B.Command
  | .subshell _ | .group _ | .brace | .doGroup => CommandGroup B.Command
  | .redirTail _ | .heredoc _ => B.Redirect
  | .redirect => Option (B.Redirect ⊕ B.Word)
  | .redirects => List B.Redirect
  | .assigns => List (RedirectOrEnvVar B.Redirect Str B.Word) × Option B.Word
  | .args => List (RedirectOrCmdWord B.Redirect B.Word)
  | .simple | .function | .command => B.PipeableCommand
  | .ifArms | .ifCommand => IfFragments B.Command
  | .loopCommand => LoopKind × GuardBodyPairGroup B.Command
  | .forWords _ => Option (List Nl × List B.Word × Option Nl) × List Nl
  | .forCommand => ForFragments B.Word B.Command
  | .arms => List (CaseArm B.Word B.Command) × List Nl
  | .caseCommand => CaseFragments B.Word B.Command
  | .compound _ => B.CompoundCommand
  | .fnStart _ => Option B.CompoundCommand
  | .pipelineCmds => List (List Nl × B.PipeableCommand)
  | .pipeline => B.ListableCommand
  | .andOrRest => List (List Nl × AndOr B.ListableCommand)
  | .andOr => B.CommandList
  | .complete _ => B.Command
  | .top => Option B.Command

/-- The builder method returns `a`. -/
abbrev Calls {B : Builder} (c : Call B.toBTypes) (b : B.State) (a : c.Ret) (b' : B.State) : Prop :=
  B.call c b = (.ok a, b')

/-- The group that ends at `)`. -/
def parenDelim : Delims := ⟨[], [], [.ParenClose]⟩
/-- The group that ends at `}` on its own. -/
def braceDelim : Delims := ⟨[.CurlyClose], [], []⟩
/-- The group that ends at one of the words. -/
def wordDelim (ws : List Str) : Delims := ⟨[], ws, []⟩
/-- The body of a `case` arm. -/
def armDelim : Delims := ⟨[], [ESAC], [.DSemi]⟩
/-- The group that ends with the input. -/
def noDelim : Delims := ⟨[], [], []⟩

/-- Reading a non-terminal. -/
inductive Reads {B : Builder} :
    (n : NT) → B.State → List Token → n.Res B → List Token → B.State → Prop
  -- Parts of words
  | literal {b t r} : t ∈ literalTokens → Reads .piece b (t :: r) (.Simple (.Literal t.asStr)) r b
  | name {b s r} : Reads .piece b (.Name s :: r) (.Simple (.Literal s)) r b
  | text {b s r} : Reads .piece b (.Literal s :: r) (.Simple (.Literal s)) r b
  | special {b t w r} : (t, w) ∈ specialTokens B.Command →
      Reads .piece b (t :: r) (.Simple w) r b
  | escaped {b t r} : t ≠ .Newline →
      Reads .piece b (.Backslash :: t :: r) (.Simple (.Escaped t.asStr)) r b
  /-- between single quotes everything is text -/
  | singleQuoted {b u r} : (∀ t ∈ u, t ≠ .SingleQuote) →
      Reads .piece b (.SingleQuote :: u ++ .SingleQuote :: r) (.SingleQuoted (concatTokens u)) r b
  | doubleQuoted {b l ss r b'} : Reads (.interp (some .DoubleQuote)) b l ss r b' →
      Reads .piece b (.DoubleQuote :: l) (.DoubleQuoted ss) r b'
  | pieceBacktick {b l w r b'} : Reads .backtick b l w r b' →
      Reads .piece b l (.Simple w) r b'
  | pieceParam {b l w r b'} : Reads .param b l w r b' → Reads .piece b l (.Simple w) r b'
  -- Words
  /-- a word ends before a delimiter -/
  | endWord {b d r} : EndsWord r → Reads (.pieces d) b r [] r b
  /-- inside `${..}` it also ends before `}` -/
  | endCurly {b t r} : Reads (.pieces (some t)) b (t :: r) [] (t :: r) b
  /-- an escaped newline ends a word (and is dropped) -/
  | endEscaped {b d r} : d ≠ some .Backslash →
      Reads (.pieces d) b (.Backslash :: .Newline :: r) [] r b
  /-- so does a backslash at the end of input -/
  | endBackslash {b d} : d ≠ some .Backslash → Reads (.pieces d) b [.Backslash] [] [] b
  | consPiece {b d l w l' b' ws r b''} : (∀ t l', l = t :: l' → d ≠ some t) →
      Reads .piece b l w l' b' → Reads (.pieces d) b' l' ws r b'' →
      Reads (.pieces d) b l (w :: ws) r b''
  /-- no word starts with `#` -/
  | noWord {b d l r} : Skip l (.Pound :: r) → Reads (.rawWord d) b l none (.Pound :: r) b
  | someWord {b d l l' ws r b'} : Skip l l' → (∀ r, l' ≠ .Pound :: r) →
      Reads (.pieces d) b l' ws r b' → Reads (.rawWord d) b l (wordOf ws) r b'
  | wordPSome {b l k r b' w b''} : Reads (.rawWord none) b l (some k) r b' →
      Calls (.word k) b' w b'' → Reads .wordP b l (some w) r b''
  | wordPNone {b l r b'} : Reads (.rawWord none) b l none r b' → Reads .wordP b l none r b'
  | word {b l w l' b' r} : Reads .wordP b l w l' b' → Skip l' r → Reads .word b l w r b'
  | wordsNil {b l r b'} : Reads .word b l none r b' → Reads .words b l [] r b'
  | wordsCons {b l w l' b' ws r b''} : Reads .word b l (some w) l' b' →
      Reads .words b' l' ws r b'' → Reads .words b l (w :: ws) r b''
  -- Parts of double quoted words and here-documents; `d` is the closing token
  | interpEnd {b d r} : Reads (.interpParts (some d)) b (d :: r) [] r b
  | interpEof {b} : Reads (.interpParts none) b [] [] [] b
  | interpParam {b d l w l' b' ps r b''} : (∀ t l', l = t :: l' → d ≠ some t) →
      Reads .param b l w l' b' → Reads (.interpParts d) b' l' ps r b'' →
      Reads (.interpParts d) b l (.inr w :: ps) r b''
  | interpBacktick {b d l w l' b' ps r b''} : (∀ t l', l = t :: l' → d ≠ some t) →
      Reads .backtick b l w l' b' → Reads (.interpParts d) b' l' ps r b'' →
      Reads (.interpParts d) b l (.inr w :: ps) r b''
  /-- a backslash escapes what is special -/
  | interpEscaped {b d t l ps r b'} : d ≠ some .Backslash → t ∈ quotable ∨ d = some t →
      Reads (.interpParts d) b l ps r b' →
      Reads (.interpParts d) b (.Backslash :: t :: l) (.inr (.Escaped t.asStr) :: ps) r b'
  /-- and else stands for itself -/
  | interpBackslash {b d l ps r b'} : d ≠ some .Backslash →
      (∀ t l', l = t :: l' → t ∉ quotable ∧ d ≠ some t) → l ≠ [] →
      Reads (.interpParts d) b l ps r b' →
      Reads (.interpParts d) b (.Backslash :: l) (.inl Token.Backslash.asStr :: ps) r b'
  | interpText {b d t l ps r b'} : d ≠ some t →
      t ∉ [Token.Dollar, .Backtick, .Backslash] → (∀ p, t ≠ .ParamPositional p) →
      Reads (.interpParts d) b l ps r b' →
      Reads (.interpParts d) b (t :: l) (.inl t.asStr :: ps) r b'
  | interp {b d l ps r b'} : Reads (.interpParts d) b l ps r b' →
      Reads (.interp d) b l (gather [] ps) r b'
  -- Parameters and substitutions
  | positional {b p r} :
      Reads .param b (.ParamPositional p :: r) (.Param (.Positional p.asNum)) r b
  | parameter {b t q r} : ParamName t q → Reads .param b (.Dollar :: t :: r) (.Param q) r b
  | loneDollar {b r} : (∀ t r', r = t :: r' → t ≠ .ParenOpen ∧ t ≠ .CurlyOpen ∧ ∀ q, ¬ ParamName t q) →
      Reads .param b (.Dollar :: r) (.Literal Token.Dollar.asStr) r b
  | arithmetic {b l l' u l1 l2 a r} : Skip l l' → (∀ r, l' ≠ .ParenClose :: r) → l' = u ++ l1 →
      Spec.Expr .munch .seq (anywhere u) a → Skip l1 (.ParenClose :: l2) → Skip l2 (.ParenClose :: r) →
      Reads .param b (.Dollar :: .ParenOpen :: .ParenOpen :: l) (.Subst (.Arith (some a))) r b
  | noArithmetic {b l l2 r} : Skip l (.ParenClose :: l2) → Skip l2 (.ParenClose :: r) →
      Reads .param b (.Dollar :: .ParenOpen :: .ParenOpen :: l) (.Subst (.Arith none)) r b
  | commandSubst {b l g r b'} : (∀ l', l ≠ .ParenOpen :: .ParenOpen :: l') →
      Reads (.subshell true) b l g r b' →
      Reads .param b (.Dollar :: l) (.Subst (.Command g)) r b'
  | braced {b t q l w r b'} : ParamIn t q → Reads (.curly q) b l w r b' →
      Reads .param b (.Dollar :: .CurlyOpen :: t :: l) w r b'
  /-- `}` (also after a colon) -/
  | curlyEnd {b q r} : Reads (.curly q) b (.CurlyClose :: r) (.Param q) r b
  | curlyColonEnd {b q r} : Reads (.curly q) b (.Colon :: .CurlyClose :: r) (.Param q) r b
  /-- `${#x}`: the length of `x` -/
  | curlyLen {b t q r} : ParamIn t q →
      t ∉ [Token.Percent, .Pound, .Colon, .Dash, .Equals, .Question, .Plus, .CurlyClose] →
      Reads (.curly .Pound) b (t :: .CurlyClose :: r) (.Subst (.Len q)) r b
  /-- `${##}`, `${#?}`, `${#-}`: the length of `$#`, `$?`, `$-` -/
  | curlyLenSpecial {b t q r} :
      (t, q) ∈ [(Token.Pound, Parameter.Pound), (.Question, .Question), (.Dash, .Dash)] →
      Reads (.curly .Pound) b (t :: .CurlyClose :: r) (.Subst (.Len q)) r b
  /-- `${x op w}` -/
  | curlyOp {b q t mk l w r b'} : (t, mk) ∈ substOps B.Command → Reads .substWord b l w r b' →
      ¬ (q = .Pound ∧ (t = .Question ∨ t = .Dash) ∧ w = none) →
      Reads (.curly q) b (t :: l) (.Subst (mk false q w)) r b'
  /-- `${x :op w}` -/
  | curlyColonOp {b q t mk l w r b'} : (t, mk) ∈ substOps B.Command →
      Reads .substWord b l w r b' →
      Reads (.curly q) b (.Colon :: t :: l) (.Subst (mk true q w)) r b'
  | curlyPercent {b q l w r b'} : (∀ l', l ≠ .Percent :: l') → Reads .substWord b l w r b' →
      Reads (.curly q) b (.Percent :: l) (.Subst (.RemoveSmallestSuffix q w)) r b'
  | curlyPercent2 {b q l w r b'} : Reads .substWord b l w r b' →
      Reads (.curly q) b (.Percent :: .Percent :: l) (.Subst (.RemoveLargestSuffix q w)) r b'
  | curlyPound {b q l w r b'} : (∀ l', l ≠ .Pound :: l') → Reads .substWord b l w r b' →
      ¬ (q = .Pound ∧ w = none) →
      Reads (.curly q) b (.Pound :: l) (.Subst (.RemoveSmallestPrefix q w)) r b'
  | curlyPound2 {b q l w r b'} : Reads .substWord b l w r b' →
      Reads (.curly q) b (.Pound :: .Pound :: l) (.Subst (.RemoveLargestPrefix q w)) r b'
  /-- The word of a substitution goes up to `}`; delimiters are literal text. -/
  | substEnd {b mid r} : Reads (.substPieces mid) b (.CurlyClose :: r) [] r b
  | substDelim {b mid t l ws r b'} : t.isWordDelimiter = true →
      Reads (.substPieces false) b l ws r b' →
      Reads (.substPieces mid) b (t :: l) (.Simple (.Literal t.asStr) :: ws) r b'
  /-- `#` and an escaped newline at the start of a word are kept -/
  | substPound {b l ws r b'} : Reads (.substPieces false) b l ws r b' →
      Reads (.substPieces false) b (.Pound :: l) (.Simple (.Literal Token.Pound.asStr) :: ws) r b'
  | substEscaped {b l ws r b'} : Reads (.substPieces false) b l ws r b' →
      Reads (.substPieces false) b (.Backslash :: .Newline :: l)
        (.Simple (.Escaped Token.Newline.asStr) :: ws) r b'
  /-- an escaped newline directly after something else is dropped -/
  | substDropped {b l ws r b'} : Reads (.substPieces false) b l ws r b' →
      Reads (.substPieces true) b (.Backslash :: .Newline :: l) ws r b'
  | substPiece {b mid l w l' b' ws r b''} : (∀ l', l ≠ .CurlyClose :: l') →
      (mid = false → ∀ l', l ≠ .Pound :: l') →
      Reads .piece b l w l' b' → Reads (.substPieces true) b' l' ws r b'' →
      Reads (.substPieces mid) b l (w :: ws) r b''
  | substWord {b l ws r b'} : Reads (.substPieces false) b l ws r b' →
      Reads .substWord b l (wordOf ws) r b'
  /-- the commands between backticks, unescaped, are read to their end -/
  | backtick {b u r g b'} : Spec.Body .Backtick (anywhere u) →
      Reads (.group noDelim) b (unescape u) g [] b' →
      Reads .backtick b (.Backtick :: u ++ .Backtick :: r) (.CommandSubst g) r b'
  -- Groups
  | subshell {b ok l g r b'} : Reads (.group parenDelim) b l g (.ParenClose :: r) b' →
      (g.commands = [] → ok = true) → Reads (.subshell ok) b (.ParenOpen :: l) g r b'
  | groupEnd {b cfg l ns r} : Lines l ns r → AtDelim cfg r ∨ r = [] →
      Reads (.group cfg) b l ⟨[], ns⟩ r b
  | groupCons {b cfg l ns l1 c l2 b' cs ms r b''} : Lines l ns l1 → ¬ AtDelim cfg l1 → l1 ≠ [] →
      Reads (.complete ns) b l1 c l2 b' → Reads (.group cfg) b' l2 ⟨cs, ms⟩ r b'' →
      Reads (.group cfg) b l ⟨c :: cs, ms⟩ r b''
  | brace {b l l1 g l2 b' r} : Skip l (.CurlyOpen :: l1) → EndsWord l1 →
      Reads (.group braceDelim) b l1 g l2 b' → g.commands ≠ [] →
      Skip l2 (.CurlyClose :: r) → EndsWord r → Reads .brace b l g r b'
  | doGroup {b l l1 g l2 b' r} : Kw DO l l1 → Reads (.group (wordDelim [DONE])) b l1 g l2 b' →
      g.commands ≠ [] → Kw DONE l2 r → Reads .doGroup b l g r b'
  -- Redirections
  | redirPath {b fd t mk l l' k r b' w b'' a b3} : (t, mk) ∈ pathOps B.Word → Skip l l' →
      Reads (.rawWord none) b l' (some k) r b' → Calls (.word k) b' w b'' →
      Calls (.redirect (mk fd w)) b'' a b3 → Reads (.redirTail fd) b (t :: l) a r b3
  | redirDupDash {b fd t mk l r w b' a b''} : (t, mk) ∈ dupOps B.Word → Skip l (.Dash :: r) →
      EndsWord r → Calls (.word (.Single (.Simple (.Literal Token.Dash.asStr)))) b w b' →
      Calls (.redirect (mk fd w)) b' a b'' → Reads (.redirTail fd) b (t :: l) a r b''
  | redirDup {b fd t mk l l' k r b' w b'' a b3} : (t, mk) ∈ dupOps B.Word → Skip l l' →
      (∀ r, l' = .Dash :: r → ¬ EndsWord r) →
      Reads (.rawWord none) b l' (some k) r b' → NumericWord k → Calls (.word k) b' w b'' →
      Calls (.redirect (mk fd w)) b'' a b3 → Reads (.redirTail fd) b (t :: l) a r b3
  | redirHeredoc {b fd l a r b'} : Reads (.heredoc fd) b l a r b' →
      Reads (.redirTail fd) b l a r b'
  /-- The rest of the line comes before what follows the body. -/
  | heredocQuoted {b fd t l l1 u l2 delim saved l3 body r w b' a b''} : t = .DLess ∨ t = .DLessDash →
      Skip l l1 → DelimToks l1 u l2 → DelimText u true delim → delim ≠ [] →
      RestOfLine l2 saved l3 → HereLines (t = .DLessDash) delim l3 body r →
      Calls (.word (.Single (.Simple (.Literal (concatTokens body))))) b w b' →
      Calls (.redirect (.Heredoc fd w)) b' a b'' →
      Reads (.heredoc fd) b (t :: l) a (saved ++ r) b''
  | heredoc {b fd t l l1 u l2 delim saved l3 body r ps b' w b'' a b3} : t = .DLess ∨ t = .DLessDash →
      Skip l l1 → DelimToks l1 u l2 → DelimText u false delim → delim ≠ [] →
      RestOfLine l2 saved l3 → HereLines (t = .DLessDash) delim l3 body r →
      Reads (.interp none) b body ps [] b' →
      Calls (.word (hereWord ps)) b' w b'' → Calls (.redirect (.Heredoc fd w)) b'' a b3 →
      Reads (.heredoc fd) b (t :: l) a (saved ++ r) b3
  /-- a redirection without descriptor -/
  | redirect {b l t l' b' a r b''} : Reads (.rawWord none) b l none (t :: l') b' →
      t ∈ redirOps → Reads (.redirTail none) b' (t :: l') a r b'' →
      Reads .redirect b l (some (.inl a)) r b''
  /-- a number directly before the operator is the descriptor -/
  | redirectFd {b l k n t l' b' a r b''} : Reads (.rawWord none) b l (some k) (t :: l') b' →
      FdWord k n → t ∈ redirOps → Reads (.redirTail (some n)) b' (t :: l') a r b'' →
      Reads .redirect b l (some (.inl a)) r b''
  /-- any other word is a word -/
  | redirectWord {b l k r b' w b''} : Reads (.rawWord none) b l (some k) r b' →
      ((∃ n, FdWord k n) → ∀ t r', r = t :: r' → t ∉ redirOps) → Calls (.word k) b' w b'' →
      Reads .redirect b l (some (.inr w)) r b''
  | noRedirect {b l r b'} : Reads (.rawWord none) b l none r b' →
      (∀ t r', r = t :: r' → t ∉ redirOps) → Reads .redirect b l none r b'
  | redirectsNil {b l l' r b'} : Skip l l' → Reads .redirect b l' none r b' →
      Reads .redirects b l [] r b'
  | redirectsCons {b l l' a l2 b' as r b''} : Skip l l' →
      Reads .redirect b l' (some (.inl a)) l2 b' → Reads .redirects b' l2 as r b'' →
      Reads .redirects b l (a :: as) r b''
  -- Simple commands
  /-- `x=` before a blank has no value -/
  | assignEmpty {b l x w l' as e r b'} : Skip l (.Name x :: .Equals :: .Whitespace w :: l') →
      Reads .assigns b (.Whitespace w :: l') (as, e) r b' →
      Reads .assigns b l (.EnvVar x none :: as, e) r b'
  | assign {b l x l' v l2 b' as e r b''} : Skip l (.Name x :: .Equals :: l') →
      (∀ w l2, l' ≠ .Whitespace w :: l2) → Reads .word b l' v l2 b' →
      Reads .assigns b' l2 (as, e) r b'' → Reads .assigns b l (.EnvVar x v :: as, e) r b''
  | assignsRedirect {b l l' a l2 b' as e r b''} : Skip l l' → ¬ AssignStart l' →
      Reads .redirect b l' (some (.inl a)) l2 b' → Reads .assigns b' l2 (as, e) r b'' →
      Reads .assigns b l (.Redirect a :: as, e) r b''
  /-- the first word is the command -/
  | assignsWord {b l l' w r b'} : Skip l l' → ¬ AssignStart l' →
      Reads .redirect b l' (some (.inr w)) r b' → Reads .assigns b l ([], some w) r b'
  | assignsEnd {b l l' r b'} : Skip l l' → ¬ AssignStart l' →
      Reads .redirect b l' none r b' → Reads .assigns b l ([], none) r b'
  | argsRedirect {b l a l' b' as r b''} : Reads .redirect b l (some (.inl a)) l' b' →
      Reads .args b' l' as r b'' → Reads .args b l (.Redirect a :: as) r b''
  | argsWord {b l w l' b' as r b''} : Reads .redirect b l (some (.inr w)) l' b' →
      Reads .args b' l' as r b'' → Reads .args b l (.CmdWord w :: as) r b''
  | argsEnd {b l r b'} : Reads .redirect b l none r b' → Reads .args b l [] r b'
  | simple {b l vs e l' b' as r b'' c b3} : Reads .assigns b l (vs, e) l' b' →
      Reads .args b' l' as r b'' → (vs ≠ [] ∨ e.isSome ∨ as ≠ []) →
      Calls (.simpleCommand vs (e.toList.map .CmdWord ++ as)) b'' c b3 →
      Reads .simple b l c r b3
  -- Compound commands
  | ifElif {b l g l1 b1 l2 t l3 b2 l4 cs e r b3} :
      Reads (.group (wordDelim [THEN])) b l g l1 b1 → g.commands ≠ [] → Kw THEN l1 l2 →
      Reads (.group (wordDelim [ELIF, ELSE, FI])) b1 l2 t l3 b2 → t.commands ≠ [] →
      Kw ELIF l3 l4 → Reads .ifArms b2 l4 ⟨cs, e⟩ r b3 →
      Reads .ifArms b l ⟨⟨g, t⟩ :: cs, e⟩ r b3
  | ifElse {b l g l1 b1 l2 t l3 b2 l4 e l5 r b3} :
      Reads (.group (wordDelim [THEN])) b l g l1 b1 → g.commands ≠ [] → Kw THEN l1 l2 →
      Reads (.group (wordDelim [ELIF, ELSE, FI])) b1 l2 t l3 b2 → t.commands ≠ [] →
      Kw ELSE l3 l4 → Reads (.group (wordDelim [FI])) b2 l4 e l5 b3 → e.commands ≠ [] →
      Kw FI l5 r → Reads .ifArms b l ⟨[⟨g, t⟩], some e⟩ r b3
  | ifFi {b l g l1 b1 l2 t l3 b2 r} :
      Reads (.group (wordDelim [THEN])) b l g l1 b1 → g.commands ≠ [] → Kw THEN l1 l2 →
      Reads (.group (wordDelim [ELIF, ELSE, FI])) b1 l2 t l3 b2 → t.commands ≠ [] →
      Kw FI l3 r → Reads .ifArms b l ⟨[⟨g, t⟩], none⟩ r b2
  | ifCommand {b l l' f r b'} : Kw IF l l' → Reads .ifArms b l' f r b' →
      Reads .ifCommand b l f r b'
  | loopCommand {b k l l1 g l2 b1 body r b2} : Kw (loopWord k) l l1 →
      Reads (.group (wordDelim [DO])) b l1 g l2 b1 → g.commands ≠ [] →
      Reads .doGroup b1 l2 body r b2 → Reads .loopCommand b l (k, ⟨g, body⟩) r b2
  /-- `in w ... ;` -/
  | forIn {b post l l1 ws l2 b' l3 c l4 ns r} : Kw IN l l1 → Reads .words b l1 ws l2 b' →
      (l2 = .Semi :: l3 ∨ l3 = l2 ∧ (∀ l', l2 ≠ .Semi :: l') ∧ c.isSome) → OptLine l3 c l4 →
      Lines l4 ns r → Reads (.forWords post) b l (some (post, ws, c), ns) r b'
  | forSemi {b post l l1 ns r} : Skip l (.Semi :: l1) → Lines l1 ns r →
      Reads (.forWords post) b l (none, ns) r b
  | forDo {b post l l' r} : Skip l r → Keyword DO r l' →
      Reads (.forWords post) b l (none, post) r b
  | forCommand {b l l1 l2 x c l3 post l4 ws pre l5 b1 body r b2} : Kw FOR l l1 → Skip l1 (.Name x :: l2) →
      OptLine l2 c l3 → Lines l3 post l4 → Reads (.forWords post) b l4 (ws, pre) l5 b1 →
      Reads .doGroup b1 l5 body r b2 → Reads .forCommand b l ⟨x, c, ws, pre, body⟩ r b2
  | patternLast {b l w r b'} : Reads .word b l (some w) (.ParenClose :: r) b' →
      Reads .patterns b l [w] r b'
  | patternCons {b l w l' b' ws r b''} : Reads .word b l (some w) (.Pipe :: l') b' →
      Reads .patterns b' l' ws r b'' → Reads .patterns b l (w :: ws) r b''
  | armsEnd {b l ns r r'} : Lines l ns r → Keyword ESAC r r' → Reads .arms b l ([], ns) r b
  /-- an arm with `;;` -/
  | armsCons {b l pre l1 l2 ps l3 b1 c l4 g l5 b2 ac l6 as ns r b3} : Lines l pre l1 →
      (∀ r, ¬ Keyword ESAC l1 r) → (l1 = .ParenOpen :: l2 ∨ l2 = l1 ∧ ∀ l', l1 ≠ .ParenOpen :: l') →
      Reads .patterns b l2 ps l3 b1 → OptLine l3 c l4 →
      Reads (.group armDelim) b1 l4 g (.DSemi :: l5) b2 → OptLine l5 ac l6 →
      Reads .arms b2 l6 (as, ns) r b3 →
      Reads .arms b l (⟨⟨pre, ps, c⟩, g, ac⟩ :: as, ns) r b3
  /-- the last arm may lack it -/
  | armsLast {b l pre l1 l2 ps l3 b1 c l4 g r b2} : Lines l pre l1 →
      (∀ r, ¬ Keyword ESAC l1 r) → (l1 = .ParenOpen :: l2 ∨ l2 = l1 ∧ ∀ l', l1 ≠ .ParenOpen :: l') →
      Reads .patterns b l2 ps l3 b1 → OptLine l3 c l4 →
      Reads (.group armDelim) b1 l4 g r b2 → (∀ r', r ≠ .DSemi :: r') →
      Reads .arms b l ([⟨⟨pre, ps, c⟩, g, none⟩], []) r b2
  | caseCommand {b l l1 w l2 b1 post l3 l4 c l5 as pre l6 b2 rem l7 r} : Kw CASE l l1 →
      Reads .word b l1 (some w) l2 b1 → Lines l2 post l3 → Kw IN l3 l4 → OptLine l4 c l5 →
      Reads .arms b1 l5 (as, pre) l6 b2 → Lines l6 rem l7 → Kw ESAC l7 r →
      Reads .caseCommand b l ⟨w, post, c, as, pre ++ rem⟩ r b2
  | compoundIf {b l f l' b1 io r b2 c b3} : Reads .ifCommand b l f l' b1 →
      Reads .redirects b1 l' io r b2 → Calls (.ifCommand f io) b2 c b3 →
      Reads (.compound .If) b l c r b3
  | compoundLoop {b kw l k p l' b1 io r b2 c b3} : kw = .While ∨ kw = .Until →
      Reads .loopCommand b l (k, p) l' b1 →
      Reads .redirects b1 l' io r b2 → Calls (.loopCommand k p io) b2 c b3 →
      Reads (.compound kw) b l c r b3
  | compoundFor {b l f l' b1 io r b2 c b3} : Reads .forCommand b l f l' b1 →
      Reads .redirects b1 l' io r b2 → Calls (.forCommand f io) b2 c b3 →
      Reads (.compound .For) b l c r b3
  | compoundCase {b l f l' b1 io r b2 c b3} : Reads .caseCommand b l f l' b1 →
      Reads .redirects b1 l' io r b2 → Calls (.caseCommand f io) b2 c b3 →
      Reads (.compound .Case) b l c r b3
  | compoundBrace {b l g l' b1 io r b2 c b3} : Reads .brace b l g l' b1 →
      Reads .redirects b1 l' io r b2 → Calls (.braceGroup g io) b2 c b3 →
      Reads (.compound .Brace) b l c r b3
  | compoundSubshell {b l g l' b1 io r b2 c b3} : Reads (.subshell false) b l g l' b1 →
      Reads .redirects b1 l' io r b2 → Calls (.subshell g io) b2 c b3 →
      Reads (.compound .Subshell) b l c r b3
  -- Functions
  | fnParens {b found l r} : Parens l r → Reads (.fnStart found) b l none r b
  | fnNewline {b r} : Reads (.fnStart true) b (.Newline :: r) none (.Newline :: r) b
  | fnWsParens {b w l l' r} : Skip l l' → Parens l' r →
      Reads (.fnStart false) b (.Whitespace w :: l) none r b
  | fnWs {b w l r} : Skip l r → (∀ r', r ≠ .ParenOpen :: r') →
      Reads (.fnStart true) b (.Whitespace w :: l) none r b
  /-- `function f (...)`: parentheses that hold something are the body -/
  | fnEmpty {b w l l' r b'} : Skip l l' → Reads (.subshell true) b l' ⟨[], []⟩ r b' →
      Reads (.fnStart true) b (.Whitespace w :: l) none r b'
  | fnSubshell {b w l l' g r b' c b''} : Skip l l' → Reads (.subshell true) b l' g r b' →
      g ≠ ⟨[], []⟩ → Calls (.subshell g []) b' c b'' →
      Reads (.fnStart true) b (.Whitespace w :: l) (some c) r b''
  /-- `function f ...` and `f () ...` -/
  | function {b found l l1 x l2 l3 b1 ns l4 kw c r b2 a b3} :
      (found = true ∧ Kw FUNCTION l l1 ∨ found = false ∧ l1 = l ∧ ∀ r, ¬ Kw FUNCTION l r) →
      Skip l1 (.Name x :: l2) → Reads (.fnStart found) b l2 none l3 b1 →
      Lines l3 ns l4 → CompoundStart l4 kw → Reads (.compound kw) b1 l4 c r b2 →
      Calls (.functionDeclaration x ns c) b2 a b3 → Reads .function b l a r b3
  | functionSubshell {b l l1 x l2 c r b1 a b2} : Kw FUNCTION l l1 → Skip l1 (.Name x :: l2) →
      Reads (.fnStart true) b l2 (some c) r b1 →
      Calls (.functionDeclaration x [] c) b1 a b2 → Reads .function b l a r b2
  -- Commands, pipelines and lists
  | commandCompound {b l l' kw c r b' a b''} : Skip l l' → CompoundStart l' kw →
      Reads (.compound kw) b l' c r b' → Calls (.compoundCommandIntoPipeable c) b' a b'' →
      Reads .command b l a r b''
  | commandFunction {b l l' a r b'} : Skip l l' → (∀ kw, ¬ CompoundStart l' kw) →
      FunctionStart l' → Reads .function b l' a r b' → Reads .command b l a r b'
  | commandSimple {b l l' a r b'} : Skip l l' → (∀ kw, ¬ CompoundStart l' kw) →
      ¬ FunctionStart l' → Reads .simple b l' a r b' → Reads .command b l a r b'
  | pipeLast {b l c r b'} : (∀ l', l ≠ .Bang :: l') → Reads .command b l c r b' →
      (∀ r', r ≠ .Pipe :: r') → Reads .pipelineCmds b l [([], c)] r b'
  | pipeCons {b l c l1 b' ns l2 cs r b''} : (∀ l', l ≠ .Bang :: l') →
      Reads .command b l c (.Pipe :: l1) b' → Lines l1 ns l2 →
      Reads .pipelineCmds b' l2 cs r b'' → Reads .pipelineCmds b l ((ns, c) :: cs) r b''
  | pipeline {b l l1 bang l2 cs r b' a b''} : Skip l l1 →
      (bang = true ∧ l1 = .Bang :: l2 ∨ bang = false ∧ l2 = l1 ∧ ∀ l', l1 ≠ .Bang :: l') →
      Reads .pipelineCmds b l2 cs r b' → Calls (.pipeline bang cs) b' a b'' →
      Reads .pipeline b l a r b''
  | andOrEnd {b l r} : Skip l r → (∀ r', r ≠ .AndIf :: r' ∧ r ≠ .OrIf :: r') →
      Reads .andOrRest b l [] r b
  | andOrAnd {b l l1 ns l2 c l3 b' cs r b''} : Skip l (.AndIf :: l1) → Lines l1 ns l2 →
      Reads .pipeline b l2 c l3 b' → Reads .andOrRest b' l3 cs r b'' →
      Reads .andOrRest b l ((ns, .And c) :: cs) r b''
  | andOrOr {b l l1 ns l2 c l3 b' cs r b''} : Skip l (.OrIf :: l1) → Lines l1 ns l2 →
      Reads .pipeline b l2 c l3 b' → Reads .andOrRest b' l3 cs r b'' →
      Reads .andOrRest b l ((ns, .Or c) :: cs) r b''
  | andOr {b l c l' b' cs r b'' a b3} : Reads .pipeline b l c l' b' →
      Reads .andOrRest b' l' cs r b'' → Calls (.andOrList c cs) b'' a b3 →
      Reads .andOr b l a r b3
  | complete {b pre l c l' b' s cm r a b''} : Reads .andOr b l c l' b' → SepAfter l' s cm r →
      Calls (.completeCommand pre c s cm) b' a b'' → Reads (.complete pre) b l a r b''
  | topCommand {b l ns l' a r b'} : Lines l ns l' → l' ≠ [] → Reads (.complete ns) b l' a r b' →
      Reads .top b l (some a) r b'
  | topNone {b l} : Lines l [] [] → Reads .top b l none [] b
  | topComments {b l ns b'} : Lines l ns [] → ns ≠ [] → Calls (.comments ns) b () b' →
      Reads .top b l none [] b'

end Conch.Gram
