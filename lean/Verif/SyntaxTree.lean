import Verif.DefaultBuilder
import Verif.LexSpec
import Verif.PropsParam
/-!
# Source trees: programs, their text and their syntax trees (C39)

`Syn s` are the programs and their parts, `Syn.text` writes them down, `Syn.ast` is the tree (of
`ast.rs`) they mean and `Syn.Ok` says which ones can be written in this way. Not written by `Syn.text`:
comments, backticks (`$( )` is used instead) and here-documents. All of these are among the layouts of
`Layout.lean`; whether a program may contain here-documents is the flag of `Syn.Ok`.
-/
namespace Conch.Spec
open Conch

/-- Kinds of parts of a program. -/
inductive Srt
  /-- an expansion (`${x}`, `$( )`, ...); the inside of double quotes; a word; several words -/
  | exp | dparts | parts | words
  /-- a redirection; several; what may stand before the command word; what may stand after it -/
  | redir | redirs | pres | args
  /-- a compound command; a command; commands joined by `|`; a pipeline; `&&`/`||` and what follows
  them; a whole command; a sequence of them -/
  | comp | cmd | pipe | listable | rest | command | commands
  /-- what follows `if`; the patterns of an arm; the arms of a `case` -/
  | ifs | pats | arms

/-- The operators of `${x op w}`. -/
inductive SubstOp
  | default (colon : Bool) | assign (colon : Bool) | error (colon : Bool) | alternative (colon : Bool)
  | suffix (largest : Bool) | pre (largest : Bool)

/-- Redirections to a file. -/
inductive FileOp | read | write | readWrite | append | clobber
/-- Duplications of descriptors. -/
inductive DupOp | read | write
/-- The characters with a meaning of their own in words. -/
inductive Glob | star | question | tilde | squareOpen | squareClose | colon

/-- Programs and their parts. -/
inductive Syn : Srt → Type
  /-- `${p}` -/
  | param (p : Parameter Str) : Syn .exp
  /-- `${#p}` -/
  | len (p : Parameter Str) : Syn .exp
  /-- `${p op w}` -/
  | subst (op : SubstOp) (p : Parameter Str) (w : Syn .parts) : Syn .exp
  /-- `$( cs )` -/
  | cmdSubst (cs : Syn .commands) : Syn .exp
  /-- `$((a))` -/
  | arith (a : DefaultArithmetic) : Syn .exp
  -- The inside of double quotes
  | dnil : Syn .dparts
  | dtext (s : Str) (r : Syn .dparts) : Syn .dparts
  | desc (c : Char) (r : Syn .dparts) : Syn .dparts
  | dexp (e : Syn .exp) (r : Syn .dparts) : Syn .dparts
  -- Words
  | nil : Syn .parts
  | lit (s : Str) (r : Syn .parts) : Syn .parts
  | esc (c : Char) (r : Syn .parts) : Syn .parts
  | glob (g : Glob) (r : Syn .parts) : Syn .parts
  | single (s : Str) (r : Syn .parts) : Syn .parts
  | double (d : Syn .dparts) (r : Syn .parts) : Syn .parts
  | exp (e : Syn .exp) (r : Syn .parts) : Syn .parts
  -- Several words
  | wnil : Syn .words
  | wcons (w : Syn .parts) (ws : Syn .words) : Syn .words
  -- Redirections
  | file (fd : Option Nat) (op : FileOp) (w : Syn .parts) : Syn .redir
  | dup (fd : Option Nat) (op : DupOp) (n : Nat) : Syn .redir
  | close (fd : Option Nat) (op : DupOp) : Syn .redir
  /-- a here-document with a quoted delimiter, and with one that is not quoted -/
  | hereQuoted (fd : Option Nat) (body : Str) : Syn .redir
  | here (fd : Option Nat) (body : Syn .dparts) : Syn .redir
  | rnil : Syn .redirs
  | rcons (r : Syn .redir) (rs : Syn .redirs) : Syn .redirs
  -- Before the command word (`x=` if the word is empty)
  | pnil : Syn .pres
  | passign (x : Str) (w : Syn .parts) (r : Syn .pres) : Syn .pres
  | predir (a : Syn .redir) (r : Syn .pres) : Syn .pres
  -- The command word and what follows it
  | anil : Syn .args
  | aword (w : Syn .parts) (r : Syn .args) : Syn .args
  | aredir (a : Syn .redir) (r : Syn .args) : Syn .args
  -- Compound commands, with redirections
  | brace (cs : Syn .commands) (io : Syn .redirs) : Syn .comp
  | subshell (cs : Syn .commands) (io : Syn .redirs) : Syn .comp
  | loop (k : LoopKind) (guard body : Syn .commands) (io : Syn .redirs) : Syn .comp
  | if_ (f : Syn .ifs) (io : Syn .redirs) : Syn .comp
  | forIn (x : Str) (ws : Syn .words) (body : Syn .commands) (io : Syn .redirs) : Syn .comp
  | forArgs (x : Str) (body : Syn .commands) (io : Syn .redirs) : Syn .comp
  | case_ (w : Syn .parts) (as : Syn .arms) (io : Syn .redirs) : Syn .comp
  -- After `if` (and after `elif`)
  | fi (guard body : Syn .commands) : Syn .ifs
  | else_ (guard body els : Syn .commands) : Syn .ifs
  | elif (guard body : Syn .commands) (f : Syn .ifs) : Syn .ifs
  -- The arms of a `case`: the patterns and the commands
  | patLast (w : Syn .parts) : Syn .pats
  | patCons (w : Syn .parts) (ps : Syn .pats) : Syn .pats
  | armsNil : Syn .arms
  | armsCons (ps : Syn .pats) (cs : Syn .commands) (r : Syn .arms) : Syn .arms
  -- Commands
  | simple (pre : Syn .pres) (args : Syn .args) : Syn .cmd
  | compound (c : Syn .comp) : Syn .cmd
  | function (x : Str) (c : Syn .comp) : Syn .cmd
  -- Pipelines
  | last (c : Syn .cmd) : Syn .pipe
  | into (c : Syn .cmd) (r : Syn .pipe) : Syn .pipe
  | pipeline (bang : Bool) (p : Syn .pipe) : Syn .listable
  -- And-or lists
  | restNil : Syn .rest
  | and (l : Syn .listable) (r : Syn .rest) : Syn .rest
  | or (l : Syn .listable) (r : Syn .rest) : Syn .rest
  -- Whole commands: in the background or not
  | command (job : Bool) (l : Syn .listable) (r : Syn .rest) : Syn .command
  | cnil : Syn .commands
  | ccons (c : Syn .command) (cs : Syn .commands) : Syn .commands

/-! ## Text -/

/-- A parameter between braces. -/
def paramText : Parameter Str → Str
  | .At => ['@']
  | .Star => ['*']
  | .Pound => ['#']
  | .Question => ['?']
  | .Dash => ['-']
  | .Dollar => ['$']
  | .Bang => ['!']
  | .Var v => v
  | .Positional n => natDigits n

def colonText (colon : Bool) : Str := if colon then [':'] else []

def SubstOp.text : SubstOp → Str
  | .default c => colonText c ++ ['-']
  | .assign c => colonText c ++ ['=']
  | .error c => colonText c ++ ['?']
  | .alternative c => colonText c ++ ['+']
  | .suffix l => if l then ['%', '%'] else ['%']
  | .pre l => if l then ['#', '#'] else ['#']

def FileOp.text : FileOp → Str
  | .read => ['<']
  | .write => ['>']
  | .readWrite => ['<', '>']
  | .append => ['>', '>']
  | .clobber => ['>', '|']

def DupOp.text : DupOp → Str
  | .read => ['<', '&']
  | .write => ['>', '&']

def Glob.text : Glob → Char
  | .star => '*'
  | .question => '?'
  | .tilde => '~'
  | .squareOpen => '['
  | .squareClose => ']'
  | .colon => ':'

def fdOptText (fd : Option Nat) : Str := fd.elim [] natDigits

def loopText : LoopKind → Str
  | .While => "while ".toList
  | .Until => "until ".toList

/-- `( a op b )` -/
def binText (op a b : Str) : Str :=
  "( ".toList ++ a ++ [' '] ++ op ++ [' '] ++ b ++ " )".toList

mutual
/-- An arithmetic expression, in parentheses unless it is a name or a number. -/
def arithText : DefaultArithmetic → Str
  | .Var x => x
  | .Literal n => natDigits n.toNat
  | .Pow a b => binText "**".toList (arithText a) (arithText b)
  | .PostIncr x => "( ".toList ++ x ++ " ++ )".toList
  | .PostDecr x => "( ".toList ++ x ++ " -- )".toList
  | .PreIncr x => "( ++ ".toList ++ x ++ " )".toList
  | .PreDecr x => "( -- ".toList ++ x ++ " )".toList
  | .UnaryPlus a => "( + ".toList ++ arithText a ++ " )".toList
  | .UnaryMinus a => "( - ".toList ++ arithText a ++ " )".toList
  | .LogicalNot a => "( ! ".toList ++ arithText a ++ " )".toList
  | .BitwiseNot a => "( ~ ".toList ++ arithText a ++ " )".toList
  | .Mult a b => binText "*".toList (arithText a) (arithText b)
  | .Div a b => binText "/".toList (arithText a) (arithText b)
  | .Modulo a b => binText "%".toList (arithText a) (arithText b)
  | .Add a b => binText "+".toList (arithText a) (arithText b)
  | .Sub a b => binText "-".toList (arithText a) (arithText b)
  | .ShiftLeft a b => binText "<<".toList (arithText a) (arithText b)
  | .ShiftRight a b => binText ">>".toList (arithText a) (arithText b)
  | .Less a b => binText "<".toList (arithText a) (arithText b)
  | .LessEq a b => binText "<=".toList (arithText a) (arithText b)
  | .Great a b => binText ">".toList (arithText a) (arithText b)
  | .GreatEq a b => binText ">=".toList (arithText a) (arithText b)
  | .Eq a b => binText "==".toList (arithText a) (arithText b)
  | .NotEq a b => binText "!=".toList (arithText a) (arithText b)
  | .BitwiseAnd a b => binText "&".toList (arithText a) (arithText b)
  | .BitwiseXor a b => binText "^".toList (arithText a) (arithText b)
  | .BitwiseOr a b => binText "|".toList (arithText a) (arithText b)
  | .LogicalAnd a b => binText "&&".toList (arithText a) (arithText b)
  | .LogicalOr a b => binText "||".toList (arithText a) (arithText b)
  | .Ternary a b c =>
    "( ".toList ++ arithText a ++ " ? ".toList ++ arithText b ++ " : ".toList ++ arithText c ++ " )".toList
  | .Assign x a => "( ".toList ++ x ++ " = ".toList ++ arithText a ++ " )".toList
  | .Sequence as => "( ".toList ++ arithTexts as ++ " )".toList
/-- `a , b , ...` -/
def arithTexts : List DefaultArithmetic → Str
  | [] => []
  | [a] => arithText a
  | a :: as => arithText a ++ " , ".toList ++ arithTexts as
end

/-- The text of a program. Every word is followed by a blank and every command by a newline. (There is
no text for here-documents alone: the rest of their line comes before their body. See `Writes` in
`Layout.lean`.) -/
def Syn.text : {s : Srt} → Syn s → Str
  | _, .param p => "${".toList ++ paramText p ++ ['}']
  | _, .len p => "${#".toList ++ paramText p ++ ['}']
  | _, .subst op p w => "${".toList ++ paramText p ++ op.text ++ w.text ++ ['}']
  | _, .cmdSubst cs => "$( ".toList ++ cs.text ++ [')']
  | _, .arith a => "$(( ".toList ++ arithText a ++ " ))".toList
  | _, .dnil => []
  | _, .dtext s r => s ++ r.text
  | _, .desc c r => '\\' :: c :: r.text
  | _, .dexp e r => e.text ++ r.text
  | _, .nil => []
  | _, .lit s r => s ++ r.text
  | _, .esc c r => '\\' :: c :: r.text
  | _, .glob g r => g.text :: r.text
  | _, .single s r => '\'' :: s ++ '\'' :: r.text
  | _, .double d r => '"' :: d.text ++ '"' :: r.text
  | _, .exp e r => e.text ++ r.text
  | _, .wnil => []
  | _, .wcons w ws => w.text ++ ' ' :: ws.text
  | _, .file fd op w => fdOptText fd ++ op.text ++ ' ' :: w.text ++ [' ']
  | _, .dup fd op n => fdOptText fd ++ op.text ++ ' ' :: natDigits n ++ [' ']
  | _, .close fd op => fdOptText fd ++ op.text ++ " - ".toList
  | _, .hereQuoted _ _ => []
  | _, .here _ _ => []
  | _, .rnil => []
  | _, .rcons r rs => r.text ++ rs.text
  | _, .pnil => []
  | _, .passign x w r => x ++ '=' :: w.text ++ ' ' :: r.text
  | _, .predir a r => a.text ++ r.text
  | _, .anil => []
  | _, .aword w r => w.text ++ ' ' :: r.text
  | _, .aredir a r => a.text ++ r.text
  | _, .brace cs io => "{ ".toList ++ cs.text ++ "} ".toList ++ io.text
  | _, .subshell cs io => "( ".toList ++ cs.text ++ ") ".toList ++ io.text
  | _, .loop k g b io => loopText k ++ g.text ++ "do ".toList ++ b.text ++ "done ".toList ++ io.text
  | _, .if_ f io => "if ".toList ++ f.text ++ "fi ".toList ++ io.text
  | _, .forIn x ws b io =>
    "for ".toList ++ x ++ " in ".toList ++ ws.text ++ "\ndo ".toList ++ b.text ++ "done ".toList ++ io.text
  | _, .forArgs x b io => "for ".toList ++ x ++ "\ndo ".toList ++ b.text ++ "done ".toList ++ io.text
  | _, .case_ w as io => "case ".toList ++ w.text ++ " in\n".toList ++ as.text ++ "esac ".toList ++ io.text
  | _, .fi g b => g.text ++ "then ".toList ++ b.text
  | _, .else_ g b e => g.text ++ "then ".toList ++ b.text ++ "else ".toList ++ e.text
  | _, .elif g b f => g.text ++ "then ".toList ++ b.text ++ "elif ".toList ++ f.text
  | _, .armsNil => []
  | _, .patLast w => w.text ++ [' ']
  | _, .patCons w ps => w.text ++ " | ".toList ++ ps.text
  | _, .armsCons ps cs r => "( ".toList ++ ps.text ++ ") ".toList ++ cs.text ++ ";;\n".toList ++ r.text
  | _, .simple pre args => pre.text ++ args.text
  | _, .compound c => c.text
  | _, .function x c => x ++ "() ".toList ++ c.text
  | _, .last c => c.text
  | _, .into c r => c.text ++ "| ".toList ++ r.text
  | _, .pipeline bang p => (if bang then "! ".toList else []) ++ p.text
  | _, .restNil => []
  | _, .and l r => "&& ".toList ++ l.text ++ r.text
  | _, .or l r => "|| ".toList ++ l.text ++ r.text
  | _, .command job l r => l.text ++ r.text ++ (if job then "&\n".toList else "\n".toList)
  | _, .cnil => []
  | _, .ccons c cs => c.text ++ cs.text

/-! ## Trees -/

abbrev SWord := TopLevelWord Str
abbrev SCommand := TopLevelCommand Str
abbrev SSimple := SimpleWord Str (Parameter Str)
  (ParameterSubstitution (Parameter Str) SWord SCommand (Arithmetic Str))
abbrev SCompound := ShellCompoundCommand Str SWord SCommand
abbrev SPipeable := PipeableCommand Str (SimpleCommand Str SWord (Redirect SWord)) SCompound SCompound

/-- The types of trees. -/
@[reducible] def Srt.Ast : Srt → Type
  | .exp => SSimple
  | .dparts => List SSimple
  | .parts => List (Word Str SSimple)
  | .words | .pats => List SWord
  | .redir => Redirect SWord
  | .redirs => List (Redirect SWord)
  | .pres => List (RedirectOrEnvVar (Redirect SWord) Str SWord)
  | .args => List (RedirectOrCmdWord (Redirect SWord) SWord)
  | .comp => SCompound
  | .cmd => SPipeable
  | .pipe => List SPipeable
  | .listable => ListableCommand SPipeable
  | .rest => List (AndOr (ListableCommand SPipeable))
  | .command => SCommand
  | .commands => List SCommand
  | .ifs => List (GuardBodyPair SCommand) × Option (List SCommand)
  | .arms => List (PatternBodyPair SWord SCommand)

/-- A word of one or several parts. -/
def wordAst : List (Word Str SSimple) → SWord
  | [w] => .mk (.Single w)
  | ws => .mk (.Concat ws)

/-- A word, or none if it is empty. -/
def optAst : List (Word Str SSimple) → Option SWord
  | [] => none
  | ws => some (wordAst ws)

def litAst (s : Str) : SWord := .mk (.Single (.Simple (.Literal s)))

/-- The body of a here-document. -/
def hereAst : List SSimple → SWord
  | [] => litAst []
  | ws => wordAst (ws.map .Simple)

def SubstOp.ast (p : Parameter Str) (w : Option SWord) : SubstOp →
    ParameterSubstitution (Parameter Str) SWord SCommand (Arithmetic Str)
  | .default c => .Default c p w
  | .assign c => .Assign c p w
  | .error c => .Error c p w
  | .alternative c => .Alternative c p w
  | .suffix l => if l then .RemoveLargestSuffix p w else .RemoveSmallestSuffix p w
  | .pre l => if l then .RemoveLargestPrefix p w else .RemoveSmallestPrefix p w

def Glob.ast : Glob → SSimple
  | .star => .Star
  | .question => .Question
  | .tilde => .Tilde
  | .squareOpen => .SquareOpen
  | .squareClose => .SquareClose
  | .colon => .Colon

def FileOp.ast (fd : Option Nat) (w : SWord) : FileOp → Redirect SWord
  | .read => .Read fd w
  | .write => .Write fd w
  | .readWrite => .ReadWrite fd w
  | .append => .Append fd w
  | .clobber => .Clobber fd w

def DupOp.ast (fd : Option Nat) (w : SWord) : DupOp → Redirect SWord
  | .read => .DupRead fd w
  | .write => .DupWrite fd w

/-- The tree of a pipeline: a single command without `!` stands for itself. -/
def pipeAst (bang : Bool) : List SPipeable → ListableCommand SPipeable
  | [c] => if bang then .Pipe true [c] else .Single c
  | cs => .Pipe bang cs

/-- The tree a program means. -/
def Syn.ast : {s : Srt} → Syn s → s.Ast
  | _, .param p => .Param p
  | _, .len p => .Subst (.Len p)
  | _, .subst op p w => .Subst (op.ast p (optAst w.ast))
  | _, .cmdSubst cs => .Subst (.Command cs.ast)
  | _, .arith a => .Subst (.Arith (some a))
  | _, .dnil => []
  | _, .dtext s r => .Literal s :: r.ast
  | _, .desc c r => .Escaped [c] :: r.ast
  | _, .dexp e r => e.ast :: r.ast
  | _, .nil => []
  | _, .lit s r => .Simple (.Literal s) :: r.ast
  | _, .esc c r => .Simple (.Escaped [c]) :: r.ast
  | _, .glob g r => .Simple g.ast :: r.ast
  | _, .single s r => .SingleQuoted s :: r.ast
  | _, .double d r => .DoubleQuoted d.ast :: r.ast
  | _, .exp e r => .Simple e.ast :: r.ast
  | _, .wnil => []
  | _, .wcons w ws => wordAst w.ast :: ws.ast
  | _, .file fd op w => op.ast fd (wordAst w.ast)
  | _, .dup fd op n => op.ast fd (litAst (natDigits n))
  | _, .close fd op => op.ast fd (litAst ['-'])
  | _, .hereQuoted fd body => .Heredoc fd (litAst body)
  | _, .here fd body => .Heredoc fd (hereAst body.ast)
  | _, .rnil => []
  | _, .rcons r rs => r.ast :: rs.ast
  | _, .pnil => []
  | _, .passign x w r => .EnvVar x (optAst w.ast) :: r.ast
  | _, .predir a r => .Redirect a.ast :: r.ast
  | _, .anil => []
  | _, .aword w r => .CmdWord (wordAst w.ast) :: r.ast
  | _, .aredir a r => .Redirect a.ast :: r.ast
  | _, .brace cs io => ⟨.Brace cs.ast, io.ast⟩
  | _, .subshell cs io => ⟨.Subshell cs.ast, io.ast⟩
  | _, .loop .While g b io => ⟨.While ⟨g.ast, b.ast⟩, io.ast⟩
  | _, .loop .Until g b io => ⟨.Until ⟨g.ast, b.ast⟩, io.ast⟩
  | _, .if_ f io => ⟨.If f.ast.1 f.ast.2, io.ast⟩
  | _, .forIn x ws b io => ⟨.For x (some ws.ast) b.ast, io.ast⟩
  | _, .forArgs x b io => ⟨.For x none b.ast, io.ast⟩
  | _, .case_ w as io => ⟨.Case (wordAst w.ast) as.ast, io.ast⟩
  | _, .fi g b => ([⟨g.ast, b.ast⟩], none)
  | _, .else_ g b e => ([⟨g.ast, b.ast⟩], some e.ast)
  | _, .elif g b f => (⟨g.ast, b.ast⟩ :: f.ast.1, f.ast.2)
  | _, .patLast w => [wordAst w.ast]
  | _, .patCons w ps => wordAst w.ast :: ps.ast
  | _, .armsNil => []
  | _, .armsCons ps cs r => ⟨ps.ast, cs.ast⟩ :: r.ast
  | _, .simple pre args => .Simple ⟨pre.ast, args.ast⟩
  | _, .compound c => .Compound c.ast
  | _, .function x c => .FunctionDef x c.ast
  | _, .last c => [c.ast]
  | _, .into c r => c.ast :: r.ast
  | _, .pipeline bang p => pipeAst bang p.ast
  | _, .restNil => []
  | _, .and l r => .And l.ast :: r.ast
  | _, .or l r => .Or l.ast :: r.ast
  | _, .command job l r => .mk (if job then .Job ⟨l.ast, r.ast⟩ else .List ⟨l.ast, r.ast⟩)
  | _, .cnil => []
  | _, .ccons c cs => c.ast :: cs.ast

/-! ## Which programs can be written in this way -/

/-- Literal text: letters, digits and other characters without a meaning in words. -/
def LitText (cc : CharClass) (s : Str) : Prop :=
  s ≠ [] ∧ ∀ c ∈ s, Plain cc c ∨ c ∈ "!#%-=+@^/,".toList

/-- Text in double quotes or here-documents: not empty, without what is special there. -/
def DqPlain (s : Str) : Prop := s ≠ [] ∧ ∀ c ∈ s, c ∉ "$`\\".toList

/-- Words with a meaning at the start of a command. -/
def reservedWords : List Str :=
  [CASE, DO, DONE, ELIF, ELSE, ESAC, FI, FOR, FUNCTION, IF, THEN, UNTIL, WHILE]

/-- The arithmetic expressions: variables are names, numbers are not negative and less than 2^63,
sequences have at least two items. -/
inductive ArithOk (cc : CharClass) : DefaultArithmetic → Prop
  | var {x} : Shape cc (.Name x) → ArithOk cc (.Var x)
  | literal {n} : 0 ≤ n → n < 2 ^ 63 → ArithOk cc (.Literal n)
  | incr {mk : Str → DefaultArithmetic} {x} : mk ∈ [.PostIncr, .PostDecr, .PreIncr, .PreDecr] →
      Shape cc (.Name x) → ArithOk cc (mk x)
  | un {mk : DefaultArithmetic → DefaultArithmetic} {a} :
      mk ∈ [.UnaryPlus, .UnaryMinus, .LogicalNot, .BitwiseNot] → ArithOk cc a → ArithOk cc (mk a)
  | bin {mk : BinMk} {a b} :
      mk ∈ [.Pow, .Mult, .Div, .Modulo, .Add, .Sub, .ShiftLeft, .ShiftRight, .Less, .LessEq, .Great,
        .GreatEq, .Eq, .NotEq, .BitwiseAnd, .BitwiseXor, .BitwiseOr, .LogicalAnd, .LogicalOr] →
      ArithOk cc a → ArithOk cc b → ArithOk cc (mk a b)
  | ternary {a b c} : ArithOk cc a → ArithOk cc b → ArithOk cc c → ArithOk cc (.Ternary a b c)
  | assign {x a} : Shape cc (.Name x) → ArithOk cc a → ArithOk cc (.Assign x a)
  | seq {as} : 2 ≤ as.length → (∀ a ∈ as, ArithOk cc a) → ArithOk cc (.Sequence as)

/-- Kinds of parts of words that join with neighbours of the same kind. -/
inductive Joint | lit | single | double
  deriving DecidableEq

/-- The kind of the first part. -/
def Syn.joint : Syn .parts → Option Joint
  | .lit _ _ => some .lit
  | .single _ _ => some .single
  | .double _ _ => some .double
  | _ => none

/-- The inside of double quotes starts with text. -/
def Syn.startsText : Syn .dparts → Bool
  | .dtext _ _ => true
  | _ => false

/-- There is no `"` in the text of it. -/
def Syn.noQuote : Syn .dparts → Bool
  | .dtext s r => !s.contains '"' && r.noQuote
  | .desc _ r | .dexp _ r => r.noQuote
  | .dnil => true

def Syn.isNil : Syn .parts → Bool
  | .nil => true
  | _ => false

def Syn.noCommands : Syn .commands → Bool
  | .cnil => true
  | _ => false

/-- The character a literal at the start of the word starts with. -/
def Syn.firstChar : Syn .parts → Option Char
  | .lit s _ => s.head?
  | _ => none

/-- A word: not empty and not starting with `#`. -/
def Syn.IsWord (w : Syn .parts) : Prop := w.isNil = false ∧ w.firstChar ≠ some '#'

/-- A word that may be the command word: it neither looks like a reserved word nor like an
assignment, and does not start with `!`. -/
def Syn.IsCommandWord : Syn .parts → Prop
  | .lit s r => '=' ∉ s ∧ s.head? ≠ some '!' ∧ (r.isNil = true → s ∉ reservedWords)
  | _ => True

/-- What follows the assignments starts with the command word. -/
def Syn.StartsWord : Syn .args → Prop
  | .anil => True
  | .aword w _ => w.IsCommandWord
  | .aredir _ _ => False

/-- Something is there. -/
def Syn.NonEmpty : Syn .pres → Syn .args → Prop
  | .pnil, .anil => False
  | _, _ => True

/-- Substitutions that mean something else without a word (`${#-}`, `${#?}`, `${##}`), or with a
word that lengthens the operator. -/
def SubstOp.Fits (p : Parameter Str) (w : Syn .parts) : SubstOp → Prop
  | .default false | .error false => p = .Pound → w.isNil = false
  | .pre false => p = .Pound → w.isNil = false
  | .suffix false => w.firstChar ≠ some '%'
  | _ => True

/-- Programs that can be written down. The flag `h` says whether here-documents are allowed. -/
def Syn.Ok (cc : CharClass) (h : Bool) : {s : Srt} → Syn s → Prop
  | _, .param p => ValidParam cc p
  | _, .len p => ValidParam cc p
  | _, .subst op p w => ValidParam cc p ∧ w.Ok cc h ∧ w.firstChar ≠ some '#' ∧ op.Fits p w
  | _, .cmdSubst cs => cs.Ok cc h
  | _, .arith a => ArithOk cc a
  | _, .dnil => True
  | _, .dtext s r => DqPlain s ∧ r.startsText = false ∧ r.Ok cc h
  | _, .desc c r => c ∈ "$`\"\\\n".toList ∧ r.Ok cc h
  | _, .dexp e r => e.Ok cc h ∧ r.Ok cc h
  | _, .nil => True
  | _, .lit s r => LitText cc s ∧ r.joint ≠ some .lit ∧ r.Ok cc h
  | _, .esc c r => c ≠ '\n' ∧ r.Ok cc h
  | _, .glob _ r => r.Ok cc h
  | _, .single s r => '\'' ∉ s ∧ r.joint ≠ some .single ∧ r.Ok cc h
  | _, .double d r => d.noQuote = true ∧ d.Ok cc h ∧ r.joint ≠ some .double ∧ r.Ok cc h
  | _, .exp e r => e.Ok cc h ∧ r.Ok cc h
  | _, .wnil => True
  | _, .wcons w ws => w.IsWord ∧ w.Ok cc h ∧ ws.Ok cc h
  | _, .file fd _ w => (∀ n, fd = some n → n ≤ 65535) ∧ w.IsWord ∧ w.Ok cc h
  | _, .dup fd _ _ => ∀ n, fd = some n → n ≤ 65535
  | _, .close fd _ => ∀ n, fd = some n → n ≤ 65535
  | _, .hereQuoted fd _ => h = true ∧ ∀ n, fd = some n → n ≤ 65535
  | _, .here fd body => h = true ∧ (∀ n, fd = some n → n ≤ 65535) ∧ body.Ok cc h
  | _, .rnil => True
  | _, .rcons r rs => r.Ok cc h ∧ rs.Ok cc h
  | _, .pnil => True
  | _, .passign x w r => Shape cc (.Name x) ∧ w.firstChar ≠ some '#' ∧ w.Ok cc h ∧ r.Ok cc h
  | _, .predir a r => a.Ok cc h ∧ r.Ok cc h
  | _, .anil => True
  | _, .aword w r => w.IsWord ∧ w.Ok cc h ∧ r.Ok cc h
  | _, .aredir a r => a.Ok cc h ∧ r.Ok cc h
  | _, .brace cs io => cs.noCommands = false ∧ cs.Ok cc h ∧ io.Ok cc h
  | _, .subshell cs io => cs.noCommands = false ∧ cs.Ok cc h ∧ io.Ok cc h
  | _, .loop _ g b io => g.noCommands = false ∧ b.noCommands = false ∧ g.Ok cc h ∧ b.Ok cc h ∧ io.Ok cc h
  | _, .if_ f io => f.Ok cc h ∧ io.Ok cc h
  | _, .forIn x ws b io => Shape cc (.Name x) ∧ b.noCommands = false ∧ ws.Ok cc h ∧ b.Ok cc h ∧ io.Ok cc h
  | _, .forArgs x b io => Shape cc (.Name x) ∧ b.noCommands = false ∧ b.Ok cc h ∧ io.Ok cc h
  | _, .case_ w as io => w.IsWord ∧ w.Ok cc h ∧ as.Ok cc h ∧ io.Ok cc h
  | _, .fi g b => g.noCommands = false ∧ b.noCommands = false ∧ g.Ok cc h ∧ b.Ok cc h
  | _, .else_ g b e => g.noCommands = false ∧ b.noCommands = false ∧ e.noCommands = false ∧
      g.Ok cc h ∧ b.Ok cc h ∧ e.Ok cc h
  | _, .elif g b f => g.noCommands = false ∧ b.noCommands = false ∧ g.Ok cc h ∧ b.Ok cc h ∧ f.Ok cc h
  | _, .patLast w => w.IsWord ∧ w.Ok cc h
  | _, .patCons w ps => w.IsWord ∧ w.Ok cc h ∧ ps.Ok cc h
  | _, .armsNil => True
  | _, .armsCons ps cs r => ps.Ok cc h ∧ cs.Ok cc h ∧ r.Ok cc h
  | _, .simple pre args => NonEmpty pre args ∧ args.StartsWord ∧ pre.Ok cc h ∧ args.Ok cc h
  | _, .compound c => c.Ok cc h
  | _, .function x c => Shape cc (.Name x) ∧ x ∉ reservedWords ∧ c.Ok cc h
  | _, .last c => c.Ok cc h
  | _, .into c r => c.Ok cc h ∧ r.Ok cc h
  | _, .pipeline _ p => p.Ok cc h
  | _, .restNil => True
  | _, .and l r => l.Ok cc h ∧ r.Ok cc h
  | _, .or l r => l.Ok cc h ∧ r.Ok cc h
  | _, .command _ l r => l.Ok cc h ∧ r.Ok cc h
  | _, .cnil => True
  | _, .ccons c cs => c.Ok cc h ∧ cs.Ok cc h

/-- The Latin letters are alphabetic. -/
def Latin (cc : CharClass) : Prop :=
  ∀ c ∈ "abcdefghijklmnopqrstuvwxyz".toList, cc.alphabetic c = true
end Conch.Spec
