import Verif.Api
/-!
# C59, specification: the texts a builder is given

A builder that collects, in source order, every string the parser gives it: words, names,
parameters, comments. What the parser keeps to itself is lost for every builder.
-/
namespace Conch.Spec.Given
open Conch

/-- The text of a parameter. -/
def paramText : DefaultParameter → Str
  | .Var x => x
  | .Positional _ => []
  | .At => ['@']
  | .Star => ['*']
  | .Pound => ['#']
  | .Question => ['?']
  | .Dash => ['-']
  | .Dollar => ['$']
  | .Bang => ['!']

mutual
/-- The variables of an arithmetic expression. -/
def arithText : DefaultArithmetic → Str
  | .Var x | .PostIncr x | .PostDecr x | .PreIncr x | .PreDecr x => x
  | .Literal _ => []
  | .UnaryPlus a | .UnaryMinus a | .LogicalNot a | .BitwiseNot a => arithText a
  | .Assign x a => x ++ arithText a
  | .Pow a b | .Mult a b | .Div a b | .Modulo a b | .Add a b | .Sub a b | .ShiftLeft a b
  | .ShiftRight a b | .Less a b | .LessEq a b | .Great a b | .GreatEq a b | .Eq a b | .NotEq a b
  | .BitwiseAnd a b | .BitwiseXor a b | .BitwiseOr a b | .LogicalAnd a b | .LogicalOr a b =>
    arithText a ++ arithText b
  | .Ternary a b c => arithText a ++ arithText b ++ arithText c
  | .Sequence as => arithsText as
def arithsText : List DefaultArithmetic → Str
  | [] => []
  | a :: as => arithText a ++ arithsText as
end

/-- A newline or a comment. -/
def nl (n : Nl) : Str := n.comment.getD []
/-- Several. -/
def nls (ns : List Nl) : Str := ns.flatMap nl
/-- One or none. -/
def optNl (n : Option Nl) : Str := n.toList.flatMap nl

/-- A group of commands, whose texts are known, and the comments after the last one. -/
def group (g : CommandGroup Str) : Str := g.commands.flatten ++ nls g.trailingComments

mutual
/-- A word that is given to the builder. -/
def wordText : ComplexWordKind Str → Str
  | .Concat ws => partsText ws
  | .Single w => partText w
def partsText : List (WordKind Str) → Str
  | [] => []
  | w :: ws => partText w ++ partsText ws
def partText : WordKind Str → Str
  | .Simple s => simpleText s
  | .DoubleQuoted ss => simplesText ss
  | .SingleQuoted s => s
def simplesText : List (SimpleWordKind Str) → Str
  | [] => []
  | s :: ss => simpleText s ++ simplesText ss
def simpleText : SimpleWordKind Str → Str
  | .Literal s | .Escaped s => s
  | .Param p => paramText p
  | .Subst s => substText s
  | .CommandSubst g => group g
  | .Star => ['*']
  | .Question => ['?']
  | .SquareOpen => ['[']
  | .SquareClose => [']']
  | .Tilde => ['~']
  | .Colon => [':']
def substText : ParameterSubstitutionKind (ComplexWordKind Str) Str → Str
  | .Command g => group g
  | .Len p => paramText p
  | .Arith none => []
  | .Arith (some a) => arithText a
  | .Default _ p w | .Assign _ p w | .Error _ p w | .Alternative _ p w | .RemoveSmallestSuffix p w
  | .RemoveLargestSuffix p w | .RemoveSmallestPrefix p w | .RemoveLargestPrefix p w =>
    paramText p ++ optWordText w
def optWordText : Option (ComplexWordKind Str) → Str
  | none => []
  | some w => wordText w
end

/-- A redirection. -/
def redirText : RedirectKind Str → Str
  | .Read _ w | .Write _ w | .ReadWrite _ w | .Append _ w | .Clobber _ w | .Heredoc _ w | .DupRead _ w
  | .DupWrite _ w => w
/-- An assignment or a redirection. -/
def assign : RedirectOrEnvVar Str Str Str → Str
  | .Redirect r => r
  | .EnvVar x w => x ++ w.getD []
/-- A word or a redirection. -/
def arg : RedirectOrCmdWord Str Str → Str
  | .Redirect r => r
  | .CmdWord w => w
/-- A command after `&&` or `||`. -/
def andOr : AndOr Str → Str
  | .And c | .Or c => c
/-- A guard and a body. -/
def pair (p : GuardBodyPairGroup Str) : Str := group p.guard ++ group p.body
/-- The parts of an `if`. -/
def ifText (f : IfFragments Str) : Str := f.conditionals.flatMap pair ++ f.elseBranch.toList.flatMap group
/-- The words of a `for`. -/
def forWords : Option (List Nl × List Str × Option Nl) → Str
  | none => []
  | some (ns, ws, c) => nls ns ++ ws.flatten ++ optNl c
/-- The parts of a `for`. -/
def forText (f : ForFragments Str Str) : Str :=
  f.var ++ optNl f.varComment ++ forWords f.words ++ nls f.preBodyComments ++ group f.body
/-- An arm of a `case`. -/
def arm (a : CaseArm Str Str) : Str :=
  nls a.patterns.prePatternComments ++ a.patterns.patternAlternatives.flatten ++ optNl a.patterns.patternComment ++
    group a.body ++ optNl a.armComment
/-- The parts of a `case`. -/
def caseText (f : CaseFragments Str Str) : Str :=
  f.word ++ nls f.postWordComments ++ optNl f.inComment ++ f.arms.flatMap arm ++ nls f.postArmsComments

/-- The builder that collects all texts; those of `comments` are appended to its state. -/
@[reducible] def texts : Builder where
  Command := Str
  CommandList := Str
  ListableCommand := Str
  PipeableCommand := Str
  CompoundCommand := Str
  Word := Str
  Redirect := Str
  Error := Empty
  State := Str
  call c s := match c with
    | .completeCommand pre list _ cm => (.ok (nls pre ++ list ++ optNl cm), s)
    | .andOrList first rest => (.ok (first ++ rest.flatMap fun x => nls x.1 ++ andOr x.2), s)
    | .pipeline _ cmds => (.ok (cmds.flatMap fun x => x.2 ++ nls x.1), s)
    | .simpleCommand vs as => (.ok (vs.flatMap assign ++ as.flatMap arg), s)
    | .braceGroup g rs => (.ok (group g ++ rs.flatten), s)
    | .subshell g rs => (.ok (group g ++ rs.flatten), s)
    | .loopCommand _ p rs => (.ok (pair p ++ rs.flatten), s)
    | .ifCommand f rs => (.ok (ifText f ++ rs.flatten), s)
    | .forCommand f rs => (.ok (forText f ++ rs.flatten), s)
    | .caseCommand f rs => (.ok (caseText f ++ rs.flatten), s)
    | .compoundCommandIntoPipeable c => (.ok c, s)
    | .functionDeclaration x ns c => (.ok (x ++ nls ns ++ c), s)
    | .comments ns => (.ok (), s ++ nls ns)
    | .word k => (.ok (wordText k), s)
    | .redirect k => (.ok (redirText k), s)

/-- The text a method returns with this builder, in source order. -/
def returned : (m : Method) → m.Ret texts.toBTypes → Str
  | .completeCommand, a => a.getD ([] : Str)
  | .andOrList, a | .pipeline, a | .command, a | .simpleCommand, a | .functionDeclaration, a
  | .redirectHeredoc _, a | .compoundCommand, a | .backtickedCommandSubstitution, a | .parameter, a => a
  | .redirectList, a => List.flatten (α := Char) a
  | .redirect, a => match a with
    | none => []
    | some (.inl r) => r
    | some (.inr w) => w
  | .word, a | .wordPreserveTrailingWhitespace, a | .maybeFunctionDeclaration, a => a.getD ([] : Str)
  | .doGroup, a | .braceGroup, a | .subshell, a | .commandGroup _, a => group a
  | .loopCommand, a => pair a.2
  | .ifCommand, a => ifText a
  | .forCommand, a => forText a
  | .caseCommand, a => caseText a
  | .linebreak, a => nls a
  | .newline, a => optNl a
  | .skipWhitespace, _ | .peekReservedToken _, _ | .peekReservedWord _, _ | .reservedToken _, _
  | .reservedWord _, _ | .arithmeticSubstitution, _ => []

/-! ## What must not be lost -/

/-- The reserved words. -/
def reserved : List Str :=
  ["case", "do", "done", "elif", "else", "esac", "fi", "for", "function", "if", "in", "then", "until",
   "while"].map String.toList

/-- Text with this first character may be a number, which the parser gives away by its value. -/
def numeric (s : Str) : Bool := s.head?.any fun c => "+-0123456789".toList.contains c

/-- The text of a token that must not be lost: that of a name or a literal that is neither a keyword nor a number. -/
def kept : Token → Str
  | .Name s | .Literal s => if reserved.contains s || numeric s then [] else s
  | _ => []

/-- The names and literals among the tokens. -/
def keep (l : List Token) : Str := l.flatMap kept

end Conch.Spec.Given
