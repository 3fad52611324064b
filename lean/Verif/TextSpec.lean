import Verif.DefaultBuilder
/-!
# The text of a syntax tree (C54)

All strings of a syntax tree, in the order in which the tree holds them: literals, escaped
characters, single-quoted text, the names of parameters, functions and loop variables, and the
characters `*`, `?`, `[`, `]`, `~`, `:` and `@`, `#`, ... that the tree holds as tags. What is not
counted: numbers (positional parameters, file descriptors, arithmetic literals), and the variable
on the left of an arithmetic assignment (`x += 1` is stored as `x = x + 1`).
-/
namespace Conch.Spec.Txt
open Conch

/-- The text of a parameter. -/
def paramText : Parameter Str → Str
  | .At => ['@']
  | .Star => ['*']
  | .Pound => ['#']
  | .Question => ['?']
  | .Dash => ['-']
  | .Dollar => ['$']
  | .Bang => ['!']
  | .Positional _ => []
  | .Var x => x

mutual
/-- The variables of an arithmetic expression, except those on the left of an assignment. -/
def arithText : Arithmetic Str → Str
  | .Var x | .PostIncr x | .PostDecr x | .PreIncr x | .PreDecr x => x
  | .Literal _ => []
  | .UnaryPlus a | .UnaryMinus a | .LogicalNot a | .BitwiseNot a | .Assign _ a => arithText a
  | .Pow a b | .Mult a b | .Div a b | .Modulo a b | .Add a b | .Sub a b | .ShiftLeft a b
  | .ShiftRight a b | .Less a b | .LessEq a b | .Great a b | .GreatEq a b | .Eq a b | .NotEq a b
  | .BitwiseAnd a b | .BitwiseXor a b | .BitwiseOr a b | .LogicalAnd a b | .LogicalOr a b =>
    arithText a ++ arithText b
  | .Ternary a b c => arithText a ++ arithText b ++ arithText c
  | .Sequence as => arithsText as
/-- The same for the items of a sequence. -/
def arithsText : List (Arithmetic Str) → Str
  | [] => []
  | a :: as => arithText a ++ arithsText as
end

/-- The text of an optional arithmetic expression. -/
def optArithText : Option (Arithmetic Str) → Str
  | none => []
  | some a => arithText a

mutual
/-- The text of a word. -/
def wordText : TopLevelWord Str → Str
  | .mk w => complexText w
def complexText : ShellWord Str (TopLevelWord Str) (TopLevelCommand Str) → Str
  | .Concat ws => partsText ws
  | .Single w => partText w
def partsText : List (Word Str (SimpleWord Str (Parameter Str)
      (ParameterSubstitution (Parameter Str) (TopLevelWord Str) (TopLevelCommand Str)
        (Arithmetic Str)))) → Str
  | [] => []
  | w :: ws => partText w ++ partsText ws
def partText : Word Str (SimpleWord Str (Parameter Str)
      (ParameterSubstitution (Parameter Str) (TopLevelWord Str) (TopLevelCommand Str)
        (Arithmetic Str))) → Str
  | .Simple s => simpleText s
  | .DoubleQuoted ss => simplesText ss
  | .SingleQuoted s => s
def simplesText : List (SimpleWord Str (Parameter Str)
      (ParameterSubstitution (Parameter Str) (TopLevelWord Str) (TopLevelCommand Str)
        (Arithmetic Str))) → Str
  | [] => []
  | w :: ws => simpleText w ++ simplesText ws
def simpleText : SimpleWord Str (Parameter Str)
      (ParameterSubstitution (Parameter Str) (TopLevelWord Str) (TopLevelCommand Str)
        (Arithmetic Str)) → Str
  | .Literal x => x
  | .Escaped x => x
  | .Param x => paramText x
  | .Subst x => substText x
  | .Star => ['*']
  | .Question => ['?']
  | .SquareOpen => ['[']
  | .SquareClose => [']']
  | .Tilde => ['~']
  | .Colon => [':']
def substText :
    ParameterSubstitution (Parameter Str) (TopLevelWord Str) (TopLevelCommand Str)
      (Arithmetic Str) → Str
  | .Command cs => commandsText cs
  | .Len x => paramText x
  | .Arith x => optArithText x
  | .Default _ x y | .Assign _ x y | .Error _ x y | .Alternative _ x y
  | .RemoveSmallestSuffix x y | .RemoveLargestSuffix x y
  | .RemoveSmallestPrefix x y | .RemoveLargestPrefix x y => paramText x ++ optWordText y
def optWordText : Option (TopLevelWord Str) → Str
  | none => []
  | some w => wordText w
/-- The text of several words. -/
def wordsText : List (TopLevelWord Str) → Str
  | [] => []
  | w :: ws => wordText w ++ wordsText ws
def optWordsText : Option (List (TopLevelWord Str)) → Str
  | none => []
  | some w => wordsText w
/-- The text of several commands. -/
def commandsText : List (TopLevelCommand Str) → Str
  | [] => []
  | c :: cs => commandText c ++ commandsText cs
def optCommandsText : Option (List (TopLevelCommand Str)) → Str
  | none => []
  | some cs => commandsText cs
/-- The text of a command. -/
def commandText : TopLevelCommand Str → Str
  | .mk c => listText c
def listText :
    Command (AndOrList (ListableCommand (BuilderPipeableCommand Str (TopLevelWord Str)
      (TopLevelCommand Str)
      (ShellCompoundCommand Str (TopLevelWord Str) (TopLevelCommand Str))))) → Str
  | .Job l => andOrText l
  | .List l => andOrText l
def andOrText :
    AndOrList (ListableCommand (BuilderPipeableCommand Str (TopLevelWord Str) (TopLevelCommand Str)
      (ShellCompoundCommand Str (TopLevelWord Str) (TopLevelCommand Str)))) → Str
  | ⟨x, r⟩ => listableText x ++ restText r
def restText :
    List (AndOr (ListableCommand (BuilderPipeableCommand Str (TopLevelWord Str)
      (TopLevelCommand Str)
      (ShellCompoundCommand Str (TopLevelWord Str) (TopLevelCommand Str))))) → Str
  | [] => []
  | x :: xs => linkText x ++ restText xs
def linkText :
    AndOr (ListableCommand (BuilderPipeableCommand Str (TopLevelWord Str) (TopLevelCommand Str)
      (ShellCompoundCommand Str (TopLevelWord Str) (TopLevelCommand Str)))) → Str
  | .And x => listableText x
  | .Or x => listableText x
def listableText :
    ListableCommand (BuilderPipeableCommand Str (TopLevelWord Str) (TopLevelCommand Str)
      (ShellCompoundCommand Str (TopLevelWord Str) (TopLevelCommand Str))) → Str
  | .Pipe _ cs => pipeablesText cs
  | .Single c => pipeableText c
def pipeablesText :
    List (BuilderPipeableCommand Str (TopLevelWord Str) (TopLevelCommand Str)
      (ShellCompoundCommand Str (TopLevelWord Str) (TopLevelCommand Str))) → Str
  | [] => []
  | x :: xs => pipeableText x ++ pipeablesText xs
def pipeableText :
    BuilderPipeableCommand Str (TopLevelWord Str) (TopLevelCommand Str)
      (ShellCompoundCommand Str (TopLevelWord Str) (TopLevelCommand Str)) → Str
  | .Simple s => simpleCommandText s
  | .Compound c => compoundText c
  | .FunctionDef n c => n ++ compoundText c
def simpleCommandText :
    SimpleCommand Str (TopLevelWord Str) (Redirect (TopLevelWord Str)) → Str
  | ⟨vs, ws⟩ => varsText vs ++ argsText ws
def varsText :
    List (RedirectOrEnvVar (Redirect (TopLevelWord Str)) Str (TopLevelWord Str)) → Str
  | [] => []
  | x :: xs => varText x ++ varsText xs
def varText : RedirectOrEnvVar (Redirect (TopLevelWord Str)) Str (TopLevelWord Str) → Str
  | .Redirect r => redirectText r
  | .EnvVar n w => n ++ optWordText w
def argsText : List (RedirectOrCmdWord (Redirect (TopLevelWord Str)) (TopLevelWord Str)) → Str
  | [] => []
  | x :: xs => argText x ++ argsText xs
def argText : RedirectOrCmdWord (Redirect (TopLevelWord Str)) (TopLevelWord Str) → Str
  | .Redirect r => redirectText r
  | .CmdWord w => wordText w
/-- The text of a redirection: that of its target or its here-document. -/
def redirectText : Redirect (TopLevelWord Str) → Str
  | .Read _ p | .Write _ p | .ReadWrite _ p | .Append _ p | .Clobber _ p | .Heredoc _ p
  | .DupRead _ p | .DupWrite _ p => wordText p
def redirectsText : List (Redirect (TopLevelWord Str)) → Str
  | [] => []
  | x :: xs => redirectText x ++ redirectsText xs
def compoundText :
    ShellCompoundCommand Str (TopLevelWord Str) (TopLevelCommand Str) → Str
  | ⟨k, io⟩ => kindText k ++ redirectsText io
def kindText :
    CompoundCommandKind Str (TopLevelWord Str) (TopLevelCommand Str) → Str
  | .Brace cs => commandsText cs
  | .Subshell cs => commandsText cs
  | .While p => guardBodyText p
  | .Until p => guardBodyText p
  | .If cs e => guardBodiesText cs ++ optCommandsText e
  | .For x ws b => x ++ optWordsText ws ++ commandsText b
  | .Case x as => wordText x ++ armsText as
def guardBodyText : GuardBodyPair (TopLevelCommand Str) → Str
  | ⟨x, y⟩ => commandsText x ++ commandsText y
def guardBodiesText : List (GuardBodyPair (TopLevelCommand Str)) → Str
  | [] => []
  | x :: xs => guardBodyText x ++ guardBodiesText xs
def armText : PatternBodyPair (TopLevelWord Str) (TopLevelCommand Str) → Str
  | ⟨x, y⟩ => wordsText x ++ commandsText y
def armsText : List (PatternBodyPair (TopLevelWord Str) (TopLevelCommand Str)) → Str
  | [] => []
  | x :: xs => armText x ++ armsText xs
end

end Conch.Spec.Txt
