import Verif.PropsBuilder
/-!
# C58, specification: calls in postfix order

A parser that builds bottom-up, in source order, and neither drops nor copies what it built, is a
stack machine: each builder call takes its arguments - the results of earlier calls - from the top
of a stack, where they lie in source order, and puts its own result there.
-/
namespace Conch.Spec
open Conch

section
variable {T : BTypes}

/-- Something a builder made. -/
inductive Val (T : BTypes)
  | command (c : T.Command) | commandList (c : T.CommandList) | listable (c : T.ListableCommand)
  | pipeable (c : T.PipeableCommand) | compound (c : T.CompoundCommand) | word (w : T.Word)
  | redirect (r : T.Redirect)

/-! ## The commands inside a word that has not been given to the builder yet -/

section
variable {C : Type}
mutual
def cmdsIn : ComplexWordKind C → List C
  | .Concat ws => partsCmds ws
  | .Single w => partCmds w
def partsCmds : List (WordKind C) → List C
  | [] => []
  | w :: ws => partCmds w ++ partsCmds ws
def partCmds : WordKind C → List C
  | .Simple s => simpleCmds s
  | .DoubleQuoted ss => simplesCmds ss
  | .SingleQuoted _ => []
def simplesCmds : List (SimpleWordKind C) → List C
  | [] => []
  | s :: ss => simpleCmds s ++ simplesCmds ss
/-- Only substitutions hold commands. -/
def simpleCmds : SimpleWordKind C → List C
  | .Literal _ | .Param _ | .Escaped _ | .Star | .Question | .SquareOpen | .SquareClose | .Tilde | .Colon => []
  | .Subst s => substCmds s
  | .CommandSubst g => g.commands
def substCmds : ParameterSubstitutionKind (ComplexWordKind C) C → List C
  | .Command g => g.commands
  | .Len _ | .Arith _ => []
  | .Default _ _ w | .Assign _ _ w | .Error _ _ w | .Alternative _ _ w | .RemoveSmallestSuffix _ w
  | .RemoveLargestSuffix _ w | .RemoveSmallestPrefix _ w | .RemoveLargestPrefix _ w => optCmds w
def optCmds : Option (ComplexWordKind C) → List C
  | none => []
  | some w => cmdsIn w
end
end

/-! ## What is in the arguments and results, in the order of the source text -/

/-- The commands of a group. -/
def groupVals (g : CommandGroup T.Command) : List (Val T) := g.commands.map .command
/-- The guard, then the body. -/
def pairVals (p : GuardBodyPairGroup T.Command) : List (Val T) := groupVals p.guard ++ groupVals p.body
/-- The arms, then the `else` part. -/
def ifVals (f : IfFragments T.Command) : List (Val T) :=
  f.conditionals.flatMap pairVals ++ f.elseBranch.toList.flatMap groupVals
/-- The words, then the body. -/
def forVals (f : ForFragments T.Word T.Command) : List (Val T) :=
  f.words.toList.flatMap (fun x => x.2.1.map .word) ++ groupVals f.body
/-- The patterns, then the body. -/
def armVals (a : CaseArm T.Word T.Command) : List (Val T) :=
  a.patterns.patternAlternatives.map .word ++ groupVals a.body
/-- The word, then the arms. -/
def caseVals (f : CaseFragments T.Word T.Command) : List (Val T) := .word f.word :: f.arms.flatMap armVals
/-- Redirections and the values of assignments. -/
def assignVals : RedirectOrEnvVar T.Redirect Str T.Word → List (Val T)
  | .Redirect r => [.redirect r]
  | .EnvVar _ w => w.toList.map .word
/-- Redirections and words. -/
def argVals : RedirectOrCmdWord T.Redirect T.Word → List (Val T)
  | .Redirect r => [.redirect r]
  | .CmdWord w => [.word w]
/-- The word of a redirection. -/
def redirVals : RedirectKind T.Word → List (Val T)
  | .Read _ w | .Write _ w | .ReadWrite _ w | .Append _ w | .Clobber _ w | .Heredoc _ w | .DupRead _ w
  | .DupWrite _ w => [.word w]
/-- A command after `&&` or `||`. -/
def andOrVals : AndOr T.ListableCommand → List (Val T)
  | .And c | .Or c => [.listable c]

/-- What is in the arguments of a call, in the order of the source text. -/
def args : Call T → List (Val T)
  | .completeCommand _ list _ _ => [.commandList list]
  | .andOrList first rest => .listable first :: rest.flatMap (fun x => andOrVals x.2)
  | .pipeline _ cmds => cmds.map (fun x => .pipeable x.2)
  | .simpleCommand vs as => vs.flatMap assignVals ++ as.flatMap argVals
  | .braceGroup g rs | .subshell g rs => groupVals g ++ rs.map .redirect
  | .loopCommand _ p rs => pairVals p ++ rs.map .redirect
  | .ifCommand f rs => ifVals f ++ rs.map .redirect
  | .forCommand f rs => forVals f ++ rs.map .redirect
  | .caseCommand f rs => caseVals f ++ rs.map .redirect
  | .compoundCommandIntoPipeable c | .functionDeclaration _ _ c => [.compound c]
  | .comments _ => []
  | .word k => (cmdsIn k).map .command
  | .redirect k => redirVals k

/-- The value a call returned. -/
def result : (c : Call T) → c.Ret → List (Val T)
  | .completeCommand .., a => [.command a]
  | .andOrList .., a => [.commandList a]
  | .pipeline .., a => [.listable a]
  | .simpleCommand .., a | .compoundCommandIntoPipeable .., a | .functionDeclaration .., a => [.pipeable a]
  | .braceGroup .., a | .subshell .., a | .loopCommand .., a | .ifCommand .., a | .forCommand .., a
  | .caseCommand .., a => [.compound a]
  | .comments .., _ => []
  | .word .., a => [.word a]
  | .redirect .., a => [.redirect a]

/-- What a method returned, in the order of the source text. -/
def returned : (m : Method) → m.Ret T → List (Val T)
  | .completeCommand, a => a.toList.map .command
  | .andOrList, a => [.commandList a]
  | .pipeline, a => [.listable a]
  | .command, a | .simpleCommand, a | .functionDeclaration, a => [.pipeable a]
  | .redirectList, a => a.map .redirect
  | .redirect, a => match a with
    | none => []
    | some (.inl r) => [.redirect r]
    | some (.inr w) => [.word w]
  | .redirectHeredoc _, a => [.redirect a]
  | .word, a | .wordPreserveTrailingWhitespace, a => a.toList.map .word
  | .backtickedCommandSubstitution, a | .parameter, a => [.word a]
  | .doGroup, a | .braceGroup, a | .subshell, a | .commandGroup _, a => groupVals a
  | .compoundCommand, a => [.compound a]
  | .loopCommand, a => pairVals a.2
  | .ifCommand, a => ifVals a
  | .forCommand, a => forVals a
  | .caseCommand, a => caseVals a
  | .maybeFunctionDeclaration, a => a.toList.map .pipeable
  | .skipWhitespace, _ | .linebreak, _ | .newline, _ | .peekReservedToken _, _ | .peekReservedWord _, _
  | .reservedToken _, _ | .reservedWord _, _ | .arithmeticSubstitution, _ => []

end

/-- `Postfix st es st'`: with the values `st` at hand (the latest last), the successful calls `es` each take
their arguments from the end and put the result there; this leaves `st'`. -/
inductive Postfix {B : Builder} : List (Val B.toBTypes) → List (Event B) → List (Val B.toBTypes) → Prop
  | done {st} : Postfix st [] st
  | call {st es st'} (c : Call B.toBTypes) (a : c.Ret) : Postfix (st ++ result c a) es st' →
      Postfix (st ++ args c) (⟨c, .ok a⟩ :: es) st'

end Conch.Spec
