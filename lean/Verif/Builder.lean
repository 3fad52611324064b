import Verif.Ast
/-!
# The builder interface (`src/ast/builder.rs`)
-/
namespace Conch

/-- `SeparatorKind`, builder.rs:22-32. -/
inductive SeparatorKind
  | Semi | Amp | Newline | Other
  deriving DecidableEq, Repr

/-- `LoopKind`, builder.rs:36-43. -/
inductive LoopKind
  | While | Until
  deriving DecidableEq, Repr

/-- `builder::Newline`, builder.rs:248: an optional comment before a newline. -/
structure Nl where
  comment : Option Str
  deriving DecidableEq, Repr

/-- `CommandGroup`, builder.rs:47-52. -/
structure CommandGroup (C : Type) where
  commands : List C
  trailingComments : List Nl
  deriving DecidableEq, Repr

/-- `GuardBodyPairGroup`, builder.rs:56-62. -/
structure GuardBodyPairGroup (C : Type) where
  guard : CommandGroup C
  body : CommandGroup C
  deriving DecidableEq, Repr

/-- `IfFragments`, builder.rs:66-71. -/
structure IfFragments (C : Type) where
  conditionals : List (GuardBodyPairGroup C)
  elseBranch : Option (CommandGroup C)
  deriving DecidableEq, Repr

/-- `ForFragments`, builder.rs:75-88. -/
structure ForFragments (W C : Type) where
  var : Str
  varComment : Option Nl
  words : Option (List Nl × List W × Option Nl)
  preBodyComments : List Nl
  body : CommandGroup C
  deriving DecidableEq, Repr

/-- `CasePatternFragments`, builder.rs:123-130. -/
structure CasePatternFragments (W : Type) where
  prePatternComments : List Nl
  patternAlternatives : List W
  patternComment : Option Nl
  deriving DecidableEq, Repr

/-- `CaseArm`, builder.rs:111-119. -/
structure CaseArm (W C : Type) where
  patterns : CasePatternFragments W
  body : CommandGroup C
  armComment : Option Nl
  deriving DecidableEq, Repr

/-- `CaseFragments`, builder.rs:92-104. -/
structure CaseFragments (W C : Type) where
  word : W
  postWordComments : List Nl
  inComment : Option Nl
  arms : List (CaseArm W C)
  postArmsComments : List Nl
  deriving DecidableEq, Repr

/-- `ParameterSubstitutionKind`, builder.rs:204-239. -/
inductive ParameterSubstitutionKind (W C : Type)
  | Command (g : CommandGroup C)
  | Len (p : DefaultParameter)
  | Arith (a : Option DefaultArithmetic)
  | Default (colon : Bool) (p : DefaultParameter) (w : Option W)
  | Assign (colon : Bool) (p : DefaultParameter) (w : Option W)
  | Error (colon : Bool) (p : DefaultParameter) (w : Option W)
  | Alternative (colon : Bool) (p : DefaultParameter) (w : Option W)
  | RemoveSmallestSuffix (p : DefaultParameter) (w : Option W)
  | RemoveLargestSuffix (p : DefaultParameter) (w : Option W)
  | RemoveSmallestPrefix (p : DefaultParameter) (w : Option W)
  | RemoveLargestPrefix (p : DefaultParameter) (w : Option W)
  deriving Repr

mutual
/-- `ComplexWordKind`, builder.rs:134-139. -/
inductive ComplexWordKind (C : Type)
  | Concat (ws : List (WordKind C))
  | Single (w : WordKind C)

/-- `WordKind`, builder.rs:143-151. -/
inductive WordKind (C : Type)
  | Simple (s : SimpleWordKind C)
  | DoubleQuoted (ss : List (SimpleWordKind C))
  | SingleQuoted (s : Str)

/-- `SimpleWordKind`, builder.rs:155-179. -/
inductive SimpleWordKind (C : Type)
  | Literal (s : Str)
  | Param (p : DefaultParameter)
  | Subst (s : ParameterSubstitutionKind (ComplexWordKind C) C)
  | CommandSubst (g : CommandGroup C)
  | Escaped (s : Str)
  | Star | Question | SquareOpen | SquareClose | Tilde | Colon
end

/-- `RedirectKind`, builder.rs:183-200. -/
inductive RedirectKind (W : Type)
  | Read (fd : Option Nat) (w : W)
  | Write (fd : Option Nat) (w : W)
  | ReadWrite (fd : Option Nat) (w : W)
  | Append (fd : Option Nat) (w : W)
  | Clobber (fd : Option Nat) (w : W)
  | Heredoc (fd : Option Nat) (w : W)
  | DupRead (fd : Option Nat) (w : W)
  | DupWrite (fd : Option Nat) (w : W)
  deriving DecidableEq, Repr

/-- The associated types of the `Builder` trait, builder.rs:254-272. -/
structure BTypes where
  Command : Type
  CommandList : Type
  ListableCommand : Type
  PipeableCommand : Type
  CompoundCommand : Type
  Word : Type
  Redirect : Type
  Error : Type

/-- One call of a `Builder` method with its arguments; the constructors are the methods of the
trait, builder.rs:280-450. -/
inductive Call (T : BTypes)
  | completeCommand (preCmdComments : List Nl) (list : T.CommandList) (sep : SeparatorKind)
      (cmdComment : Option Nl)
  | andOrList (first : T.ListableCommand) (rest : List (List Nl × AndOr T.ListableCommand))
  | pipeline (bang : Bool) (cmds : List (List Nl × T.PipeableCommand))
  | simpleCommand (redirectsOrEnvVars : List (RedirectOrEnvVar T.Redirect Str T.Word))
      (redirectsOrCmdWords : List (RedirectOrCmdWord T.Redirect T.Word))
  | braceGroup (cmds : CommandGroup T.Command) (redirects : List T.Redirect)
  | subshell (cmds : CommandGroup T.Command) (redirects : List T.Redirect)
  | loopCommand (kind : LoopKind) (pair : GuardBodyPairGroup T.Command)
      (redirects : List T.Redirect)
  | ifCommand (fragments : IfFragments T.Command) (redirects : List T.Redirect)
  | forCommand (fragments : ForFragments T.Word T.Command) (redirects : List T.Redirect)
  | caseCommand (fragments : CaseFragments T.Word T.Command) (redirects : List T.Redirect)
  | compoundCommandIntoPipeable (cmd : T.CompoundCommand)
  | functionDeclaration (name : Str) (postNameComments : List Nl) (body : T.CompoundCommand)
  | comments (cs : List Nl)
  | word (kind : ComplexWordKind T.Command)
  | redirect (kind : RedirectKind T.Word)

/-- The success type of each method, builder.rs:280-450. -/
@[reducible] def Call.Ret {T : BTypes} : Call T → Type
  | .completeCommand .. => T.Command
  | .andOrList .. => T.CommandList
  | .pipeline .. => T.ListableCommand
  | .simpleCommand .. => T.PipeableCommand
  | .braceGroup .. | .subshell .. | .loopCommand .. | .ifCommand .. | .forCommand ..
  | .caseCommand .. => T.CompoundCommand
  | .compoundCommandIntoPipeable .. | .functionDeclaration .. => T.PipeableCommand
  | .comments .. => Unit
  | .word .. => T.Word
  | .redirect .. => T.Redirect

/-- Outcome of a builder method: `Ok`, `Err`, or a panic inside the builder (`Result<_, Self::Error>`,
builder.rs:254-451). -/
inductive BOut (ε α : Type)
  | ok (a : α)
  | err (e : ε)
  | panic

/-- A `Builder`, builder.rs:254-451: its types, its own state (`&mut self`), and its methods. -/
structure Builder extends BTypes where
  State : Type
  call : (c : Call toBTypes) → State → BOut Error c.Ret × State

end Conch
