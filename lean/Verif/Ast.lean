import Verif.Token
/-!
# AST types (`src/ast.rs`)

Boxes and reference counts are not represented.
-/
namespace Conch

/-- `Parameter`, ast.rs:15-34. -/
inductive Parameter (T : Type)
  | At | Star | Pound | Question | Dash | Dollar | Bang
  | Positional (n : Nat)
  | Var (v : T)
  deriving DecidableEq, Repr

/-- `DefaultParameter`, ast.rs:9. -/
abbrev DefaultParameter := Parameter Str

/-- Decimal digits of a number, as `{}` formats it (`fmt::Display` of the standard library, used at
ast.rs:602-672). -/
def natDigits (n : Nat) : Str := Nat.toDigits 10 n

/-- `Display` of `Parameter<String>`, ast.rs:603-626. -/
def Parameter.display : Parameter Str → Str
  | .At => ['$', '@']
  | .Star => ['$', '*']
  | .Pound => ['$', '#']
  | .Question => ['$', '?']
  | .Dash => ['$', '-']
  | .Dollar => ['$', '$']
  | .Bang => ['$', '!']
  | .Var v => ['$', '{'] ++ v ++ ['}']
  | .Positional n =>
    if n ≤ 9 then ['$'] ++ natDigits n else ['$', '{'] ++ natDigits n ++ ['}']

/-- `ParameterSubstitution`, ast.rs:49-84. -/
inductive ParameterSubstitution (P W C A : Type)
  | Command (cs : List C)
  | Len (p : P)
  | Arith (a : Option A)
  | Default (colon : Bool) (p : P) (w : Option W)
  | Assign (colon : Bool) (p : P) (w : Option W)
  | Error (colon : Bool) (p : P) (w : Option W)
  | Alternative (colon : Bool) (p : P) (w : Option W)
  | RemoveSmallestSuffix (p : P) (w : Option W)
  | RemoveLargestSuffix (p : P) (w : Option W)
  | RemoveSmallestPrefix (p : P) (w : Option W)
  | RemoveLargestPrefix (p : P) (w : Option W)

/-- `ComplexWord`, ast.rs:101-106. -/
inductive ComplexWord (W : Type)
  | Concat (ws : List W)
  | Single (w : W)

/-- `Word`, ast.rs:115-123. -/
inductive Word (L W : Type)
  | Simple (w : W)
  | DoubleQuoted (ws : List W)
  | SingleQuoted (s : L)

/-- `SimpleWord`, ast.rs:133-155. -/
inductive SimpleWord (L P S : Type)
  | Literal (s : L)
  | Escaped (s : L)
  | Param (p : P)
  | Subst (s : S)
  | Star | Question | SquareOpen | SquareClose | Tilde | Colon

/-- `Redirect`, ast.rs:164-181 (`u16` descriptors are `Nat`). -/
inductive Redirect (W : Type)
  | Read (fd : Option Nat) (w : W)
  | Write (fd : Option Nat) (w : W)
  | ReadWrite (fd : Option Nat) (w : W)
  | Append (fd : Option Nat) (w : W)
  | Clobber (fd : Option Nat) (w : W)
  | Heredoc (fd : Option Nat) (w : W)
  | DupRead (fd : Option Nat) (w : W)
  | DupWrite (fd : Option Nat) (w : W)

/-- `GuardBodyPair`, ast.rs:185-191. -/
structure GuardBodyPair (C : Type) where
  guard : List C
  body : List C

/-- `PatternBodyPair`, ast.rs:195-200. -/
structure PatternBodyPair (W C : Type) where
  patterns : List W
  body : List C

/-- `Command`, ast.rs:207-213. -/
inductive Command (T : Type)
  | Job (t : T)
  | List (t : T)

/-- `AndOr`, ast.rs:248-253. -/
inductive AndOr (T : Type)
  | And (t : T)
  | Or (t : T)
  deriving DecidableEq, Repr

/-- `AndOrList`, ast.rs:260-265. -/
structure AndOrList (T : Type) where
  first : T
  rest : List (AndOr T)

/-- `ListableCommand`, ast.rs:272-282. -/
inductive ListableCommand (T : Type)
  | Pipe (bang : Bool) (cmds : List T)
  | Single (cmd : T)

/-- `PipeableCommand`, ast.rs:293-302. -/
inductive PipeableCommand (N S C F : Type)
  | Simple (s : S)
  | Compound (c : C)
  | FunctionDef (n : N) (f : F)

/-- `CompoundCommand`, ast.rs:316-321. -/
structure CompoundCommand (T R : Type) where
  kind : T
  io : List R

/-- `CompoundCommandKind`, ast.rs:331-367. -/
inductive CompoundCommandKind (V W C : Type)
  | Brace (cs : List C)
  | Subshell (cs : List C)
  | While (p : GuardBodyPair C)
  | Until (p : GuardBodyPair C)
  | If (conditionals : List (GuardBodyPair C)) (elseBranch : Option (List C))
  | For (var : V) (words : Option (List W)) (body : List C)
  | Case (word : W) (arms : List (PatternBodyPair W C))

/-- `RedirectOrEnvVar`, ast.rs:377-382. -/
inductive RedirectOrEnvVar (R V W : Type)
  | Redirect (r : R)
  | EnvVar (v : V) (w : Option W)
  deriving DecidableEq, Repr

/-- `RedirectOrCmdWord`, ast.rs:391-396. -/
inductive RedirectOrCmdWord (R W : Type)
  | Redirect (r : R)
  | CmdWord (w : W)
  deriving DecidableEq, Repr

/-- `SimpleCommand`, ast.rs:407-413. -/
structure SimpleCommand (V W R : Type) where
  redirectsOrEnvVars : List (RedirectOrEnvVar R V W)
  redirectsOrCmdWords : List (RedirectOrCmdWord R W)

/-- `Arithmetic`, ast.rs:422-490 (`isize` is `Int`; the parser checks the range). -/
inductive Arithmetic (T : Type)
  | Var (v : T)
  | Literal (n : Int)
  | Pow (a b : Arithmetic T)
  | PostIncr (v : T)
  | PostDecr (v : T)
  | PreIncr (v : T)
  | PreDecr (v : T)
  | UnaryPlus (a : Arithmetic T)
  | UnaryMinus (a : Arithmetic T)
  | LogicalNot (a : Arithmetic T)
  | BitwiseNot (a : Arithmetic T)
  | Mult (a b : Arithmetic T)
  | Div (a b : Arithmetic T)
  | Modulo (a b : Arithmetic T)
  | Add (a b : Arithmetic T)
  | Sub (a b : Arithmetic T)
  | ShiftLeft (a b : Arithmetic T)
  | ShiftRight (a b : Arithmetic T)
  | Less (a b : Arithmetic T)
  | LessEq (a b : Arithmetic T)
  | Great (a b : Arithmetic T)
  | GreatEq (a b : Arithmetic T)
  | Eq (a b : Arithmetic T)
  | NotEq (a b : Arithmetic T)
  | BitwiseAnd (a b : Arithmetic T)
  | BitwiseXor (a b : Arithmetic T)
  | BitwiseOr (a b : Arithmetic T)
  | LogicalAnd (a b : Arithmetic T)
  | LogicalOr (a b : Arithmetic T)
  | Ternary (a b c : Arithmetic T)
  | Assign (v : T) (a : Arithmetic T)
  | Sequence (as : List (Arithmetic T))
  deriving Repr

/-- `DefaultArithmetic`, ast.rs:416. -/
abbrev DefaultArithmetic := Arithmetic Str

/-- `ShellWord`, ast.rs:86-91. -/
abbrev ShellWord (T W C : Type) :=
  ComplexWord (Word T (SimpleWord T (Parameter T)
    (ParameterSubstitution (Parameter T) W C (Arithmetic T))))

/-- `ShellCompoundCommand`, ast.rs:305. -/
abbrev ShellCompoundCommand (T W C : Type) :=
  CompoundCommand (CompoundCommandKind T W C) (Redirect W)

end Conch
