import Verif.DefaultBuilder
import Verif.Hom
/-!
# Maps on syntax trees

Changing the type of strings, words, commands in a tree. Used to state C38; nothing here is in the
code.
-/
namespace Conch

def Parameter.map {T U : Type} (g : T → U) : Parameter T → Parameter U
  | .At => .At
  | .Star => .Star
  | .Pound => .Pound
  | .Question => .Question
  | .Dash => .Dash
  | .Dollar => .Dollar
  | .Bang => .Bang
  | .Positional p => .Positional p
  | .Var v => .Var (g v)

mutual
def Arithmetic.map {T U : Type} (g : T → U) : Arithmetic T → Arithmetic U
  | .Var v => .Var (g v)
  | .Literal l => .Literal l
  | .Pow a b => .Pow (a.map g) (b.map g)
  | .PostIncr p => .PostIncr (g p)
  | .PostDecr p => .PostDecr (g p)
  | .PreIncr p => .PreIncr (g p)
  | .PreDecr p => .PreDecr (g p)
  | .UnaryPlus a => .UnaryPlus (a.map g)
  | .UnaryMinus a => .UnaryMinus (a.map g)
  | .LogicalNot a => .LogicalNot (a.map g)
  | .BitwiseNot a => .BitwiseNot (a.map g)
  | .Mult a b => .Mult (a.map g) (b.map g)
  | .Div a b => .Div (a.map g) (b.map g)
  | .Modulo a b => .Modulo (a.map g) (b.map g)
  | .Add a b => .Add (a.map g) (b.map g)
  | .Sub a b => .Sub (a.map g) (b.map g)
  | .ShiftLeft a b => .ShiftLeft (a.map g) (b.map g)
  | .ShiftRight a b => .ShiftRight (a.map g) (b.map g)
  | .Less a b => .Less (a.map g) (b.map g)
  | .LessEq a b => .LessEq (a.map g) (b.map g)
  | .Great a b => .Great (a.map g) (b.map g)
  | .GreatEq a b => .GreatEq (a.map g) (b.map g)
  | .Eq a b => .Eq (a.map g) (b.map g)
  | .NotEq a b => .NotEq (a.map g) (b.map g)
  | .BitwiseAnd a b => .BitwiseAnd (a.map g) (b.map g)
  | .BitwiseXor a b => .BitwiseXor (a.map g) (b.map g)
  | .BitwiseOr a b => .BitwiseOr (a.map g) (b.map g)
  | .LogicalAnd a b => .LogicalAnd (a.map g) (b.map g)
  | .LogicalOr a b => .LogicalOr (a.map g) (b.map g)
  | .Ternary a b c => .Ternary (a.map g) (b.map g) (c.map g)
  | .Assign v a => .Assign (g v) (a.map g)
  | .Sequence as => .Sequence (Arithmetic.mapList g as)
def Arithmetic.mapList {T U : Type} (g : T → U) : List (Arithmetic T) → List (Arithmetic U)
  | [] => []
  | a :: as => a.map g :: Arithmetic.mapList g as
end

section
variable {L L' W W' P P' S S' C C' A A' T T' N N' F F' R R' V V' : Type}

def ParameterSubstitution.map (p : P → P') (w : W → W') (c : C → C') (a : A → A') :
    ParameterSubstitution P W C A → ParameterSubstitution P' W' C' A'
  | .Command cs => .Command (cs.map c)
  | .Len x => .Len (p x)
  | .Arith x => .Arith (x.map a)
  | .Default k x y => .Default k (p x) (y.map w)
  | .Assign k x y => .Assign k (p x) (y.map w)
  | .Error k x y => .Error k (p x) (y.map w)
  | .Alternative k x y => .Alternative k (p x) (y.map w)
  | .RemoveSmallestSuffix x y => .RemoveSmallestSuffix (p x) (y.map w)
  | .RemoveLargestSuffix x y => .RemoveLargestSuffix (p x) (y.map w)
  | .RemoveSmallestPrefix x y => .RemoveSmallestPrefix (p x) (y.map w)
  | .RemoveLargestPrefix x y => .RemoveLargestPrefix (p x) (y.map w)

def SimpleWord.map (l : L → L') (p : P → P') (s : S → S') : SimpleWord L P S → SimpleWord L' P' S'
  | .Literal x => .Literal (l x)
  | .Escaped x => .Escaped (l x)
  | .Param x => .Param (p x)
  | .Subst x => .Subst (s x)
  | .Star => .Star
  | .Question => .Question
  | .SquareOpen => .SquareOpen
  | .SquareClose => .SquareClose
  | .Tilde => .Tilde
  | .Colon => .Colon

def Word.map (l : L → L') (w : W → W') : Word L W → Word L' W'
  | .Simple x => .Simple (w x)
  | .DoubleQuoted xs => .DoubleQuoted (xs.map w)
  | .SingleQuoted s => .SingleQuoted (l s)

def ComplexWord.map (w : W → W') : ComplexWord W → ComplexWord W'
  | .Concat ws => .Concat (ws.map w)
  | .Single x => .Single (w x)

def Redirect.map (w : W → W') : Redirect W → Redirect W'
  | .Read fd p => .Read fd (w p)
  | .Write fd p => .Write fd (w p)
  | .ReadWrite fd p => .ReadWrite fd (w p)
  | .Append fd p => .Append fd (w p)
  | .Clobber fd p => .Clobber fd (w p)
  | .Heredoc fd p => .Heredoc fd (w p)
  | .DupRead fd p => .DupRead fd (w p)
  | .DupWrite fd p => .DupWrite fd (w p)

def GuardBodyPair.map (c : C → C') (g : GuardBodyPair C) : GuardBodyPair C' :=
  { guard := g.guard.map c, body := g.body.map c }

def PatternBodyPair.map (w : W → W') (c : C → C') (g : PatternBodyPair W C) :
    PatternBodyPair W' C' :=
  { patterns := g.patterns.map w, body := g.body.map c }

def Command.map (t : T → T') : Command T → Command T'
  | .Job x => .Job (t x)
  | .List x => .List (t x)

def AndOrList.map (t : T → T') (l : AndOrList T) : AndOrList T' :=
  { first := t l.first, rest := l.rest.map (AndOr.map t) }

def ListableCommand.map (t : T → T') : ListableCommand T → ListableCommand T'
  | .Pipe b cs => .Pipe b (cs.map t)
  | .Single c => .Single (t c)

def PipeableCommand.map (n : N → N') (s : S → S') (c : C → C') (f : F → F') :
    PipeableCommand N S C F → PipeableCommand N' S' C' F'
  | .Simple x => .Simple (s x)
  | .Compound x => .Compound (c x)
  | .FunctionDef x y => .FunctionDef (n x) (f y)

def CompoundCommand.map (t : T → T') (r : R → R') (c : CompoundCommand T R) :
    CompoundCommand T' R' :=
  { kind := t c.kind, io := c.io.map r }

def CompoundCommandKind.map (v : V → V') (w : W → W') (c : C → C') :
    CompoundCommandKind V W C → CompoundCommandKind V' W' C'
  | .Brace cs => .Brace (cs.map c)
  | .Subshell cs => .Subshell (cs.map c)
  | .While p => .While (p.map c)
  | .Until p => .Until (p.map c)
  | .If cs e => .If (cs.map (GuardBodyPair.map c)) (e.map (List.map c))
  | .For x ws b => .For (v x) (ws.map (List.map w)) (b.map c)
  | .Case x as => .Case (w x) (as.map (PatternBodyPair.map w c))

def RedirectOrEnvVar.mapAll (r : R → R') (v : V → V') (w : W → W') :
    RedirectOrEnvVar R V W → RedirectOrEnvVar R' V' W'
  | .Redirect x => .Redirect (r x)
  | .EnvVar n x => .EnvVar (v n) (x.map w)

def SimpleCommand.map (v : V → V') (w : W → W') (r : R → R') (s : SimpleCommand V W R) :
    SimpleCommand V' W' R' :=
  { redirectsOrEnvVars := s.redirectsOrEnvVars.map (RedirectOrEnvVar.mapAll r v w)
    redirectsOrCmdWords := s.redirectsOrCmdWords.map (RedirectOrCmdWord.map w r) }

/-- Words of the tree. -/
abbrev ShellWord.map (t : T → T') (w : W → W') (c : C → C') :
    ShellWord T W C → ShellWord T' W' C' :=
  ComplexWord.map (Word.map t (SimpleWord.map t (Parameter.map t)
    (ParameterSubstitution.map (Parameter.map t) w c (Arithmetic.map t))))

/-- Compound commands of the tree. -/
abbrev ShellCompoundCommand.map (t : T → T') (w : W → W') (c : C → C') :
    ShellCompoundCommand T W C → ShellCompoundCommand T' W' C' :=
  CompoundCommand.map (CompoundCommandKind.map t w c) (Redirect.map w)

/-- Pipeable commands of the tree. -/
abbrev BuilderPipeableCommand.map (t : T → T') (w : W → W') (c : C → C') (f : F → F') :
    BuilderPipeableCommand T W C F → BuilderPipeableCommand T' W' C' F' :=
  PipeableCommand.map t (SimpleCommand.map t w (Redirect.map w)) (ShellCompoundCommand.map t w c) f

/-- Lists of commands of the tree. -/
abbrev BuilderList.map (t : T → T') (w : W → W') (c : C → C') (f : F → F') :
    AndOrList (ListableCommand (BuilderPipeableCommand T W C F)) →
    AndOrList (ListableCommand (BuilderPipeableCommand T' W' C' F')) :=
  AndOrList.map (ListableCommand.map (BuilderPipeableCommand.map t w c f))

end

/-! ## The default trees -/

mutual
/-- Changing the strings of a word. -/
def TopLevelWord.map {T U : Type} (g : T → U) : TopLevelWord T → TopLevelWord U
  | .mk w => .mk (TLMap.complex g w)
def TLMap.complex {T U : Type} (g : T → U) :
    ShellWord T (TopLevelWord T) (TopLevelCommand T) →
    ShellWord U (TopLevelWord U) (TopLevelCommand U)
  | .Concat ws => .Concat (TLMap.words g ws)
  | .Single w => .Single (TLMap.word g w)
def TLMap.words {T U : Type} (g : T → U) :
    List (Word T (SimpleWord T (Parameter T)
      (ParameterSubstitution (Parameter T) (TopLevelWord T) (TopLevelCommand T) (Arithmetic T)))) →
    List (Word U (SimpleWord U (Parameter U)
      (ParameterSubstitution (Parameter U) (TopLevelWord U) (TopLevelCommand U) (Arithmetic U))))
  | [] => []
  | w :: ws => TLMap.word g w :: TLMap.words g ws
def TLMap.word {T U : Type} (g : T → U) :
    Word T (SimpleWord T (Parameter T)
      (ParameterSubstitution (Parameter T) (TopLevelWord T) (TopLevelCommand T) (Arithmetic T))) →
    Word U (SimpleWord U (Parameter U)
      (ParameterSubstitution (Parameter U) (TopLevelWord U) (TopLevelCommand U) (Arithmetic U)))
  | .Simple s => .Simple (TLMap.simple g s)
  | .DoubleQuoted ss => .DoubleQuoted (TLMap.simples g ss)
  | .SingleQuoted s => .SingleQuoted (g s)
def TLMap.simples {T U : Type} (g : T → U) :
    List (SimpleWord T (Parameter T)
      (ParameterSubstitution (Parameter T) (TopLevelWord T) (TopLevelCommand T) (Arithmetic T))) →
    List (SimpleWord U (Parameter U)
      (ParameterSubstitution (Parameter U) (TopLevelWord U) (TopLevelCommand U) (Arithmetic U)))
  | [] => []
  | w :: ws => TLMap.simple g w :: TLMap.simples g ws
def TLMap.simple {T U : Type} (g : T → U) :
    SimpleWord T (Parameter T)
      (ParameterSubstitution (Parameter T) (TopLevelWord T) (TopLevelCommand T) (Arithmetic T)) →
    SimpleWord U (Parameter U)
      (ParameterSubstitution (Parameter U) (TopLevelWord U) (TopLevelCommand U) (Arithmetic U))
  | .Literal x => .Literal (g x)
  | .Escaped x => .Escaped (g x)
  | .Param x => .Param (x.map g)
  | .Subst x => .Subst (TLMap.subst g x)
  | .Star => .Star
  | .Question => .Question
  | .SquareOpen => .SquareOpen
  | .SquareClose => .SquareClose
  | .Tilde => .Tilde
  | .Colon => .Colon
def TLMap.subst {T U : Type} (g : T → U) :
    ParameterSubstitution (Parameter T) (TopLevelWord T) (TopLevelCommand T) (Arithmetic T) →
    ParameterSubstitution (Parameter U) (TopLevelWord U) (TopLevelCommand U) (Arithmetic U)
  | .Command cs => .Command (TLMap.commands g cs)
  | .Len x => .Len (x.map g)
  | .Arith x => .Arith (x.map (Arithmetic.map g))
  | .Default k x y => .Default k (x.map g) (TLMap.optWord g y)
  | .Assign k x y => .Assign k (x.map g) (TLMap.optWord g y)
  | .Error k x y => .Error k (x.map g) (TLMap.optWord g y)
  | .Alternative k x y => .Alternative k (x.map g) (TLMap.optWord g y)
  | .RemoveSmallestSuffix x y => .RemoveSmallestSuffix (x.map g) (TLMap.optWord g y)
  | .RemoveLargestSuffix x y => .RemoveLargestSuffix (x.map g) (TLMap.optWord g y)
  | .RemoveSmallestPrefix x y => .RemoveSmallestPrefix (x.map g) (TLMap.optWord g y)
  | .RemoveLargestPrefix x y => .RemoveLargestPrefix (x.map g) (TLMap.optWord g y)
def TLMap.optWord {T U : Type} (g : T → U) : Option (TopLevelWord T) → Option (TopLevelWord U)
  | none => none
  | some w => some (w.map g)
def TLMap.topWords {T U : Type} (g : T → U) : List (TopLevelWord T) → List (TopLevelWord U)
  | [] => []
  | w :: ws => w.map g :: TLMap.topWords g ws
def TLMap.optTopWords {T U : Type} (g : T → U) :
    Option (List (TopLevelWord T)) → Option (List (TopLevelWord U))
  | none => none
  | some w => some (TLMap.topWords g w)
def TLMap.commands {T U : Type} (g : T → U) : List (TopLevelCommand T) → List (TopLevelCommand U)
  | [] => []
  | w :: ws => w.map g :: TLMap.commands g ws
def TLMap.optCommands {T U : Type} (g : T → U) :
    Option (List (TopLevelCommand T)) → Option (List (TopLevelCommand U))
  | none => none
  | some w => some (TLMap.commands g w)
/-- Changing the strings of a command. -/
def TopLevelCommand.map {T U : Type} (g : T → U) : TopLevelCommand T → TopLevelCommand U
  | .mk c => .mk (TLMap.command g c)
def TLMap.command {T U : Type} (g : T → U) :
    Command (AndOrList (ListableCommand (BuilderPipeableCommand T (TopLevelWord T) (TopLevelCommand T)
      (ShellCompoundCommand T (TopLevelWord T) (TopLevelCommand T))))) →
    Command (AndOrList (ListableCommand (BuilderPipeableCommand U (TopLevelWord U) (TopLevelCommand U)
      (ShellCompoundCommand U (TopLevelWord U) (TopLevelCommand U)))))
  | .Job l => .Job (TLMap.list g l)
  | .List l => .List (TLMap.list g l)
def TLMap.list {T U : Type} (g : T → U) :
    AndOrList (ListableCommand (BuilderPipeableCommand T (TopLevelWord T) (TopLevelCommand T)
      (ShellCompoundCommand T (TopLevelWord T) (TopLevelCommand T)))) →
    AndOrList (ListableCommand (BuilderPipeableCommand U (TopLevelWord U) (TopLevelCommand U)
      (ShellCompoundCommand U (TopLevelWord U) (TopLevelCommand U))))
  | ⟨x, r⟩ => ⟨TLMap.listable g x, TLMap.andOrs g r⟩
def TLMap.andOrs {T U : Type} (g : T → U) :
    List (AndOr (ListableCommand (BuilderPipeableCommand T (TopLevelWord T) (TopLevelCommand T)
      (ShellCompoundCommand T (TopLevelWord T) (TopLevelCommand T))))) →
    List (AndOr (ListableCommand (BuilderPipeableCommand U (TopLevelWord U) (TopLevelCommand U)
      (ShellCompoundCommand U (TopLevelWord U) (TopLevelCommand U)))))
  | [] => []
  | x :: xs => TLMap.andOr g x :: TLMap.andOrs g xs
def TLMap.andOr {T U : Type} (g : T → U) :
    AndOr (ListableCommand (BuilderPipeableCommand T (TopLevelWord T) (TopLevelCommand T)
      (ShellCompoundCommand T (TopLevelWord T) (TopLevelCommand T)))) →
    AndOr (ListableCommand (BuilderPipeableCommand U (TopLevelWord U) (TopLevelCommand U)
      (ShellCompoundCommand U (TopLevelWord U) (TopLevelCommand U))))
  | .And x => .And (TLMap.listable g x)
  | .Or x => .Or (TLMap.listable g x)
def TLMap.listable {T U : Type} (g : T → U) :
    ListableCommand (BuilderPipeableCommand T (TopLevelWord T) (TopLevelCommand T)
      (ShellCompoundCommand T (TopLevelWord T) (TopLevelCommand T))) →
    ListableCommand (BuilderPipeableCommand U (TopLevelWord U) (TopLevelCommand U)
      (ShellCompoundCommand U (TopLevelWord U) (TopLevelCommand U)))
  | .Pipe b cs => .Pipe b (TLMap.pipeables g cs)
  | .Single c => .Single (TLMap.pipeable g c)
def TLMap.pipeables {T U : Type} (g : T → U) :
    List (BuilderPipeableCommand T (TopLevelWord T) (TopLevelCommand T)
      (ShellCompoundCommand T (TopLevelWord T) (TopLevelCommand T))) →
    List (BuilderPipeableCommand U (TopLevelWord U) (TopLevelCommand U)
      (ShellCompoundCommand U (TopLevelWord U) (TopLevelCommand U)))
  | [] => []
  | x :: xs => TLMap.pipeable g x :: TLMap.pipeables g xs
def TLMap.pipeable {T U : Type} (g : T → U) :
    BuilderPipeableCommand T (TopLevelWord T) (TopLevelCommand T)
      (ShellCompoundCommand T (TopLevelWord T) (TopLevelCommand T)) →
    BuilderPipeableCommand U (TopLevelWord U) (TopLevelCommand U)
      (ShellCompoundCommand U (TopLevelWord U) (TopLevelCommand U))
  | .Simple s => .Simple (TLMap.simpleCommand g s)
  | .Compound c => .Compound (TLMap.compound g c)
  | .FunctionDef n c => .FunctionDef (g n) (TLMap.compound g c)
def TLMap.simpleCommand {T U : Type} (g : T → U) :
    SimpleCommand T (TopLevelWord T) (Redirect (TopLevelWord T)) →
    SimpleCommand U (TopLevelWord U) (Redirect (TopLevelWord U))
  | ⟨vs, ws⟩ => ⟨TLMap.vars g vs, TLMap.args g ws⟩
def TLMap.vars {T U : Type} (g : T → U) :
    List (RedirectOrEnvVar (Redirect (TopLevelWord T)) T (TopLevelWord T)) →
    List (RedirectOrEnvVar (Redirect (TopLevelWord U)) U (TopLevelWord U))
  | [] => []
  | x :: xs => TLMap.var g x :: TLMap.vars g xs
def TLMap.var {T U : Type} (g : T → U) :
    RedirectOrEnvVar (Redirect (TopLevelWord T)) T (TopLevelWord T) →
    RedirectOrEnvVar (Redirect (TopLevelWord U)) U (TopLevelWord U)
  | .Redirect r => .Redirect (TLMap.redirect g r)
  | .EnvVar n w => .EnvVar (g n) (TLMap.optWord g w)
def TLMap.args {T U : Type} (g : T → U) :
    List (RedirectOrCmdWord (Redirect (TopLevelWord T)) (TopLevelWord T)) →
    List (RedirectOrCmdWord (Redirect (TopLevelWord U)) (TopLevelWord U))
  | [] => []
  | x :: xs => TLMap.arg g x :: TLMap.args g xs
def TLMap.arg {T U : Type} (g : T → U) :
    RedirectOrCmdWord (Redirect (TopLevelWord T)) (TopLevelWord T) →
    RedirectOrCmdWord (Redirect (TopLevelWord U)) (TopLevelWord U)
  | .Redirect r => .Redirect (TLMap.redirect g r)
  | .CmdWord w => .CmdWord (w.map g)
def TLMap.redirect {T U : Type} (g : T → U) : Redirect (TopLevelWord T) → Redirect (TopLevelWord U)
  | .Read fd p => .Read fd (p.map g)
  | .Write fd p => .Write fd (p.map g)
  | .ReadWrite fd p => .ReadWrite fd (p.map g)
  | .Append fd p => .Append fd (p.map g)
  | .Clobber fd p => .Clobber fd (p.map g)
  | .Heredoc fd p => .Heredoc fd (p.map g)
  | .DupRead fd p => .DupRead fd (p.map g)
  | .DupWrite fd p => .DupWrite fd (p.map g)
def TLMap.redirects {T U : Type} (g : T → U) :
    List (Redirect (TopLevelWord T)) → List (Redirect (TopLevelWord U))
  | [] => []
  | x :: xs => TLMap.redirect g x :: TLMap.redirects g xs
def TLMap.compound {T U : Type} (g : T → U) :
    ShellCompoundCommand T (TopLevelWord T) (TopLevelCommand T) →
    ShellCompoundCommand U (TopLevelWord U) (TopLevelCommand U)
  | ⟨k, io⟩ => ⟨TLMap.kind g k, TLMap.redirects g io⟩
def TLMap.kind {T U : Type} (g : T → U) :
    CompoundCommandKind T (TopLevelWord T) (TopLevelCommand T) →
    CompoundCommandKind U (TopLevelWord U) (TopLevelCommand U)
  | .Brace cs => .Brace (TLMap.commands g cs)
  | .Subshell cs => .Subshell (TLMap.commands g cs)
  | .While p => .While (TLMap.guardBody g p)
  | .Until p => .Until (TLMap.guardBody g p)
  | .If cs e => .If (TLMap.guardBodies g cs) (TLMap.optCommands g e)
  | .For x ws b => .For (g x) (TLMap.optTopWords g ws) (TLMap.commands g b)
  | .Case x as => .Case (x.map g) (TLMap.arms g as)
def TLMap.guardBody {T U : Type} (g : T → U) :
    GuardBodyPair (TopLevelCommand T) → GuardBodyPair (TopLevelCommand U)
  | ⟨x, y⟩ => ⟨TLMap.commands g x, TLMap.commands g y⟩
def TLMap.guardBodies {T U : Type} (g : T → U) :
    List (GuardBodyPair (TopLevelCommand T)) → List (GuardBodyPair (TopLevelCommand U))
  | [] => []
  | x :: xs => TLMap.guardBody g x :: TLMap.guardBodies g xs
def TLMap.arm {T U : Type} (g : T → U) :
    PatternBodyPair (TopLevelWord T) (TopLevelCommand T) →
    PatternBodyPair (TopLevelWord U) (TopLevelCommand U)
  | ⟨x, y⟩ => ⟨TLMap.topWords g x, TLMap.commands g y⟩
def TLMap.arms {T U : Type} (g : T → U) :
    List (PatternBodyPair (TopLevelWord T) (TopLevelCommand T)) →
    List (PatternBodyPair (TopLevelWord U) (TopLevelCommand U))
  | [] => []
  | x :: xs => TLMap.arm g x :: TLMap.arms g xs
end

end Conch
