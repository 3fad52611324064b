import Verif.IterSim
import Verif.ParserCmd
/-!
# Maps between builders

`BMap S T` maps the associated types of one builder to those of another; the maps on words,
fragments and builder calls follow. `Hom B C` says that `C`'s methods compute the image of what
`B`'s methods compute.
-/
namespace Conch

section
variable {C D : Type} (f : C → D)

def CommandGroup.map (g : CommandGroup C) : CommandGroup D :=
  { commands := g.commands.map f, trailingComments := g.trailingComments }

def GuardBodyPairGroup.map (p : GuardBodyPairGroup C) : GuardBodyPairGroup D :=
  { guard := p.guard.map f, body := p.body.map f }

def IfFragments.map (p : IfFragments C) : IfFragments D :=
  { conditionals := p.conditionals.map (·.map f), elseBranch := p.elseBranch.map (·.map f) }

def ForFragments.map {W V : Type} (w : W → V) (p : ForFragments W C) : ForFragments V D :=
  { var := p.var, varComment := p.varComment
    words := p.words.map (fun x => (x.1, x.2.1.map w, x.2.2))
    preBodyComments := p.preBodyComments, body := p.body.map f }

def CasePatternFragments.map {W V : Type} (w : W → V) (p : CasePatternFragments W) :
    CasePatternFragments V :=
  { prePatternComments := p.prePatternComments
    patternAlternatives := p.patternAlternatives.map w, patternComment := p.patternComment }

def CaseArm.map {W V : Type} (w : W → V) (a : CaseArm W C) : CaseArm V D :=
  { patterns := a.patterns.map w, body := a.body.map f, armComment := a.armComment }

def CaseFragments.map {W V : Type} (w : W → V) (p : CaseFragments W C) : CaseFragments V D :=
  { word := w p.word, postWordComments := p.postWordComments, inComment := p.inComment
    arms := p.arms.map (CaseArm.map f w), postArmsComments := p.postArmsComments }

mutual
def ComplexWordKind.map : ComplexWordKind C → ComplexWordKind D
  | .Concat ws => .Concat (mapWordKinds ws)
  | .Single w => .Single w.map
def mapWordKinds : List (WordKind C) → List (WordKind D)
  | [] => []
  | w :: ws => w.map :: mapWordKinds ws
def WordKind.map : WordKind C → WordKind D
  | .Simple s => .Simple s.map
  | .DoubleQuoted ss => .DoubleQuoted (mapSimpleKinds ss)
  | .SingleQuoted s => .SingleQuoted s
def mapSimpleKinds : List (SimpleWordKind C) → List (SimpleWordKind D)
  | [] => []
  | s :: ss => s.map :: mapSimpleKinds ss
def SimpleWordKind.map : SimpleWordKind C → SimpleWordKind D
  | .Literal s => .Literal s
  | .Param p => .Param p
  | .Subst s => .Subst (mapSubstKind s)
  | .CommandSubst g => .CommandSubst (g.map f)
  | .Escaped s => .Escaped s
  | .Star => .Star
  | .Question => .Question
  | .SquareOpen => .SquareOpen
  | .SquareClose => .SquareClose
  | .Tilde => .Tilde
  | .Colon => .Colon
def mapSubstKind : ParameterSubstitutionKind (ComplexWordKind C) C →
    ParameterSubstitutionKind (ComplexWordKind D) D
  | .Command g => .Command (g.map f)
  | .Len p => .Len p
  | .Arith a => .Arith a
  | .Default c p w => .Default c p (mapOptWord w)
  | .Assign c p w => .Assign c p (mapOptWord w)
  | .Error c p w => .Error c p (mapOptWord w)
  | .Alternative c p w => .Alternative c p (mapOptWord w)
  | .RemoveSmallestSuffix p w => .RemoveSmallestSuffix p (mapOptWord w)
  | .RemoveLargestSuffix p w => .RemoveLargestSuffix p (mapOptWord w)
  | .RemoveSmallestPrefix p w => .RemoveSmallestPrefix p (mapOptWord w)
  | .RemoveLargestPrefix p w => .RemoveLargestPrefix p (mapOptWord w)
def mapOptWord : Option (ComplexWordKind C) → Option (ComplexWordKind D)
  | none => none
  | some w => some w.map
end

theorem mapWordKinds_eq (ws : List (WordKind C)) : mapWordKinds f ws = ws.map (WordKind.map f) := by
  induction ws with
  | nil => rfl
  | cons w ws ih => rw [mapWordKinds, ih]; rfl

theorem mapSimpleKinds_eq (ws : List (SimpleWordKind C)) :
    mapSimpleKinds f ws = ws.map (SimpleWordKind.map f) := by
  induction ws with
  | nil => rfl
  | cons w ws ih => rw [mapSimpleKinds, ih]; rfl

theorem mapOptWord_eq (w : Option (ComplexWordKind C)) :
    mapOptWord f w = w.map (ComplexWordKind.map f) := by
  cases w <;> rfl

theorem mapOptWord_isNone (w : Option (ComplexWordKind C)) :
    (mapOptWord f w).isNone = w.isNone := by
  cases w <;> rfl

end

section
variable {W V : Type} (w : W → V)

def RedirectKind.map : RedirectKind W → RedirectKind V
  | .Read fd p => .Read fd (w p)
  | .Write fd p => .Write fd (w p)
  | .ReadWrite fd p => .ReadWrite fd (w p)
  | .Append fd p => .Append fd (w p)
  | .Clobber fd p => .Clobber fd (w p)
  | .Heredoc fd p => .Heredoc fd (w p)
  | .DupRead fd p => .DupRead fd (w p)
  | .DupWrite fd p => .DupWrite fd (w p)

def AndOr.map : AndOr W → AndOr V
  | .And x => .And (w x)
  | .Or x => .Or (w x)

def RedirectOrEnvVar.map {R Q N : Type} (r : R → Q) :
    RedirectOrEnvVar R N W → RedirectOrEnvVar Q N V
  | .Redirect x => .Redirect (r x)
  | .EnvVar n v => .EnvVar n (v.map w)

def RedirectOrCmdWord.map {R Q : Type} (r : R → Q) :
    RedirectOrCmdWord R W → RedirectOrCmdWord Q V
  | .Redirect x => .Redirect (r x)
  | .CmdWord x => .CmdWord (w x)

end

def ParseError.map {ε δ : Type} (g : ε → δ) : ParseError ε → ParseError δ
  | .BadFd s e => .BadFd s e
  | .BadIdent s p => .BadIdent s p
  | .BadSubst t p => .BadSubst t p
  | .Unmatched t p => .Unmatched t p
  | .IncompleteCmd a b c d => .IncompleteCmd a b c d
  | .Unexpected t p => .Unexpected t p
  | .UnexpectedEOF => .UnexpectedEOF
  | .Custom e => .Custom (g e)

/-- Maps between the associated types of two builders. -/
structure BMap (S T : BTypes) where
  command : S.Command → T.Command
  commandList : S.CommandList → T.CommandList
  listable : S.ListableCommand → T.ListableCommand
  pipeable : S.PipeableCommand → T.PipeableCommand
  compound : S.CompoundCommand → T.CompoundCommand
  word : S.Word → T.Word
  redirect : S.Redirect → T.Redirect
  error : S.Error → T.Error

/-- The image of a call. -/
def Call.map {S T : BTypes} (F : BMap S T) : Call S → Call T
  | .completeCommand pre l sep c => .completeCommand pre (F.commandList l) sep c
  | .andOrList x rest => .andOrList (F.listable x) (rest.map fun p => (p.1, p.2.map F.listable))
  | .pipeline b cmds => .pipeline b (cmds.map fun p => (p.1, F.pipeable p.2))
  | .simpleCommand vs as =>
    .simpleCommand (vs.map (RedirectOrEnvVar.map F.word F.redirect))
      (as.map (RedirectOrCmdWord.map F.word F.redirect))
  | .braceGroup g io => .braceGroup (g.map F.command) (io.map F.redirect)
  | .subshell g io => .subshell (g.map F.command) (io.map F.redirect)
  | .loopCommand k p io => .loopCommand k (p.map F.command) (io.map F.redirect)
  | .ifCommand f io => .ifCommand (f.map F.command) (io.map F.redirect)
  | .forCommand f io => .forCommand (f.map F.command F.word) (io.map F.redirect)
  | .caseCommand f io => .caseCommand (f.map F.command F.word) (io.map F.redirect)
  | .compoundCommandIntoPipeable c => .compoundCommandIntoPipeable (F.compound c)
  | .functionDeclaration n cs c => .functionDeclaration n cs (F.compound c)
  | .comments cs => .comments cs
  | .word k => .word (k.map F.command)
  | .redirect k => .redirect (k.map F.word)

/-- The image of a call's result. -/
def Call.mapRet {S T : BTypes} (F : BMap S T) : (c : Call S) → c.Ret → (c.map F).Ret
  | .completeCommand .., x => F.command x
  | .andOrList .., x => F.commandList x
  | .pipeline .., x => F.listable x
  | .simpleCommand .., x => F.pipeable x
  | .braceGroup .., x => F.compound x
  | .subshell .., x => F.compound x
  | .loopCommand .., x => F.compound x
  | .ifCommand .., x => F.compound x
  | .forCommand .., x => F.compound x
  | .caseCommand .., x => F.compound x
  | .compoundCommandIntoPipeable .., x => F.pipeable x
  | .functionDeclaration .., x => F.pipeable x
  | .comments .., x => x
  | .word .., x => F.word x
  | .redirect .., x => F.redirect x

/-- Related outcomes of a builder method. `esc`: a panic of the first builder is related to
everything; `soft`: so is an error. -/
def BOut.Rel {ε δ α β σ τ : Type} (esc soft : Prop) (err : ε → δ) (f : α → β) (st : σ → τ → Prop) :
    BOut ε α × σ → BOut δ β × τ → Prop
  | (.ok a, s), (.ok b, t) => b = f a ∧ st s t
  | (.err e, s), r => soft ∨ ∃ t, r = (.err (err e), t) ∧ st s t
  | (.panic, s), r => esc ∨ ∃ t, r = (.panic, t) ∧ st s t
  | _, _ => False

/-- A homomorphism of builders. `esc`: a panic of the first builder is related to everything; `soft`:
so is an error of it; `short`: so is a run of the first parser that exhausts its budget. -/
structure Hom (B C : Builder) extends BMap B.toBTypes C.toBTypes where
  st : B.State → C.State → Prop
  esc : Prop
  short : Prop := False
  soft : Prop := False
  call : ∀ (c : Call B.toBTypes) {b b'}, st b b' →
    BOut.Rel esc soft error (c.mapRet toBMap) st (B.call c b) (C.call (c.map toBMap) b')

end Conch
