import Verif.DefaultBuilder
import Mathlib.Data.List.Chain
/-!
# Normal form of syntax trees (C48)

What can be relied on when walking over a tree that the parser returned: which lists are not empty,
which parts cannot be neighbours, what a part may contain. Only the types of the trees are referred to.
-/
namespace Conch.Spec
open Conch

/-- The words of the trees of `DefaultBuilder<String>`. -/
abbrev TWord := TopLevelWord Str
/-- The commands. -/
abbrev TCommand := TopLevelCommand Str
/-- The fragments of words. -/
abbrev TSimple := SimpleWord Str (Parameter Str) (ParameterSubstitution (Parameter Str) TWord TCommand (Arithmetic Str))
/-- The parts of words. -/
abbrev TPart := Word Str TSimple
/-- The compound commands. -/
abbrev TCompound := CompoundCommand (CompoundCommandKind Str TWord TCommand) (Redirect TWord)
/-- The commands of pipelines. -/
abbrev TPipeable := PipeableCommand Str (SimpleCommand Str TWord (Redirect TWord)) TCompound TCompound

/-- A parameter has a name, a positional one fits into `u32`. -/
def NfParam : Parameter Str → Prop
  | .Var v => v ≠ []
  | .Positional n => n < 2 ^ 32
  | _ => True

/-- A descriptor fits into `u16`. -/
def NfFd (fd : Option Nat) : Prop := ∀ n, fd = some n → n < 2 ^ 16

/-- Text that can be escaped in double quotes and here-documents. -/
def escapable : List Str := [['$'], ['`'], ['"'], ['\\'], ['\n']]

/-- Two literals. -/
def BothText (a b : TSimple) : Prop := ∃ s t, a = .Literal s ∧ b = .Literal t

/-- Parts of the same kind that could be one part. -/
inductive SamePart : TPart → TPart → Prop
  | literal {s t} : SamePart (.Simple (.Literal s)) (.Simple (.Literal t))
  | single {s t} : SamePart (.SingleQuoted s) (.SingleQuoted t)
  | double {s t} : SamePart (.DoubleQuoted s) (.DoubleQuoted t)

mutual

/-- A fragment of a word; `q`: in double quotes or in a here-document. No text is empty; in quotes there
are no patterns, and only what is special there is escaped. -/
inductive NfSimple : (q : Bool) → TSimple → Prop
  | literal {q s} : s ≠ [] → NfSimple q (.Literal s)
  | escaped {s} : s ≠ [] → NfSimple false (.Escaped s)
  | escapedQuoted {s} : s ∈ escapable → NfSimple true (.Escaped s)
  | param {q p} : NfParam p → NfSimple q (.Param p)
  | subst {q s} : NfSubst s → NfSimple q (.Subst s)
  | pattern {s} : s ∈ [SimpleWord.Star, .Question, .SquareOpen, .SquareClose, .Tilde, .Colon] → NfSimple false s

/-- A substitution. -/
inductive NfSubst : ParameterSubstitution (Parameter Str) TWord TCommand (Arithmetic Str) → Prop
  | command {cs} : (∀ c ∈ cs, NfCommand c) → NfSubst (.Command cs)
  | len {p} : NfParam p → NfSubst (.Len p)
  | arith {a} : NfSubst (.Arith a)
  | default {c p w} : NfParam p → (∀ x ∈ w, NfWord x) → NfSubst (.Default c p w)
  | assign {c p w} : NfParam p → (∀ x ∈ w, NfWord x) → NfSubst (.Assign c p w)
  | error {c p w} : NfParam p → (∀ x ∈ w, NfWord x) → NfSubst (.Error c p w)
  | alternative {c p w} : NfParam p → (∀ x ∈ w, NfWord x) → NfSubst (.Alternative c p w)
  | smallestSuffix {p w} : NfParam p → (∀ x ∈ w, NfWord x) → NfSubst (.RemoveSmallestSuffix p w)
  | largestSuffix {p w} : NfParam p → (∀ x ∈ w, NfWord x) → NfSubst (.RemoveLargestSuffix p w)
  | smallestPrefix {p w} : NfParam p → (∀ x ∈ w, NfWord x) → NfSubst (.RemoveSmallestPrefix p w)
  | largestPrefix {p w} : NfParam p → (∀ x ∈ w, NfWord x) → NfSubst (.RemoveLargestPrefix p w)

/-- A part of a word. -/
inductive NfPart : TPart → Prop
  | simple {s} : NfSimple false s → NfPart (.Simple s)
  | double {ss} : (∀ s ∈ ss, NfSimple true s) → NfPart (.DoubleQuoted ss)
  | single {s} : NfPart (.SingleQuoted s)

/-- A word: one part (if it is double quoted, without neighbouring literals), or at least two, no two
neighbours of the same kind. -/
inductive NfWord : TWord → Prop
  | single {w} : NfPart w → (∀ ss, w = .DoubleQuoted ss → ss.IsChain fun a b => ¬ BothText a b) →
      NfWord ⟨.Single w⟩
  | concat {ws} : 2 ≤ ws.length → (∀ w ∈ ws, NfPart w) → (ws.IsChain fun a b => ¬ SamePart a b) →
      NfWord ⟨.Concat ws⟩

/-- The body of a here-document: text (only here it can be empty), a fragment, or at least two, no two
neighbouring literals. -/
inductive NfBody : TWord → Prop
  | text {s} : NfBody ⟨.Single (.Simple (.Literal s))⟩
  | single {s} : NfSimple true s → NfBody ⟨.Single (.Simple s)⟩
  | concat {ss : List TSimple} : 2 ≤ ss.length → (∀ s ∈ ss, NfSimple true s) → (ss.IsChain fun a b => ¬ BothText a b) →
      NfBody ⟨.Concat (ss.map .Simple)⟩

/-- A redirection. -/
inductive NfRedirect : Redirect TWord → Prop
  | read {fd w} : NfFd fd → NfWord w → NfRedirect (.Read fd w)
  | write {fd w} : NfFd fd → NfWord w → NfRedirect (.Write fd w)
  | readWrite {fd w} : NfFd fd → NfWord w → NfRedirect (.ReadWrite fd w)
  | append {fd w} : NfFd fd → NfWord w → NfRedirect (.Append fd w)
  | clobber {fd w} : NfFd fd → NfWord w → NfRedirect (.Clobber fd w)
  | dupRead {fd w} : NfFd fd → NfWord w → NfRedirect (.DupRead fd w)
  | dupWrite {fd w} : NfFd fd → NfWord w → NfRedirect (.DupWrite fd w)
  | heredoc {fd w} : NfFd fd → NfBody w → NfRedirect (.Heredoc fd w)

/-- What is before the command word: redirections and assignments to variables with names. -/
inductive NfEnv : RedirectOrEnvVar (Redirect TWord) Str TWord → Prop
  | redirect {r} : NfRedirect r → NfEnv (.Redirect r)
  | envVar {x w} : x ≠ [] → (∀ v ∈ w, NfWord v) → NfEnv (.EnvVar x w)

/-- The command word and what is after it. -/
inductive NfArg : RedirectOrCmdWord (Redirect TWord) TWord → Prop
  | redirect {r} : NfRedirect r → NfArg (.Redirect r)
  | word {w} : NfWord w → NfArg (.CmdWord w)

/-- Non-empty lists of commands. -/
inductive NfCommands : List TCommand → Prop
  | mk {cs} : cs ≠ [] → (∀ c ∈ cs, NfCommand c) → NfCommands cs

/-- A compound command: no group of commands is empty, an `if` has a condition, every pattern list of a
`case` has a pattern (its bodies may be empty), a `for` has a variable. -/
inductive NfKind : CompoundCommandKind Str TWord TCommand → Prop
  | brace {cs} : NfCommands cs → NfKind (.Brace cs)
  | subshell {cs} : NfCommands cs → NfKind (.Subshell cs)
  | whileLoop {g b} : NfCommands g → NfCommands b → NfKind (.While ⟨g, b⟩)
  | untilLoop {g b} : NfCommands g → NfCommands b → NfKind (.Until ⟨g, b⟩)
  | ifThen {conds e} : conds ≠ [] → (∀ p ∈ conds, NfCommands p.guard) → (∀ p ∈ conds, NfCommands p.body) →
      (∀ cs ∈ e, NfCommands cs) → NfKind (.If conds e)
  | forLoop {x ws b} : x ≠ [] → (∀ l ∈ ws, ∀ w ∈ l, NfWord w) → NfCommands b → NfKind (.For x ws b)
  | case {w arms} : NfWord w → (∀ a ∈ arms, a.patterns ≠ []) → (∀ a ∈ arms, ∀ p ∈ a.patterns, NfWord p) →
      (∀ a ∈ arms, ∀ c ∈ a.body, NfCommand c) →
      NfKind (.Case w arms)

/-- A compound command with its redirections. -/
inductive NfCompound : TCompound → Prop
  | mk {k io} : NfKind k → (∀ r ∈ io, NfRedirect r) → NfCompound ⟨k, io⟩

/-- A command of a pipeline. A simple command is not empty, and its second list, if not empty, starts with the
command word (a redirection before it is in the first list). The body of a function may be an empty
subshell (`function f (⏎)`). -/
inductive NfPipeable : TPipeable → Prop
  | simple {es as} : es ≠ [] ∨ as ≠ [] → (∀ e ∈ es, NfEnv e) → (∀ a ∈ as, NfArg a) →
      (∀ a, as.head? = some a → ∃ w, a = .CmdWord w) → NfPipeable (.Simple ⟨es, as⟩)
  | compound {c} : NfCompound c → NfPipeable (.Compound c)
  | function {f c} : f ≠ [] → NfCompound c → NfPipeable (.FunctionDef f c)
  | emptyFunction {f} : f ≠ [] → NfPipeable (.FunctionDef f ⟨.Subshell [], []⟩)

/-- A pipeline: one command, or more, or one with `!`. -/
inductive NfListable : ListableCommand TPipeable → Prop
  | single {c} : NfPipeable c → NfListable (.Single c)
  | pipe {bang cs} : cs ≠ [] → (bang = false → 2 ≤ cs.length) → (∀ c ∈ cs, NfPipeable c) → NfListable (.Pipe bang cs)

/-- A command. -/
inductive NfCommand : TCommand → Prop
  | job {l} : NfListable l.first → (∀ c, .And c ∈ l.rest ∨ .Or c ∈ l.rest → NfListable c) → NfCommand ⟨.Job l⟩
  | list {l} : NfListable l.first → (∀ c, .And c ∈ l.rest ∨ .Or c ∈ l.rest → NfListable c) → NfCommand ⟨.List l⟩

end

end Conch.Spec
