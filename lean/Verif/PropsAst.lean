import Verif.PropsGram
import Verif.PropsBuilder
/-!
# C33: what the default syntax trees record
-/
namespace Conch
open Gram (Reads Parses SepAfter CompoundStart)

/-! ## The builder itself -/

/-- **C33.** The only call on which the default builder does not return a tree is a pipeline
without commands (which panics); it never returns an error. -/
theorem C33_builder_total (c : Call DefaultBuilder.toBTypes) :
    (∃ a, DefaultBuilder.call c () = (.ok a, ())) ∨
      ∃ bang, c = .pipeline bang [] ∧ DefaultBuilder.call c () = (.panic, ()) := by
  cases c
  case completeCommand pre list sep cm => left; cases sep <;> exact ⟨_, rfl⟩
  case pipeline bang cs =>
    rcases cs with _ | ⟨c, _ | ⟨c', cs⟩⟩
    · right; refine ⟨bang, rfl, ?_⟩; cases bang <;> rfl
    · left; cases bang <;> exact ⟨_, rfl⟩
    · left; cases bang <;> exact ⟨_, rfl⟩
  case loopCommand k p io => left; cases k <;> exact ⟨_, rfl⟩
  all_goals exact .inl ⟨_, rfl⟩

theorem default_noPanic : Spec.NoPanic DefaultBuilder := by
  intro c b hc h
  rcases C33_builder_total c with ⟨a, ha⟩ | ⟨bang, rfl, -⟩
  · rw [ha] at h; cases h
  · exact hc rfl

/-- **C33.** In a parse the default builder never fails: no parsing method returns a builder error,
and none panics inside the builder. -/
theorem C33_builder_never_fails (m : Method) (s : PSt CIter DefaultBuilder) :
    (∀ e, (m.run s).1 ≠ .err (.Custom e)) ∧ ∀ line, (m.run s).1 = .panic line → line = 1326 :=
  ⟨fun e => e.elim, fun line h => (C14_no_panic_partial m s line h default_noPanic).1⟩

/-! ## Trees and tokens -/

theorem unit_eq (b : DefaultBuilder.State) : b = () := rfl

theorem calls_default {c : Call DefaultBuilder.toBTypes} {b b' : DefaultBuilder.State} {a : c.Ret}
    (h : Gram.Calls c b a b') : stringCore.call c = .ok a := congrArg Prod.fst h

/-- **C33.** A command is recorded as a job if and only if its list is directly followed by `&`; the
list is kept as it is. -/
theorem C33_job (s : PSt CIter DefaultBuilder) (c : TopLevelCommand Str) (r : List Token) (b)
    (h : Parses .completeCommand s (some c) r b) :
    ∃ ns l list l' sep cm, Gram.Lines s.tokens ns l ∧
      Reads (B := DefaultBuilder) .andOr () l list l' () ∧ SepAfter l' sep cm r ∧
      ((∃ l2, l' = .Amp :: l2) ∧ c = .mk (.Job list) ∨
        (¬ ∃ l2, l' = .Amp :: l2) ∧ c = .mk (.List list)) := by
  have h := C31_parser_within_grammar .completeCommand trivial s _ _ _ h
  change Reads (B := DefaultBuilder) .top s.b s.tokens (some c) r b at h
  generalize s.tokens = l0 at h
  generalize s.b = b0 at h
  cases h with
  | topCommand h1 _ h2 =>
    cases h2 with
    | complete h2 h3 h4 =>
      refine ⟨_, _, _, _, _, _, h1, h2, h3, ?_⟩
      have h4 := calls_default h4
      cases h3 with
      | semi _ => exact .inr ⟨by simp, by simpa [Core.call] using h4.symm⟩
      | amp _ => exact .inl ⟨⟨_, rfl⟩, by simpa [Core.call] using h4.symm⟩
      | newline _ h => exact .inr ⟨fun ⟨l2, e⟩ => (h l2).2 e, by simpa [Core.call] using h4.symm⟩
      | other _ _ h => exact .inr ⟨fun ⟨l2, e⟩ => (h l2).2 e, by simpa [Core.call] using h4.symm⟩

/-- **C33.** A list keeps its pipelines and their operators in the order in which they are read. -/
theorem C33_list_order (s : PSt CIter DefaultBuilder) (c) (r : List Token) (b)
    (h : Parses .andOrList s c r b) :
    ∃ rest l, Reads (B := DefaultBuilder) .pipeline () s.tokens c.first l () ∧
      Reads (B := DefaultBuilder) .andOrRest () l rest r () ∧ c.rest = rest.map (·.2) := by
  have h := C31_parser_within_grammar .andOrList trivial s _ _ _ h
  change Reads (B := DefaultBuilder) .andOr s.b s.tokens c r b at h
  generalize s.tokens = l0 at h
  generalize s.b = b0 at h
  cases h with
  | andOr h1 h2 h3 =>
    have h3 := calls_default h3
    simp only [Core.call, BOut.ok.injEq] at h3
    subst h3
    exact ⟨_, _, h1, h2, rfl⟩

/-- **C33.** There is a pipeline node if and only if there is a `!` or more than one command; its
commands are those that are read, in order. -/
theorem C33_pipe (s : PSt CIter DefaultBuilder) (c) (r : List Token) (b)
    (h : Parses .pipeline s c r b) :
    ∃ bang l l' cs, Gram.Skip s.tokens l ∧ (bang = true ↔ ∃ l2, l = .Bang :: l2) ∧
      (l = .Bang :: l' ∨ bang = false ∧ l' = l) ∧
      Reads (B := DefaultBuilder) .pipelineCmds () l' cs r () ∧
      ((bang = true ∨ 2 ≤ cs.length) ∧ c = .Pipe bang (cs.map (·.2)) ∨
        ∃ ns x, bang = false ∧ cs = [(ns, x)] ∧ c = .Single x) := by
  have h := C31_parser_within_grammar .pipeline trivial s _ _ _ h
  change Reads (B := DefaultBuilder) .pipeline s.b s.tokens c r b at h
  generalize s.tokens = l0 at h
  generalize s.b = b0 at h
  cases h with
  | @pipeline _ _ l1 bang l2 cs _ _ _ _ h1 h2 h3 h4 =>
    have h4 := calls_default h4
    have hne : cs ≠ [] := by cases h3 <;> simp
    refine ⟨bang, l1, l2, cs, h1, ?_, ?_, h3, ?_⟩
    · rcases h2 with ⟨rfl, rfl⟩ | ⟨rfl, rfl, h2⟩
      · simp
      · simpa using h2
    · rcases h2 with ⟨rfl, rfl⟩ | ⟨rfl, rfl, h2⟩
      · exact .inl rfl
      · exact .inr ⟨rfl, rfl⟩
    · rcases cs with _ | ⟨⟨ns, x⟩, _ | ⟨y, cs⟩⟩
      · exact absurd rfl hne
      · cases bang
        · exact .inr ⟨ns, x, rfl, rfl, by simpa [Core.call] using h4.symm⟩
        · exact .inl ⟨.inl rfl, by simpa [Core.call] using h4.symm⟩
      · refine .inl ⟨.inr (by simp), ?_⟩
        cases bang <;> simpa [Core.call] using h4.symm

theorem mapEnvVar_id (vs : List (RedirectOrEnvVar (Redirect (TopLevelWord Str)) Str (TopLevelWord Str))) :
    vs.map stringCore.mapEnvVar = vs := by
  have : stringCore.mapEnvVar = _root_.id := by
    funext v; cases v <;> rfl
  rw [this, List.map_id]

/-- **C33.** A simple command keeps its assignments and redirections, and its words and
redirections, in the order in which they are read. -/
theorem C33_simple_order (s : PSt CIter DefaultBuilder) (c) (r : List Token) (b)
    (h : Parses .simpleCommand s c r b) :
    ∃ vars cmd l args, Reads (B := DefaultBuilder) .assigns () s.tokens (vars, cmd) l () ∧
      Reads (B := DefaultBuilder) .args () l args r () ∧
      c = .Simple ⟨vars, cmd.toList.map .CmdWord ++ args⟩ := by
  have h := C31_parser_within_grammar .simpleCommand trivial s _ _ _ h
  change Reads (B := DefaultBuilder) .simple s.b s.tokens c r b at h
  generalize s.tokens = l0 at h
  generalize s.b = b0 at h
  cases h with
  | simple h1 h2 _ h3 =>
    have h3 := calls_default h3
    simp only [Core.call, BOut.ok.injEq] at h3
    refine ⟨_, _, _, _, h1, h2, h3.symm.trans ?_⟩
    congr 2
    exact mapEnvVar_id _

/-- What the tree of a compound command records of the fragments that are read. -/
inductive Spec.Records : CompoundKw → List Token →
    CompoundCommandKind Str (TopLevelWord Str) (TopLevelCommand Str) → List Token → Prop
  | brace {l g r} : Reads (B := DefaultBuilder) .brace () l g r () →
      Records .Brace l (.Brace g.commands) r
  | subshell {l g r} : Reads (B := DefaultBuilder) (.subshell false) () l g r () →
      Records .Subshell l (.Subshell g.commands) r
  | whileLoop {l g r kw} : kw = .While ∨ kw = .Until →
      Reads (B := DefaultBuilder) .loopCommand () l (.While, g) r () →
      Records kw l (.While ⟨g.guard.commands, g.body.commands⟩) r
  | untilLoop {l g r kw} : kw = .While ∨ kw = .Until →
      Reads (B := DefaultBuilder) .loopCommand () l (.Until, g) r () →
      Records kw l (.Until ⟨g.guard.commands, g.body.commands⟩) r
  | ifCommand {l f r} : Reads (B := DefaultBuilder) .ifCommand () l f r () →
      Records .If l (.If (f.conditionals.map fun p => ⟨p.guard.commands, p.body.commands⟩)
        (f.elseBranch.map (·.commands))) r
  | forCommand {l f r} : Reads (B := DefaultBuilder) .forCommand () l f r () →
      Records .For l (.For f.var (f.words.map (·.2.1)) f.body.commands) r
  | caseCommand {l f r} : Reads (B := DefaultBuilder) .caseCommand () l f r () →
      Records .Case l (.Case f.word (f.arms.map fun a => ⟨a.patterns.patternAlternatives, a.body.commands⟩)) r

/-- **C33.** A compound command keeps its parts and its redirections in the order in which they are
read; only comments are dropped. -/
theorem C33_compound_order (s : PSt CIter DefaultBuilder) (c) (r : List Token) (b)
    (h : Parses .compoundCommand s c r b) :
    ∃ l kw l', Gram.Skip s.tokens l ∧ CompoundStart l kw ∧ Spec.Records kw l c.kind l' ∧
      Reads (B := DefaultBuilder) .redirects () l' c.io r () := by
  obtain ⟨l, kw, h1, h2, h⟩ := C31_parser_within_grammar .compoundCommand trivial s _ _ _ h
  change Reads (B := DefaultBuilder) (.compound kw) s.b l c r b at h
  generalize s.b = b0 at h
  refine ⟨l, kw, ?_⟩
  cases h with
  | compoundIf h3 h4 h5 =>
    have h5 := calls_default h5
    simp only [Core.call, BOut.ok.injEq] at h5; subst h5
    exact ⟨_, h1, h2, .ifCommand h3, h4⟩
  | @compoundLoop _ _ _ k _ _ _ _ _ _ _ _ hk h3 h4 h5 =>
    have h5 := calls_default h5
    cases k <;> simp only [Core.call, BOut.ok.injEq] at h5 <;> subst h5
    · exact ⟨_, h1, h2, .whileLoop hk h3, h4⟩
    · exact ⟨_, h1, h2, .untilLoop hk h3, h4⟩
  | compoundFor h3 h4 h5 =>
    have h5 := calls_default h5
    simp only [Core.call, BOut.ok.injEq] at h5; subst h5
    exact ⟨_, h1, h2, .forCommand h3, h4⟩
  | compoundCase h3 h4 h5 =>
    have h5 := calls_default h5
    simp only [Core.call, BOut.ok.injEq] at h5; subst h5
    exact ⟨_, h1, h2, .caseCommand h3, h4⟩
  | compoundBrace h3 h4 h5 =>
    have h5 := calls_default h5
    simp only [Core.call, BOut.ok.injEq] at h5; subst h5
    exact ⟨_, h1, h2, .brace h3, h4⟩
  | compoundSubshell h3 h4 h5 =>
    have h5 := calls_default h5
    simp only [Core.call, BOut.ok.injEq] at h5; subst h5
    exact ⟨_, h1, h2, .subshell h3, h4⟩

/-- Whether the command is a job; whether it has a `!`; how many commands its first pipeline node
has. -/
def Spec.shapeOf : Option (TopLevelCommand Str) → List (Bool × Bool × Nat)
  | some (.mk (.Job ⟨.Pipe bang cs, _⟩)) => [(true, bang, cs.length)]
  | some (.mk (.List ⟨.Pipe bang cs, _⟩)) => [(false, bang, cs.length)]
  | _ => []

/-- The hypotheses are met: `! a | b &` is a job of a negated pipeline with two commands. -/
example : (match (Method.completeCommand.run
    (PSt.new (lex ascii "! a | b &".toList) () : PSt CIter DefaultBuilder)).1 with
    | .ok c => Spec.shapeOf c
    | _ => []) = [(true, true, 2)] := by decide +kernel

end Conch
