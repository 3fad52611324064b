import Verif.PropsAst
import Verif.PropsAfter
import Verif.PropsAlike
import Verif.PropsNl
import Verif.Forward
import Verif.PropsCallOrder
/-!
# Cases for theorems about every input: C31, C33, C44, C51, C56

Each shows that the hypotheses of a theorem hold in a concrete case, and what the theorem says there.
-/
namespace Conch
open Spec Gram

section
variable {B : Builder}

/-- Whether a method succeeds. -/
def succeeds (m : Method) (s : PSt CIter B) : Bool := match (m.run s).1 with | .ok _ => true | _ => false

theorem succeeds_sound {m : Method} {s : PSt CIter B} (h : succeeds m s = true) :
    ∃ a, Parses m s a ((m.run s).2.rest.map (·.2)) (m.run s).2.b := by
  unfold succeeds at h
  split at h
  · exact ⟨_, by assumption, rfl, rfl⟩
  · cases h

end

/-- A parser with the default builder on a text. -/
def onText (src : String) : PSt CIter DefaultBuilder := PSt.new (lex ascii src.toList) ()

/-- Whether a method succeeds and leaves the tokens `r`. -/
def leaves (m : Method) (s : PSt CIter DefaultBuilder) (r : List Token) : Bool :=
  succeeds m s && decide ((m.run s).2.rest.map (·.2) = r)

theorem leaves_sound {m : Method} {s : PSt CIter DefaultBuilder} {r : List Token} (h : leaves m s r = true) :
    ∃ a, Parses m s a r () := by
  simp only [leaves, Bool.and_eq_true, decide_eq_true_eq] at h
  obtain ⟨a, h1, h2, h3⟩ := succeeds_sound h.1
  exact ⟨a, h1, h.2, rfl⟩

/-! ## C31 -/

/-- A case: the grammar derives the first line of this script as a command. -/
example : ∃ a, Derives (B := DefaultBuilder) .completeCommand () (onText "if a; then b $(c) >d; fi &\ne").tokens a [.Name ['e']] () := by
  obtain ⟨a, h⟩ := leaves_sound (m := .completeCommand) (s := onText "if a; then b $(c) >d; fi &\ne")
    (r := [.Name ['e']]) (by decide +kernel)
  exact ⟨a, C31_parser_within_grammar .completeCommand trivial _ _ _ _ h⟩

/-- A case: nothing is derived from an operator that has nothing before it. -/
example : ¬ ∃ a r, Derives (B := DefaultBuilder) .completeCommand () (onText "&& b").tokens a r () := by
  rintro ⟨a, r, h⟩
  have := (C31_parser_accepts_grammar .completeCommand trivial (onText "&& b") a r () h).1
  have h' : succeeds .completeCommand (onText "&& b") = false := by decide +kernel
  unfold succeeds at h'
  rw [this] at h'
  cases h'

/-! ## C33 -/

/-- A case: a list of three pipelines. -/
example : ∃ c rest l, (Method.andOrList.run (onText "a | b && ! c || d")).1 = .ok c ∧ c.rest.length = 2 ∧
    Reads (B := DefaultBuilder) .pipeline () (onText "a | b && ! c || d").tokens c.first l () ∧
    Reads (B := DefaultBuilder) .andOrRest () l rest [] () ∧ c.rest = rest.map (·.2) := by
  obtain ⟨c, h⟩ := leaves_sound (m := .andOrList) (s := onText "a | b && ! c || d") (r := []) (by decide +kernel)
  have hl : (match (Method.andOrList.run (onText "a | b && ! c || d")).1 with
    | .ok c => c.rest.length | _ => 0) = 2 := by decide +kernel
  rw [h.1] at hl
  obtain ⟨rest, l, h1, h2, h3⟩ := C33_list_order _ _ _ _ h
  exact ⟨c, rest, l, h.1, hl, h1, h2, h3⟩

/-- A case: a negated pipeline of two commands. -/
example : ∃ c cs, (Method.pipeline.run (onText "! a | b")).1 = .ok (.Pipe true c) ∧ c = cs.map Prod.snd ∧
    c.length = 2 ∧ Reads (B := DefaultBuilder) .pipelineCmds () (lex ascii " a | b".toList) cs [] () := by
  obtain ⟨c, h⟩ := leaves_sound (m := .pipeline) (s := onText "! a | b") (r := []) (by decide +kernel)
  have hl : (match (Method.pipeline.run (onText "! a | b")).1 with
    | .ok (.Pipe _ c) => c.length | _ => 0) = 2 := by decide +kernel
  have ht : (onText "! a | b").tokens = .Bang :: lex ascii " a | b".toList := by decide +kernel
  rw [h.1] at hl ⊢
  obtain ⟨bang, l, l', cs, h1, h2, h3, h4, h5⟩ := C33_pipe _ _ _ _ h
  rw [ht] at h1
  have h1 := Skip.eq h1 ⟨by simp, by simp⟩
  subst h1
  have hb : bang = true := h2.2 ⟨_, rfl⟩
  subst hb
  rcases h5 with ⟨-, rfl⟩ | ⟨_, _, h, -⟩
  · rcases h3 with h3 | ⟨h3, -⟩
    · cases h3
      exact ⟨_, cs, rfl, rfl, hl, h4⟩
    · cases h3
  · cases h

/-- A case: an assignment, a redirection before and after the command word, and an argument that looks like an
assignment. -/
example : ∃ vars cmd l args, Reads (B := DefaultBuilder) .assigns () (onText "x=1 <i cmd >o y=2").tokens (vars, cmd) l () ∧
    Reads (B := DefaultBuilder) .args () l args [] () ∧ vars.length = 2 ∧
    cmd.toList.length + args.length = 3 := by
  obtain ⟨c, h⟩ := leaves_sound (m := .simpleCommand) (s := onText "x=1 <i cmd >o y=2") (r := []) (by decide +kernel)
  have hl : (match (Method.simpleCommand.run (onText "x=1 <i cmd >o y=2")).1 with
    | .ok (.Simple c) => (c.redirectsOrEnvVars.length, c.redirectsOrCmdWords.length)
    | _ => (0, 0)) = (2, 3) := by decide +kernel
  rw [h.1] at hl
  obtain ⟨vars, cmd, l, args, h1, h2, rfl⟩ := C33_simple_order _ _ _ _ h
  simp only [Prod.mk.injEq] at hl
  exact ⟨vars, cmd, l, args, h1, h2, hl.1, by simpa using hl.2⟩

/-- A case: an `if` command with a redirection. -/
example : ∃ l kw l' c, (Method.compoundCommand.run (onText "if a; then b; else c; fi >o")).1 = .ok c ∧
    CompoundStart l kw ∧ Spec.Records kw l c.kind l' ∧ Reads (B := DefaultBuilder) .redirects () l' c.io [] () ∧
    c.io.length = 1 := by
  obtain ⟨c, h⟩ := leaves_sound (m := .compoundCommand) (s := onText "if a; then b; else c; fi >o") (r := [])
    (by decide +kernel)
  have hl : (match (Method.compoundCommand.run (onText "if a; then b; else c; fi >o")).1 with
    | .ok c => c.io.length | _ => 0) = 1 := by decide +kernel
  rw [h.1] at hl
  obtain ⟨l, kw, l', -, h2, h3, h4⟩ := C33_compound_order _ _ _ _ h
  exact ⟨l, kw, l', c, h.1, h2, h3, h4, hl⟩

/-! ## C44 -/

/-- The number of calls a counting builder got. -/
def callCount (it : CIter) : Nat := (Method.completeCommand.run (⟨it, (0 : Nat)⟩ : PSt CIter counting)).2.b

/-- A case: a builder that counts its calls, behind a reference. -/
example (it : CIter) (h : it = TokStream.ofTokens (lex ascii "a | b $(c)".toList)) :
    (Method.completeCommand.run (⟨it, (0 : Nat)⟩ : PSt CIter counting.forward)).2.b = (13 : Nat) := by
  have hc : callCount (TokStream.ofTokens (lex ascii "a | b $(c)".toList)) = 13 := by decide +kernel
  rw [← h] at hc
  exact (C44_forwarded_builder counting .completeCommand it (0 : Nat)).2.2.trans hc

/-! ## C51 -/

/-- A case: a call that fails in the middle of backticks, in a script without here-documents; what is left is the end
of the script. -/
example : ∃ s, History (onText "echo `${x y}` z\nb\nc\n") s ∧
    (s.rest.map fun x => x.2.asStr).flatten = " z\nb\nc\n".toList ∧
    ∃ pre, "echo `${x y}` z\nb\nc\n".toList = pre ++ " z\nb\nc\n".toList ∧ s.pos = posOf pre := by
  have hf : (match (Method.completeCommand.run (onText "echo `${x y}` z\nb\nc\n")).1 with
    | .err _ => true | _ => false) = true := by decide +kernel
  have hr : ((Method.completeCommand.run (onText "echo `${x y}` z\nb\nc\n")).2.rest.map fun x => x.2.asStr).flatten
    = " z\nb\nc\n".toList := by decide +kernel
  have hh : ∀ t ∈ lex ascii "echo `${x y}` z\nb\nc\n".toList, ¬ HeredocOp t := by
    have : ∀ t ∈ lex ascii "echo `${x y}` z\nb\nc\n".toList, t ≠ .DLess ∧ t ≠ .DLessDash := by decide +kernel
    intro t ht h
    rcases h with h | h
    · exact (this t ht).1 h
    · exact (this t ht).2 h
  generalize hs : onText "echo `${x y}` z\nb\nc\n" = s0 at hf hr ⊢
  generalize e : Method.completeCommand.run s0 = z at hf hr
  obtain ⟨z, s⟩ := z
  cases z with
  | err e' =>
    have hH : History s0 s := .err .completeCommand e .nil
    refine ⟨s, hH, hr, ?_⟩
    rw [← hs] at hH
    obtain ⟨pre, h1, h2⟩ := C51_rest_of_source_partial (B := DefaultBuilder) ascii _ () hh s hH
    exact ⟨pre, by rw [← hr]; exact h1, h2⟩
  | ok => cases hf
  | panic => cases hf
  | fuel => cases hf

/-! ## C56 -/

/-- A case: names, texts and blanks are changed. -/
example : ∃ cs cs', ParsesTo ascii "for i in .; do\techo $i 'x y'; done".toList cs ∧
    ParsesTo ascii "for v in ..; do  print $v 'x y'; done".toList cs' ∧
    cs.length = 1 ∧ cs'.map skeleton = cs.map skeleton := by
  obtain ⟨cs, h1, h2⟩ := commandCount_sound (src := "for i in .; do\techo $i 'x y'; done") (n := 1)
    (by decide +kernel)
  have ha : List.Forall₂ Alike (lex ascii "for i in .; do\techo $i 'x y'; done".toList)
      (lex ascii "for v in ..; do  print $v 'x y'; done".toList) := by
    have e1 : lex ascii "for i in .; do\techo $i 'x y'; done".toList =
        [.Name "for".toList, .Whitespace [' '], .Name ['i'], .Whitespace [' '], .Name "in".toList, .Whitespace [' '],
          .Literal ['.'], .Semi, .Whitespace [' '], .Name "do".toList, .Whitespace ['\t'], .Name "echo".toList,
          .Whitespace [' '], .Dollar, .Name ['i'], .Whitespace [' '], .SingleQuote, .Name ['x'], .Whitespace [' '],
          .Name ['y'], .SingleQuote, .Semi, .Whitespace [' '], .Name "done".toList] := by decide +kernel
    have e2 : lex ascii "for v in ..; do  print $v 'x y'; done".toList =
        [.Name "for".toList, .Whitespace [' '], .Name ['v'], .Whitespace [' '], .Name "in".toList, .Whitespace [' '],
          .Literal ['.', '.'], .Semi, .Whitespace [' '], .Name "do".toList, .Whitespace [' ', ' '],
          .Name "print".toList, .Whitespace [' '], .Dollar, .Name ['v'], .Whitespace [' '], .SingleQuote, .Name ['x'],
          .Whitespace [' '], .Name ['y'], .SingleQuote, .Semi, .Whitespace [' '], .Name "done".toList] := by
      decide +kernel
    rw [e1, e2]
    repeat' first
      | exact .nil
      | refine .cons (.same (by decide) (by decide)) ?_
      | refine .cons (.name (by decide) (by decide) (by decide) (by decide)) ?_
      | refine .cons (.text (by decide) (by decide) (by decide) (by decide)) ?_
      | refine .cons (.blank (by decide) (by decide)) ?_
  obtain ⟨cs', h3, h4⟩ := C56_same_shape ascii _ _ ha cs h1
  exact ⟨cs, cs', h1, h3, h2, h4⟩

end Conch
