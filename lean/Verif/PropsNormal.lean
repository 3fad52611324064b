import Verif.NormalTree
import Verif.PropsLocal
import Verif.PropsLexer
/-!
# C48: every tree the parser returns is in normal form
-/
namespace Conch
open Spec Gram

/-- What is claimed of the result of a method. -/
def Spec.NfReturns : (m : Method) → m.Ret DefaultBuilder.toBTypes → Prop
  | .completeCommand, a => ∀ c ∈ a, NfCommand c
  | .andOrList, a => NfListable a.first ∧ ∀ c, .And c ∈ a.rest ∨ .Or c ∈ a.rest → NfListable c
  | .pipeline, a => NfListable a
  | .command, a | .simpleCommand, a | .functionDeclaration, a => NfPipeable a
  | .maybeFunctionDeclaration, a => ∀ c ∈ a, NfPipeable c
  | .redirectList, a => ∀ r ∈ a, NfRedirect r
  | .redirect, a => (∀ r, a = some (.inl r) → NfRedirect r) ∧ ∀ w, a = some (.inr w) → NfWord w
  | .redirectHeredoc fd, a => NfFd fd → NfRedirect a
  | .word, a | .wordPreserveTrailingWhitespace, a => ∀ w ∈ a, NfWord w
  | .backtickedCommandSubstitution, a | .parameter, a => NfWord a
  | .doGroup, a | .braceGroup, a | .subshell, a => NfCommands a.commands
  | .commandGroup cfg, a => Gram.Delims.Proper cfg → NfCommands a.commands
  | .compoundCommand, a => NfCompound a
  | .loopCommand, a => NfCommands a.2.guard.commands ∧ NfCommands a.2.body.commands
  | .ifCommand, a => a.conditionals ≠ [] ∧
      (∀ p ∈ a.conditionals, NfCommands p.guard.commands ∧ NfCommands p.body.commands) ∧
      ∀ g ∈ a.elseBranch, NfCommands g.commands
  | .forCommand, a => a.var ≠ [] ∧ (∀ x ∈ a.words, ∀ w ∈ x.2.1, NfWord w) ∧ NfCommands a.body.commands
  | .caseCommand, a => NfWord a.word ∧ ∀ x ∈ a.arms, x.patterns.patternAlternatives ≠ [] ∧
      (∀ w ∈ x.patterns.patternAlternatives, NfWord w) ∧ ∀ c ∈ x.body.commands, NfCommand c
  | _, _ => True

/-- C48: whatever a method returns is in normal form, if every token has text (as those of the lexer have). -/
theorem C48_results_in_normal_form (m : Method) (s : PSt CIter DefaultBuilder) (ht : ∀ t ∈ s.tokens, t.asStr ≠ [])
    (a : m.Ret DefaultBuilder.toBTypes) (h : (m.run s).1 = .ok a) : NfReturns m a := by
  have key : m.InGrammar → Derives m s.b s.tokens a (m.run s).2.tokens (m.run s).2.b :=
    fun hm => C31_parser_within_grammar m hm s a _ _ ⟨h, rfl, rfl⟩
  cases m with
  | skipWhitespace | linebreak | newline | peekReservedToken | peekReservedWord | reservedToken | reservedWord
  | arithmeticSubstitution => trivial
  | backtickedCommandSubstitution =>
    obtain ⟨w, b1, h1, h2⟩ := key trivial
    obtain rfl := calls_eq h2 rfl
    exact word_nf (.single (.simple (reads_nf h1 ht _)))
  | parameter =>
    obtain ⟨w, b1, h1, h2⟩ := key trivial
    obtain rfl := calls_eq h2 rfl
    exact word_nf (.single (.simple (reads_nf h1 ht _)))
  | compoundCommand =>
    obtain ⟨l', kw, h1, -, h2⟩ := key trivial
    exact reads_nf h2 (tokNe_part h1.part ht)
  | maybeFunctionDeclaration =>
    obtain ⟨l', h1, ⟨-, c, rfl, h2⟩ | ⟨-, rfl, -⟩⟩ := key trivial
    · rintro _ ⟨⟩
      exact reads_nf h2 (tokNe_part h1.part ht)
    · rintro _ ⟨⟩
  | commandGroup cfg =>
    intro hc
    obtain ⟨h1, h2⟩ := key hc
    exact .mk h2 (reads_nf h1 ht)
  | subshell =>
    obtain ⟨h1, h2⟩ := reads_nf (key trivial) ht
    exact .mk (h1 rfl) h2
  | _ => exact reads_nf (key trivial) ht

/-- C48: every command of the iterator over a parser of tokens with text is in normal form. -/
theorem yields_nf {s : PSt CIter DefaultBuilder} {xs p} (ht : ∀ t ∈ s.tokens, t.asStr ≠ [])
    (h : Yields ⟨some s⟩ xs p) : ∀ c, Except.ok c ∈ xs → NfCommand c := by
  generalize hp : (⟨some s⟩ : ParserIterator CIter DefaultBuilder) = q at h
  induction h generalizing s with
  | nil => simp
  | @cons q x q' xs q'' h1 h2 ih =>
    subst hp
    intro c hc
    cases x with
    | ok d =>
      obtain ⟨s', rfl, h3⟩ := of_next_some h1
      rcases List.mem_cons.1 hc with hc | hc
      · cases hc
        exact C48_results_in_normal_form .completeCommand s ht _ h3.1 _ rfl
      · exact ih (tokNe_part (top_iff.1 h3).part ht) rfl c hc
    | error e =>
      have : xs = [] := by
        unfold ParserIterator.next at h1
        simp only at h1
        split at h1 <;> cases h1
        cases h2 with
        | nil => rfl
        | cons h => simp [ParserIterator.next] at h
      subst this
      simp at hc

/-- C48: every command that the iterator yields for a source text, also before an error, is in normal
form. -/
theorem C48_trees_in_normal_form (cc : CharClass) (src : Str) (xs : List (Except (ParseError Empty) TCommand)) (p)
    (h : Yields ⟨some (PSt.new (B := DefaultBuilder) (lex cc src) ())⟩ xs p) (c : TCommand) (hc : .ok c ∈ xs) : NfCommand c := by
  refine yields_nf (fun t ht => ?_) h c hc
  rw [show (PSt.new (I := CIter) (B := DefaultBuilder) (lex cc src) ()).tokens = lex cc src from parserOn_rest _ _] at ht
  exact shape_nonempty (C02_token_shapes cc src t ht)

/-- Programs meet the hypotheses: the trees of the example program (all constructs, read by
`C39_round_trip`) are in normal form. -/
example (c : TCommand) (hc : c ∈ exampleProgram.ast) : NfCommand c := by
  obtain ⟨p, h, -⟩ := C39_round_trip ascii ascii_sane ascii_latin exampleProgram example_ok
  exact C48_trees_in_normal_form ascii exampleProgram.text _ p h c (List.mem_map_of_mem hc)

/-- The word of a simple command of one word. -/
def onlyWord : TCommand → Option (ComplexWord TPart)
  | ⟨.List ⟨.Single (.Simple ⟨[], [.CmdWord ⟨w⟩]⟩), []⟩⟩ => some w
  | _ => none

/-- The literals in a double quoted part. -/
def texts : TPart → List Str
  | .DoubleQuoted ss => ss.filterMap fun | .Literal s => some s | _ => none
  | _ => []

/-- The texts of the double quoted parts of the word that a text is. -/
def quotedTexts (src : String) : Option (Bool × List (List Str)) :=
  match (Method.completeCommand.run (PSt.new (I := CIter) (B := DefaultBuilder) (lex ascii src.toList) ())).1 with
  | .ok (some c) => match onlyWord c with
    | some (.Single w) => some (false, [texts w])
    | some (.Concat ws) => some (true, ws.map texts)
    | none => none
  | _ => none

/-- C48, why neighbouring literals are excluded only in a word that is one double quoted part: `"a$"` has one
literal, but after `x` the same quotes have two. -/
theorem C48_quoted_literals_beside_others : quotedTexts "\"a$\"" = some (false, [["a$".toList]]) ∧
    quotedTexts "x\"a$\"" = some (true, [[], ["a".toList, "$".toList]]) := by
  constructor <;> decide +kernel

/-- Functions with an empty body, as the tree shows. -/
def emptyFunction (src : String) : Bool :=
  match (Method.completeCommand.run (PSt.new (I := CIter) (B := DefaultBuilder) (lex ascii src.toList) ())).1 with
  | .ok (some ⟨.List ⟨.Single (.FunctionDef _ ⟨.Subshell [], []⟩), []⟩⟩) => true
  | _ => false

/-- C48, why the body of a function may be an empty subshell. -/
theorem C48_empty_function_body : emptyFunction "function f (\n)" = true := by decide +kernel

end Conch
