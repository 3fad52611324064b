import Verif.PropsParse
/-!
# Property C44: references to builders and boxed builders (`src/ast/builder.rs`)
-/
namespace Conch

/-- The methods of `impl_builder_body!`, builder.rs:464-579: each is passed on. -/
def Builder.forwardCall (B : Builder) : (c : Call B.toBTypes) → B.State → BOut B.Error c.Ret × B.State
  | .completeCommand preCmdComments list separator cmdComment, b =>
    B.call (.completeCommand preCmdComments list separator cmdComment) b
  | .andOrList first rest, b => B.call (.andOrList first rest) b
  | .pipeline bang cmds, b => B.call (.pipeline bang cmds) b
  | .simpleCommand redirectsOrEnvVars redirectsOrCmdWords, b =>
    B.call (.simpleCommand redirectsOrEnvVars redirectsOrCmdWords) b
  | .braceGroup cmds redirects, b => B.call (.braceGroup cmds redirects) b
  | .subshell cmds redirects, b => B.call (.subshell cmds redirects) b
  | .loopCommand kind guardBodyPair redirects, b => B.call (.loopCommand kind guardBodyPair redirects) b
  | .ifCommand fragments redirects, b => B.call (.ifCommand fragments redirects) b
  | .forCommand fragments redirects, b => B.call (.forCommand fragments redirects) b
  | .caseCommand fragments redirects, b => B.call (.caseCommand fragments redirects) b
  | .compoundCommandIntoPipeable cmd, b => B.call (.compoundCommandIntoPipeable cmd) b
  | .functionDeclaration name postNameComments body, b =>
    B.call (.functionDeclaration name postNameComments body) b
  | .comments comments, b => B.call (.comments comments) b
  | .word kind, b => B.call (.word kind) b
  | .redirect kind, b => B.call (.redirect kind) b

/-- `impl Builder for &mut T` and `impl Builder for Box<T>`, builder.rs:453-589: the types are those of the
builder (455-462), the state is what is behind the pointer. -/
def Builder.forward (B : Builder) : Builder := ⟨B.toBTypes, B.State, B.forwardCall⟩

theorem Builder.forwardCall_eq (B : Builder) : B.forwardCall = B.call := by
  funext c b
  cases c <;> rfl

/-- **C44.** A parser with a reference to a builder, or with a boxed builder, behaves as one with the builder:
every method returns the same, reads the same and leaves the builder in the same state. -/
theorem C44_forwarded_builder (B : Builder) (m : Method) (it : CIter) (b : B.State) :
    (m.run (⟨it, b⟩ : PSt CIter B.forward)).1 = (m.run (⟨it, b⟩ : PSt CIter B)).1 ∧
    (m.run (⟨it, b⟩ : PSt CIter B.forward)).2.it = (m.run (⟨it, b⟩ : PSt CIter B)).2.it ∧
    (m.run (⟨it, b⟩ : PSt CIter B.forward)).2.b = (m.run (⟨it, b⟩ : PSt CIter B)).2.b := by
  have key : ∀ f : (c : Call B.toBTypes) → B.State → BOut B.Error c.Ret × B.State, f = B.call →
      (m.run (⟨it, b⟩ : PSt CIter ⟨B.toBTypes, B.State, f⟩)).1 = (m.run (⟨it, b⟩ : PSt CIter B)).1 ∧
      (m.run (⟨it, b⟩ : PSt CIter ⟨B.toBTypes, B.State, f⟩)).2.it = (m.run (⟨it, b⟩ : PSt CIter B)).2.it ∧
      (m.run (⟨it, b⟩ : PSt CIter ⟨B.toBTypes, B.State, f⟩)).2.b = (m.run (⟨it, b⟩ : PSt CIter B)).2.b := by
    rintro _ rfl
    exact ⟨rfl, rfl, rfl⟩
  exact key _ B.forwardCall_eq

/-- **C44.** The same for the iterator over the commands: it yields the same, and then is in the same state and does the
same. -/
theorem C44_forwarded_iterator (B : Builder) (it : CIter) (b : B.State)
    (xs : List (Except (ParseError B.Error) B.Command)) (q : Option (PSt CIter B)) :
    (Yields (⟨some ⟨it, b⟩⟩ : ParserIterator CIter B.forward) xs ⟨q.map fun s => ⟨s.it, s.b⟩⟩ ↔
      Yields (⟨some ⟨it, b⟩⟩ : ParserIterator CIter B) xs ⟨q⟩) ∧
    (ParserIterator.next (⟨q.map fun s => ⟨s.it, s.b⟩⟩ : ParserIterator CIter B.forward)).1 =
      (ParserIterator.next (⟨q⟩ : ParserIterator CIter B)).1 := by
  have key : ∀ f : (c : Call B.toBTypes) → B.State → BOut B.Error c.Ret × B.State, f = B.call →
      (Yields (⟨some ⟨it, b⟩⟩ : ParserIterator CIter ⟨B.toBTypes, B.State, f⟩) xs ⟨q.map fun s => ⟨s.it, s.b⟩⟩ ↔
        Yields (⟨some ⟨it, b⟩⟩ : ParserIterator CIter B) xs ⟨q⟩) ∧
      (ParserIterator.next (⟨q.map fun s => ⟨s.it, s.b⟩⟩ : ParserIterator CIter ⟨B.toBTypes, B.State, f⟩)).1 =
        (ParserIterator.next (⟨q⟩ : ParserIterator CIter B)).1 := by
    rintro _ rfl
    have e : (q.map fun s => (⟨s.it, s.b⟩ : PSt CIter ⟨B.toBTypes, B.State, B.call⟩)) = q := by
      cases q <;> rfl
    rw [e]
    exact ⟨Iff.rfl, rfl⟩
  exact key _ B.forwardCall_eq

end Conch
