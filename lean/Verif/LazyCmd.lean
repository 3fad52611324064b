import Verif.LazyLex
/-!
# How far the parser looks ahead: words and commands
-/
namespace Conch
namespace Lazy
set_option maxRecDepth 4000

variable {B : Builder} {α β σ : Type}
variable {q : List Token} {p : Prop} {Q : α → Prop}

/-- The recursive occurrences: a parameter leaves a strict buffer, a group a weak one, and a
here-document consumes its operator. -/
structure RecLz (q : List Token) (R : Rec CIter B) : Prop where
  group : ∀ {p} d, .Newline ∉ d.reservedTokens → Lz q p (R.group d) (fun _ => False)
  param : ∀ {p}, Lz q p R.param (fun _ => True)
  here : ∀ fd s a s', redirectHeredoc R fd s = (.ok a, s') → ntoks s'.it < ntoks s.it ∧
    ∃ t, s.it.1.abs.toks.head? = some t ∧ (t = .DLess ∨ t = .DLessDash)

macro_rules | `(tactic| lz_lemma2) => `(tactic| ((with_reducible refine RecLz.group (by assumption) _ ?_); decide))
macro_rules | `(tactic| lz_lemma) => `(tactic| exact RecLz.param (by assumption))

section
variable {R : Rec CIter B} (hR : RecLz q R)
include hR

omit hR in
theorem lz_backtickedRaw : Lz q p (backtickedRaw R) (fun _ => True) := by
  unfold backtickedRaw
  refine lz_bind lz_getPos fun pos => lz_bind (lz_eat _) fun _ => lz_bind (Q1 := fun _ => True) ?_ fun r => ?_
  · refine (lz_steps (fun s a s' e => ?_)).weaken fun _ h => h
    cases e
    exact steps_backticked _ _
  · cases r with
    | ok sub =>
      refine lz_bind lz_withIterRestore fun _ => ?_
      lz
    | _ => lz
macro_rules | `(tactic| lz_lemma) => `(tactic| exact lz_backtickedRaw)

theorem lz_wordInterpolatedRaw {o c : Token} {pos : SourcePos} :
    Lz q p (wordInterpolatedRaw R (some (o, c)) pos) (fun _ => True) := by
  unfold wordInterpolatedRaw
  refine lz_bind (Q1 := fun _ => True) (lz_loop (fun _ => False) (fun _ => ?_) False.elim) fun _ => lz_pure id
  unfold interpBody
  lz
macro_rules | `(tactic| lz_lemma) => `(tactic| exact lz_wordInterpolatedRaw (by assumption))

theorem lz_wordLoop {delim : Option Token} :
    Lz q p (loop (wordBody R delim) []) (fun ws => p ∨ ws ≠ []) := by
  refine lz_loop (fun ws => p ∨ ws ≠ []) (fun _ => ?_) (by simp)
  unfold wordBody
  lz
macro_rules | `(tactic| lz_lemma) => `(tactic| exact lz_wordLoop (by assumption))

omit hR in
theorem mkWord_some {C : Type} {ws : List (WordKind C)} : (mkWord ws).isSome = true → ws ≠ [] := by
  rintro h rfl; cases h

theorem lz_wordRawDelim {delim : Option Token} :
    Lz q p (wordRawDelim R delim) (fun r => p ∨ r.isSome = true) := by
  unfold wordRawDelim
  refine lz_bind lz_skipWhitespace fun _ => lz_bind lz_peek fun _ => ?_
  split
  · lz
  · refine lz_bind (lz_wordLoop hR) fun ws => lz_pure ?_
    rintro (h | h)
    · exact .inl (.inl h)
    · exact .inr (mkWord_some h)
macro_rules | `(tactic| lz_lemma) => `(tactic| exact lz_wordRawDelim (by assumption))

theorem lz_wordRaw : Lz q p (wordRaw R) (fun r => p ∨ r.isSome = true) := lz_wordRawDelim hR
macro_rules | `(tactic| lz_lemma) => `(tactic| exact lz_wordRaw (by assumption))

theorem lz_wordPreserve : Lz q p (wordPreserve R) (fun r => p ∨ r.isSome = true) := by
  unfold wordPreserve
  lz
macro_rules | `(tactic| lz_lemma) => `(tactic| exact lz_wordPreserve (by assumption))

theorem lz_word : Lz q p (word R) (fun r => p ∨ r.isSome = true) := by
  unfold word
  lz
macro_rules | `(tactic| lz_lemma) => `(tactic| exact lz_word (by assumption))

omit hR in
theorem lz_parameterInner : Lz q p (parameterInner : P CIter B _) (fun _ => True) := by
  unfold parameterInner
  lz
macro_rules | `(tactic| lz_lemma) => `(tactic| exact lz_parameterInner)

omit hR in
theorem lz_captureLiterals {ws : List (WordKind B.Command)} :
    Lz q p (loop captureLiteralsBody ws : P CIter B _) (fun _ => False) := by
  refine lz_loop (fun _ => False) (fun _ => ?_) False.elim
  unfold captureLiteralsBody
  lz
macro_rules | `(tactic| lz_lemma) => `(tactic| exact lz_captureLiterals)

theorem lz_paramSubstWordRaw {pos : SourcePos} : Lz q p (paramSubstWordRaw R pos) (fun _ => True) := by
  unfold paramSubstWordRaw
  refine lz_bind (Q1 := fun _ => False) (lz_loop (fun _ => False) (fun _ => ?_) False.elim) fun _ => ?_
  · unfold captureWordsBody
    lz
  · lz
macro_rules | `(tactic| lz_lemma) => `(tactic| exact lz_paramSubstWordRaw (by assumption))

theorem lz_paramSubstBodyRaw {d : DefaultParameter} {pos : SourcePos} :
    Lz q p (paramSubstBodyRaw R d pos) (fun _ => True) := by
  unfold paramSubstBodyRaw
  lz
macro_rules | `(tactic| lz_lemma) => `(tactic| exact lz_paramSubstBodyRaw (by assumption))

theorem lz_subshellInternal {e : Bool} : Lz q p (subshellInternal R e) (fun _ => True) := by
  unfold subshellInternal
  lz
macro_rules | `(tactic| lz_lemma) => `(tactic| exact lz_subshellInternal (by assumption))

omit hR in
theorem lz_paramSubstArith : Lz q p (paramSubstArith : P CIter B _) (fun _ => True) := by
  unfold paramSubstArith
  refine lz_bind (lz_eat _) fun _ => lz_bind (lz_eat _) fun _ => lz_bind lz_skipWhitespace fun _ =>
    lz_bind (Q1 := fun _ => True) ?_ fun _ => ?_
  · lz
  · lz
macro_rules | `(tactic| lz_lemma) => `(tactic| exact lz_paramSubstArith)

theorem lz_paramSubstCurly {pos : SourcePos} {d : DefaultParameter} :
    Lz q p (paramSubstCurly R pos d) (fun _ => True) := by
  unfold paramSubstCurly
  lz
macro_rules | `(tactic| lz_lemma) => `(tactic| exact lz_paramSubstCurly (by assumption))

theorem lz_parameterSubstitutionRaw : Lz q p (parameterSubstitutionRaw R) (fun _ => True) := by
  unfold parameterSubstitutionRaw
  lz
macro_rules | `(tactic| lz_lemma) => `(tactic| exact lz_parameterSubstitutionRaw (by assumption))

theorem lz_parameterRaw : Lz q p (parameterRaw R) (fun _ => True) := by
  unfold parameterRaw
  lz

/-! ## Redirections -/

theorem lz_getPath : Lz q p (getPath R) (fun _ => True) := by
  unfold getPath
  lz
macro_rules | `(tactic| lz_lemma) => `(tactic| exact lz_getPath (by assumption))

theorem lz_getDupPath : Lz q p (getDupPath R) (fun _ => True) := by
  unfold getDupPath
  lz
macro_rules | `(tactic| lz_lemma) => `(tactic| exact lz_getDupPath (by assumption))

theorem lz_redirectHeredoc {fd : Option Nat} {Q : B.Redirect → Prop} : Lz q p (redirectHeredoc R fd) Q := by
  unfold Lz
  intro s a s' e
  obtain ⟨h1, t, h2, h3⟩ := hR.here fd s a s' e
  refine ⟨Nat.le_of_lt h1, fun hq hg _ => ?_⟩
  obtain ⟨u, e1, e2⟩ := hg.plain
  cases u with
  | nil =>
    have : ntoks s.it = q.length := by unfold ntoks; rw [e1]; rfl
    omega
  | cons v u =>
    rw [e1] at h2
    cases h2
    have := e2 t (by simp)
    rcases h3 with rfl | rfl <;> simp at this
macro_rules | `(tactic| lz_lemma) => `(tactic| exact lz_redirectHeredoc (Q := fun _ => True) (by assumption))

theorem lz_redirectTail {fd : Option Nat} {op : Token} : Lz q p (redirectTail R fd op) (fun _ => True) := by
  unfold redirectTail
  lz
macro_rules | `(tactic| lz_lemma) => `(tactic| exact lz_redirectTail (by assumption))

theorem lz_redirectFd {fd : Option (Nat × ComplexWordKind B.Command)} (h : fd.isSome = true → p) :
    Lz q p (redirectFd R fd) (fun r => p ∨ r.isSome = true) := by
  unfold redirectFd
  lz

theorem lz_redirect : Lz q p (redirect R) (fun r => p ∨ r.isSome = true) := by
  unfold redirect
  lz
  · exact (lz_redirectFd hR (by simp)).weaken (by simp)
  · exact (lz_redirectFd hR (by simp)).weaken (by simp)
macro_rules | `(tactic| lz_lemma) => `(tactic| exact lz_redirect (by assumption))

theorem lz_redirectList : Lz q p (redirectList R) (fun _ => p) := by
  refine lz_loop (fun _ => p) (fun _ => ?_) id
  unfold redirectListBody
  lz
macro_rules | `(tactic| lz_lemma) => `(tactic| exact lz_redirectList (by assumption))

/-! ## Simple commands -/

theorem lz_simplePrefix : Lz q p (loop (simplePrefixBody R) []) (fun r => p ∨ r.1 ≠ [] ∨ r.2 ≠ none) := by
  refine lz_loop (fun vs => p ∨ vs ≠ []) (fun _ => ?_) (by simp)
  unfold simplePrefixBody
  lz
  refine lz_bind (Q1 := fun _ => True) ?_ fun _ => ?_
  · lz
  · lz
macro_rules | `(tactic| lz_lemma) => `(tactic| exact lz_simplePrefix (by assumption))

theorem lz_simpleArgs {as : List (RedirectOrCmdWord B.Redirect B.Word)} {p' : Prop} (h : p' ∨ as ≠ [] → p) :
    Lz q p (loop (simpleArgsBody R) as) (fun r => p' ∨ r ≠ []) := by
  refine lz_loop (fun as => p' ∨ as ≠ []) (fun _ => ?_) h
  unfold simpleArgsBody
  lz

theorem lz_simpleCommand : Lz q p (simpleCommand R) (fun _ => True) := by
  unfold simpleCommand
  refine lz_bind (lz_simplePrefix hR) fun r => ?_
  obtain ⟨vs, e⟩ := r
  refine lz_bind (lz_simpleArgs (p' := p ∨ vs ≠ []) hR ?_) fun as => ?_
  · cases e <;> simp
  · split
    · lz
    · rename_i h
      refine (lz_call _).weaken fun _ _ => ?_
      by_cases hv : vs = []
      · exact .inr fun ha => h (by simp [hv, ha])
      · exact .inl (.inr hv)
macro_rules | `(tactic| lz_lemma) => `(tactic| exact lz_simpleCommand (by assumption))

/-! ## Compound commands -/

theorem lz_commandGroup {d : Delims} (h : .Newline ∉ d.reservedTokens) : Lz q p (commandGroup R d) (fun _ => False) := by
  unfold commandGroup
  refine lz_bind (hR.group d h) fun _ => ?_
  lz
macro_rules | `(tactic| lz_lemma2) => `(tactic| ((with_reducible refine lz_commandGroup (by assumption) ?_); decide))

omit hR in
theorem lz_reservedWordOrUnexpected (ws : List Str) :
    Lz q p (reservedWordOrUnexpected ws : P CIter B _) (fun _ => True) := by
  unfold reservedWordOrUnexpected
  lz
macro_rules | `(tactic| lz_lemma) => `(tactic| exact lz_reservedWordOrUnexpected _)

omit hR in
theorem lz_reservedWordOrIncomplete (ws : List Str) (c : Str) (s : SourcePos) (k : Str) :
    Lz q p (reservedWordOrIncomplete ws c s k : P CIter B _) (fun _ => True) := by
  unfold reservedWordOrIncomplete
  lz
macro_rules | `(tactic| lz_lemma) => `(tactic| exact lz_reservedWordOrIncomplete _ _ _ _)

theorem lz_doGroup : Lz q p (doGroup R) (fun _ => True) := by
  unfold doGroup
  lz
macro_rules | `(tactic| lz_lemma) => `(tactic| exact lz_doGroup (by assumption))

theorem lz_braceGroup : Lz q p (braceGroup R) (fun _ => True) := by
  unfold braceGroup
  lz
macro_rules | `(tactic| lz_lemma) => `(tactic| exact lz_braceGroup (by assumption))

theorem lz_subshell : Lz q p (subshell R) (fun _ => True) := lz_subshellInternal hR
macro_rules | `(tactic| lz_lemma) => `(tactic| exact lz_subshell (by assumption))

omit hR in
theorem lz_nextCompoundCommandType : Lz q p (nextCompoundCommandType : P CIter B _) (fun _ => False) := by
  unfold nextCompoundCommandType
  lz
macro_rules | `(tactic| lz_lemma) => `(tactic| exact lz_nextCompoundCommandType)

theorem lz_loopCommand : Lz q p (loopCommand R) (fun _ => True) := by
  unfold loopCommand
  refine lz_bind lz_getPos fun _ => lz_bind (lz_reservedWordOrUnexpected _) fun w =>
    lz_bind (Q1 := fun _ => True) ?_ fun _ => ?_
  · lz
  · lz
macro_rules | `(tactic| lz_lemma) => `(tactic| exact lz_loopCommand (by assumption))

theorem lz_ifCommand : Lz q p (ifCommand R) (fun _ => True) := by
  unfold ifCommand
  refine lz_bind lz_getPos fun _ => lz_bind (lz_reservedWordOrUnexpected _) fun w =>
    lz_loop (fun _ => True) (fun _ => ?_) id
  unfold ifBody
  lz
macro_rules | `(tactic| lz_lemma) => `(tactic| exact lz_ifCommand (by assumption))

omit hR in
theorem lz_identifier (n : Nat) : Lz q p (identifier n : P CIter B _) (fun _ => True) := by
  unfold identifier
  lz
macro_rules | `(tactic| lz_lemma) => `(tactic| exact lz_identifier _)

theorem lz_words : Lz q p (loop (wordsBody R) []) (fun _ => p) := by
  refine lz_loop (fun _ => p) (fun _ => ?_) id
  unfold wordsBody
  lz
macro_rules | `(tactic| lz_lemma) => `(tactic| exact lz_words (by assumption))

theorem lz_forWords {pos : SourcePos} {c : List Nl} : Lz q p (forWords R pos c) (fun _ => False) := by
  unfold forWords
  lz
macro_rules | `(tactic| lz_lemma) => `(tactic| exact lz_forWords (by assumption))

theorem lz_forCommand : Lz q p (forCommand R) (fun _ => True) := by
  unfold forCommand
  lz
macro_rules | `(tactic| lz_lemma) => `(tactic| exact lz_forCommand (by assumption))

omit hR in
theorem lz_missingEsac {pos : SourcePos} : Lz q p (missingEsac pos : P CIter B α) Q := by
  unfold missingEsac
  lz
macro_rules | `(tactic| lz_lemma) => `(tactic| exact lz_missingEsac (Q := fun _ => True))

theorem lz_patterns {pos : SourcePos} : Lz q p (loop (patternBody R pos) []) (fun _ => True) := by
  refine lz_loop (fun _ => False) (fun _ => ?_) False.elim
  unfold patternBody
  lz
macro_rules | `(tactic| lz_lemma) => `(tactic| exact lz_patterns (by assumption))

theorem lz_arms {pos : SourcePos} : Lz q p (loop (armBody R pos) []) (fun _ => False) := by
  refine lz_loop (fun _ => False) (fun _ => ?_) False.elim
  unfold armBody
  lz
macro_rules | `(tactic| lz_lemma) => `(tactic| exact lz_arms (by assumption))

theorem lz_caseCommand : Lz q p (caseCommand R) (fun _ => True) := by
  unfold caseCommand
  lz
macro_rules | `(tactic| lz_lemma) => `(tactic| exact lz_caseCommand (by assumption))

theorem lz_compoundCommandKw (k : Option CompoundKw) : Lz q p (compoundCommandKw R k) (fun _ => True) := by
  rcases k with _ | _ | _ | _ | _ | _ | _ | _ <;> unfold compoundCommandKw <;> lz
macro_rules | `(tactic| lz_lemma) => `(tactic| exact lz_compoundCommandKw (by assumption) _)

theorem lz_compoundCommand : Lz q p (compoundCommand R) (fun _ => True) := by
  unfold compoundCommand
  lz
macro_rules | `(tactic| lz_lemma) => `(tactic| exact lz_compoundCommand (by assumption))

/-! ## Functions -/

omit hR in
theorem lz_eatWhitespace : Lz q p (eatWhitespace : P CIter B _) (fun _ => True) := by
  unfold eatWhitespace
  lz
macro_rules | `(tactic| lz_lemma) => `(tactic| exact lz_eatWhitespace)

omit hR in
theorem lz_parens : Lz q p (parens : P CIter B _) (fun _ => True) := by
  unfold parens
  lz
macro_rules | `(tactic| lz_lemma) => `(tactic| exact lz_parens)

theorem lz_functionBodyStart {b : Bool} : Lz q p (functionBodyStart R b) (fun r => r.isSome = true) := by
  unfold functionBodyStart
  lz
macro_rules | `(tactic| lz_lemma) => `(tactic| exact lz_functionBodyStart (by assumption))

theorem lz_functionDeclarationInternal : Lz q p (functionDeclarationInternal R) (fun _ => True) := by
  unfold functionDeclarationInternal
  refine lz_bind (Q1 := fun _ => False) ?_ fun _ => ?_
  · lz
  · lz
macro_rules | `(tactic| lz_lemma) => `(tactic| exact lz_functionDeclarationInternal (by assumption))

theorem lz_functionDeclaration : Lz q p (functionDeclaration R) (fun _ => True) := by
  unfold functionDeclaration
  lz
macro_rules | `(tactic| lz_lemma) => `(tactic| exact lz_functionDeclaration (by assumption))

theorem lz_maybeFunctionDeclaration : Lz q p (maybeFunctionDeclaration R) (fun r => r.isSome = true) := by
  unfold maybeFunctionDeclaration
  lz
macro_rules | `(tactic| lz_lemma) => `(tactic| exact lz_maybeFunctionDeclaration (by assumption))

/-! ## Commands, pipelines, lists -/

theorem lz_command : Lz q p (command R) (fun _ => True) := by
  unfold command
  lz
macro_rules | `(tactic| lz_lemma) => `(tactic| exact lz_command (by assumption))

theorem lz_pipelineLoop : Lz q p (loop (pipelineBody R) []) (fun _ => True) := by
  refine lz_loop (fun _ => False) (fun _ => ?_) False.elim
  unfold pipelineBody
  lz
macro_rules | `(tactic| lz_lemma) => `(tactic| exact lz_pipelineLoop (by assumption))

theorem lz_pipeline : Lz q p (pipeline R) (fun _ => True) := by
  unfold pipeline
  lz
macro_rules | `(tactic| lz_lemma) => `(tactic| exact lz_pipeline (by assumption))

theorem lz_andOrLoop : Lz q True (loop (andOrBody R) []) (fun _ => True) := by
  refine lz_loop (fun _ => True) (fun _ => ?_) id
  unfold andOrBody
  lz
macro_rules | `(tactic| lz_lemma) => `(tactic| exact lz_andOrLoop (by assumption))

theorem lz_andOrList : Lz q p (andOrList R) (fun _ => True) := by
  unfold andOrList
  lz
macro_rules | `(tactic| lz_lemma) => `(tactic| exact lz_andOrList (by assumption))

omit hR in
theorem lz_separator : Lz q p (separator : P CIter B _) (fun _ => p) := by
  unfold separator
  lz
macro_rules | `(tactic| lz_lemma) => `(tactic| exact lz_separator)

theorem lz_completeCommandWithComments {c : List Nl} : Lz q p (completeCommandWithComments R c) (fun _ => True) := by
  unfold completeCommandWithComments
  lz
macro_rules | `(tactic| lz_lemma) => `(tactic| exact lz_completeCommandWithComments (by assumption))

omit hR in
theorem lz_foundDelim {d : Delims} (h : .Newline ∉ d.reservedTokens) :
    Lz q p (foundDelim d : P CIter B _) (fun _ => False) := by
  unfold foundDelim
  refine lz_bind (Q1 := fun _ => False) ?_ fun _ => ?_
  · lz
  · lz
    refine lz_bind (lz_peekReservedToken h) fun _ => ?_
    lz

theorem lz_commandGroupInternal {d : Delims} (h : .Newline ∉ d.reservedTokens) :
    Lz q p (commandGroupInternal R d) (fun _ => False) := by
  refine lz_loop (fun _ => False) (fun _ => ?_) False.elim
  unfold groupBody
  refine lz_bind (lz_foundDelim h) fun _ => ?_
  split
  · lz
  · refine lz_bind lz_linebreak fun _ => lz_bind (Q1 := fun _ => False) ?_ fun _ => ?_
    · refine lz_bind (lz_foundDelim h) fun _ => ?_
      lz
    · lz

end
end Lazy
end Conch
