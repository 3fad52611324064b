import Verif.FinalHere
/-!
# Errors that no continuation can repair: commands
-/
namespace Conch
open Spec
namespace Final
set_option maxRecDepth 4000

variable {α β σ : Type}

section
variable {R R' : Rec AIter EmptyBuilder} (hR : RecEx R R')
include hR

theorem ex_redirectTail (fd : Option Nat) (op : Token) :
    Ex (redirectTail R fd op) (redirectTail R' fd op) := by
  unfold redirectTail
  ex
macro_rules | `(tactic| ex_lemma) => `(tactic| exact ex_redirectTail (by assumption) _ _)

theorem ex_redirectFd (fd : Option (Nat × ComplexWordKind Unit)) :
    Ex (redirectFd R fd) (redirectFd R' fd) := by
  unfold redirectFd
  ex
macro_rules | `(tactic| ex_lemma) => `(tactic| exact ex_redirectFd (by assumption) _)

theorem ex_redirect :
    Ex (redirect R) (redirect R') := by
  unfold redirect
  ex
macro_rules | `(tactic| ex_lemma) => `(tactic| exact ex_redirect (by assumption))

theorem ex_redirectList :
    Ex (redirectList R) (redirectList R') := by
  refine ex_loop fun _ => ?_
  unfold redirectListBody
  ex
macro_rules | `(tactic| ex_lemma) => `(tactic| exact ex_redirectList (by assumption))

theorem ex_simplePrefix :
    Ex (loop (simplePrefixBody R) []) (loop (simplePrefixBody R') []) := by
  refine ex_loop fun _ => ?_
  unfold simplePrefixBody
  ex
  refine ex_bind ?_ fun _ => ex_pure
  ex
macro_rules | `(tactic| ex_lemma) => `(tactic| exact ex_simplePrefix (by assumption))

theorem ex_simpleArgs (as : List (RedirectOrCmdWord Unit Unit)) :
    Ex (loop (simpleArgsBody R) as) (loop (simpleArgsBody R') as) := by
  refine ex_loop fun _ => ?_
  unfold simpleArgsBody
  ex
macro_rules | `(tactic| ex_lemma) => `(tactic| exact ex_simpleArgs (by assumption) _)

theorem ex_simpleCommand :
    Ex (simpleCommand R) (simpleCommand R') := by
  unfold simpleCommand
  ex
macro_rules | `(tactic| ex_lemma) => `(tactic| exact ex_simpleCommand (by assumption))

theorem ex_commandGroup {d : Delims} (hd : Token.Newline ∉ d.reservedTokens) :
    Ex (commandGroup R d) (commandGroup R' d) := by
  unfold commandGroup
  refine ex_bind (hR.group d hd) fun _ => ?_
  ex

macro_rules | `(tactic| ex_lemma) => `(tactic| ((refine ex_commandGroup (by assumption) ?_); first | assumption | decide | exact List.not_mem_nil))

omit hR in
theorem ex_reservedWordOrUnexpected (ws : List Str) :
    Ex ((reservedWordOrUnexpected ws : Q _)) (reservedWordOrUnexpected ws) := by
  unfold reservedWordOrUnexpected
  ex
macro_rules | `(tactic| ex_lemma) => `(tactic| exact ex_reservedWordOrUnexpected _)

omit hR in
theorem ex_reservedWordOrIncomplete (ws : List Str) (cmd : Str) (s : SourcePos) (k : Str) :
    Ex ((reservedWordOrIncomplete ws cmd s k : Q _)) (reservedWordOrIncomplete ws cmd s k) := by
  unfold reservedWordOrIncomplete
  ex
macro_rules | `(tactic| ex_lemma) => `(tactic| exact ex_reservedWordOrIncomplete _ _ _ _)

theorem ex_doGroup :
    Ex (doGroup R) (doGroup R') := by
  unfold doGroup
  ex
macro_rules | `(tactic| ex_lemma) => `(tactic| exact ex_doGroup (by assumption))

theorem ex_braceGroup :
    Ex (braceGroup R) (braceGroup R') := by
  unfold braceGroup
  ex
macro_rules | `(tactic| ex_lemma) => `(tactic| exact ex_braceGroup (by assumption))

theorem ex_subshell :
    Ex (subshell R) (subshell R') := by
  exact ex_subshellInternal hR
macro_rules | `(tactic| ex_lemma) => `(tactic| exact ex_subshell (by assumption))

omit hR in
theorem ex_nextCompoundCommandType :
    Ex ((nextCompoundCommandType : Q _)) (nextCompoundCommandType) := by
  unfold nextCompoundCommandType
  ex
macro_rules | `(tactic| ex_lemma) => `(tactic| exact ex_nextCompoundCommandType)

theorem ex_loopCommand :
    Ex (loopCommand R) (loopCommand R') := by
  unfold loopCommand
  refine ex_bind ex_getPos fun _ => ex_bind (ex_reservedWordOrUnexpected _) fun w => ex_bind ?_ fun _ => ?_
  · ex
  · ex
macro_rules | `(tactic| ex_lemma) => `(tactic| exact ex_loopCommand (by assumption))

theorem ex_ifCommand :
    Ex (ifCommand R) (ifCommand R') := by
  unfold ifCommand
  refine ex_bind ex_getPos fun _ => ex_bind (ex_reservedWordOrUnexpected _) fun w => ex_loop fun _ => ?_
  unfold ifBody
  ex
macro_rules | `(tactic| ex_lemma) => `(tactic| exact ex_ifCommand (by assumption))

omit hR in
theorem ex_identifier (n : Nat) :
    Ex ((identifier n : Q _)) (identifier n) := by
  unfold identifier
  ex
macro_rules | `(tactic| ex_lemma) => `(tactic| exact ex_identifier _)

theorem ex_words :
    Ex (loop (wordsBody R) []) (loop (wordsBody R') []) := by
  refine ex_loop fun _ => ?_
  unfold wordsBody
  ex
macro_rules | `(tactic| ex_lemma) => `(tactic| exact ex_words (by assumption))

theorem ex_forWords (pos : SourcePos) (cs : List Nl) :
    Ex (forWords R pos cs) (forWords R' pos cs) := by
  unfold forWords
  ex
macro_rules | `(tactic| ex_lemma) => `(tactic| exact ex_forWords (by assumption) _ _)

theorem ex_forCommand :
    Ex (forCommand R) (forCommand R') := by
  unfold forCommand
  ex
macro_rules | `(tactic| ex_lemma) => `(tactic| exact ex_forCommand (by assumption))

omit hR in
theorem ex_missingEsac {γ : Type} (pos : SourcePos) :
    Ex ((missingEsac pos : Q γ)) (missingEsac pos) := by
  unfold missingEsac
  ex

macro_rules | `(tactic| ex_lemma) => `(tactic| exact ex_missingEsac _)

theorem ex_patterns (pos : SourcePos) :
    Ex (loop (patternBody R pos) []) (loop (patternBody R' pos) []) := by
  refine ex_loop fun _ => ?_
  unfold patternBody
  ex
macro_rules | `(tactic| ex_lemma) => `(tactic| exact ex_patterns (by assumption) _)

theorem ex_arms (pos : SourcePos) :
    Ex (loop (armBody R pos) []) (loop (armBody R' pos) []) := by
  refine ex_loop fun _ => ?_
  unfold armBody
  ex
macro_rules | `(tactic| ex_lemma) => `(tactic| exact ex_arms (by assumption) _)

theorem ex_caseCommand :
    Ex (caseCommand R) (caseCommand R') := by
  unfold caseCommand
  ex
macro_rules | `(tactic| ex_lemma) => `(tactic| exact ex_caseCommand (by assumption))

theorem ex_compoundCommandKw (k : Option CompoundKw) :
    Ex (compoundCommandKw R k) (compoundCommandKw R' k) := by
  rcases k with _ | _ | _ | _ | _ | _ | _ | _ <;> unfold compoundCommandKw <;> ex
macro_rules | `(tactic| ex_lemma) => `(tactic| exact ex_compoundCommandKw (by assumption) _)

theorem ex_compoundCommand :
    Ex (compoundCommand R) (compoundCommand R') := by
  unfold compoundCommand
  ex
macro_rules | `(tactic| ex_lemma) => `(tactic| exact ex_compoundCommand (by assumption))

omit hR in
theorem ex_eatWhitespace :
    Ex ((eatWhitespace : Q _)) (eatWhitespace) := by
  unfold eatWhitespace
  ex
macro_rules | `(tactic| ex_lemma) => `(tactic| exact ex_eatWhitespace)

omit hR in
theorem ex_parens :
    Ex ((parens : Q _)) (parens) := by
  unfold parens
  ex
macro_rules | `(tactic| ex_lemma) => `(tactic| exact ex_parens)

theorem ex_functionBodyStart (b : Bool) :
    Ex (functionBodyStart R b) (functionBodyStart R' b) := by
  unfold functionBodyStart
  ex
macro_rules | `(tactic| ex_lemma) => `(tactic| exact ex_functionBodyStart (by assumption) _)

theorem ex_functionDeclarationInternal :
    Ex (functionDeclarationInternal R) (functionDeclarationInternal R') := by
  unfold functionDeclarationInternal
  refine ex_bind ?_ fun _ => ?_
  · ex
  · ex
macro_rules | `(tactic| ex_lemma) => `(tactic| exact ex_functionDeclarationInternal (by assumption))

theorem ex_functionDeclaration :
    Ex (functionDeclaration R) (functionDeclaration R') := by
  unfold functionDeclaration
  ex
macro_rules | `(tactic| ex_lemma) => `(tactic| exact ex_functionDeclaration (by assumption))

theorem ex_maybeFunctionDeclaration :
    Ex (maybeFunctionDeclaration R) (maybeFunctionDeclaration R') := by
  unfold maybeFunctionDeclaration
  ex
macro_rules | `(tactic| ex_lemma) => `(tactic| exact ex_maybeFunctionDeclaration (by assumption))

theorem ex_command :
    Ex (command R) (command R') := by
  unfold command
  ex
macro_rules | `(tactic| ex_lemma) => `(tactic| exact ex_command (by assumption))

theorem ex_pipelineLoop :
    Ex (loop (pipelineBody R) []) (loop (pipelineBody R') []) := by
  refine ex_loop fun _ => ?_
  unfold pipelineBody
  ex
macro_rules | `(tactic| ex_lemma) => `(tactic| exact ex_pipelineLoop (by assumption))

theorem ex_pipeline :
    Ex (pipeline R) (pipeline R') := by
  unfold pipeline
  ex
macro_rules | `(tactic| ex_lemma) => `(tactic| exact ex_pipeline (by assumption))

theorem ex_andOrLoop :
    Ex (loop (andOrBody R) []) (loop (andOrBody R') []) := by
  refine ex_loop fun _ => ?_
  unfold andOrBody
  ex
macro_rules | `(tactic| ex_lemma) => `(tactic| exact ex_andOrLoop (by assumption))

theorem ex_andOrList :
    Ex (andOrList R) (andOrList R') := by
  unfold andOrList
  ex
macro_rules | `(tactic| ex_lemma) => `(tactic| exact ex_andOrList (by assumption))

omit hR in
theorem ex_separator :
    Ex ((separator : Q _)) (separator) := by
  unfold separator
  ex
macro_rules | `(tactic| ex_lemma) => `(tactic| exact ex_separator)

theorem ex_completeCommandWithComments (cs : List Nl) :
    Ex (completeCommandWithComments R cs) (completeCommandWithComments R' cs) := by
  unfold completeCommandWithComments
  ex
macro_rules | `(tactic| ex_lemma) => `(tactic| exact ex_completeCommandWithComments (by assumption) _)

omit hR in
theorem ex_foundDelim {d : Delims} (hd : Token.Newline ∉ d.reservedTokens) :
    Ex ((foundDelim d : Q _)) (foundDelim d) := by
  unfold foundDelim
  refine ex_bind ?_ fun _ => ?_
  · ex
  · ex

macro_rules | `(tactic| ex_lemma) => `(tactic| exact ex_foundDelim (by assumption))

theorem ex_commandGroupInternal {d : Delims} (hd : Token.Newline ∉ d.reservedTokens) :
    Ex (commandGroupInternal R d) (commandGroupInternal R' d) := by
  refine ex_loop fun _ => ?_
  unfold groupBody
  refine ex_bind (ex_foundDelim hd) fun _ => ?_
  split
  · ex
  · refine ex_bind ex_linebreak fun _ => ex_bind ?_ fun _ => ?_
    · ex
    · ex

theorem ex_completeCommand :
    Ex (completeCommand R) (completeCommand R') := by
  unfold completeCommand
  ex

theorem ex_backtickedCommandSubstitution :
    Ex (backtickedCommandSubstitution R) (backtickedCommandSubstitution R') := by
  unfold backtickedCommandSubstitution
  ex

theorem ex_parameter :
    Ex (parameter R) (parameter R') := by
  unfold parameter
  ex

end

theorem recEx_fix (n n' : Nat) : RecEx (Rec.fix n) (Rec.fix n') := by
  induction n generalizing n' with
  | zero => exact ⟨fun _ _ => ex_outOfFuel, ex_outOfFuel⟩
  | succ n ih =>
    cases n' with
    | zero =>
      have h := ih 0
      exact ⟨fun d hd => (ex_commandGroupInternal h hd).alone, (ex_parameterRaw h).alone⟩
    | succ n' => exact ⟨fun d hd => ex_commandGroupInternal (ih n') hd, ex_parameterRaw (ih n')⟩

theorem ex_run {f : Rec AIter EmptyBuilder → Q α} (h : ∀ R R', RecEx R R' → Ex (f R) (f R')) : Ex (run f) (run f) :=
  ex_len (m1 := fun n => f (Rec.fix n)) (m2 := fun n => f (Rec.fix n)) (k := 1) fun n n' => h _ _ (recEx_fix n n')

end Final
end Conch
