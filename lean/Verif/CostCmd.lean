import Verif.CostLex
/-!
# How often the builder is called: words and commands
-/
namespace Conch
open Spec
namespace Cost
set_option maxRecDepth 4000

variable {B : Builder} {M : Meter B} {c : Nat} {α β σ : Type}

/-- The recursive occurrences: a group spends what its tokens are worth, a parameter leaves a token's
worth. -/
structure RecCn (M : Meter B) (R : Rec AIter B) : Prop where
  group : ∀ {c} d, Cn M 5 c (R.group d) (fun _ => c)
  param : ∀ {c}, Cn M 5 c R.param (fun _ => c + 5)

macro_rules | `(tactic| cn_lemma) => `(tactic| exact RecCn.group (by assumption) _)
macro_rules | `(tactic| cn_lemma) => `(tactic| exact RecCn.param (by assumption))

/-- The number of tokens of a stream that is parsed on its own. -/
def subLen : SubIter AIter → Nat
  | .ok i => i.rest.length
  | _ => 0

theorem cn_subIter {w : Nat} (p : SourcePos) : Cn M w c (fun s =>
    let (r, it) := tokenIterFromBackticked s.it p
    (.ok r, { s with it := it }) : P AIter B (SubIter AIter)) (fun r => c + w * subLen r) := by
  unfold Cn
  rintro ⟨⟨l, e⟩, b⟩
  show Within M w _ _ (Res.ok (tokenIterFromBackticked (⟨l, e⟩ : AIter) p).1,
    PSt.mk (tokenIterFromBackticked (⟨l, e⟩ : AIter) p).2 b)
  rcases closed_or_unclosed l .Backtick p (.inr (.inr (.inl rfl))) with ⟨xs, q, ys, rfl, hb⟩ | ⟨er, hu⟩
  · obtain ⟨sub, h1, h2⟩ := subIter_toks hb p q ys e
    have hsl : sub.rest.length ≤ xs.length := by
      have := congrArg List.length h2
      simp [AIter.toks] at this
      rw [this]; exact unescape_length xs
    rw [h1]
    refine within_ok ?_
    show M.μ b + w * ys.length + (c + w * sub.rest.length) ≤ M.μ b + w * (xs ++ (q, .Backtick) :: ys).length + c
    have : ys.length + sub.rest.length ≤ (xs ++ (q, .Backtick) :: ys).length := by simp; omega
    have := Nat.mul_le_mul_left w this
    rw [Nat.mul_add] at this
    omega
  · rw [subIter_unclosed hu e]
    exact within_ok (by show M.μ b + w * 0 + (c + w * 0) ≤ M.μ b + w * l.length + c; omega)

section
variable {R : Rec AIter B} (hR : RecCn M R)
include hR

theorem cn_backtickedRaw : Cn M 5 c (backtickedRaw R) (fun _ => c + 5) := by
  unfold backtickedRaw
  refine cn_bind cn_getPos fun pos => cn_bind (cn_eat _) fun _ => cn_bind (cn_subIter pos) fun r => ?_
  cases r with
  | ok sub =>
    refine cn_bind (cn_withIterRestore (n := sub.rest.length) (Nat.le_refl _) (hR.group _)) fun _ => ?_
    cn
  | _ => cn
macro_rules | `(tactic| cn_lemma) => `(tactic| exact cn_backtickedRaw (by assumption))

theorem cn_wordInterpolatedRaw {o : Option (Token × Token)} {pos : SourcePos} :
    Cn M 5 c (wordInterpolatedRaw R o pos) (fun _ => c) := by
  unfold wordInterpolatedRaw
  refine cn_bind (d1 := fun _ => c) (cn_loop (fun _ => c) fun _ => ?_) fun _ => cn_pure (Nat.le_refl _)
  unfold interpBody
  cn
macro_rules | `(tactic| cn_lemma) => `(tactic| exact cn_wordInterpolatedRaw (by assumption))

theorem cn_wordLoop {delim : Option Token} :
    Cn M 5 c (loop (wordBody R delim) []) (fun ws => c + worthL 5 ws) := by
  refine cn_loop (fun ws => c + worthL 5 ws) (fun ws => ?_)
  have := worthL_le (w := 5) (l := ws)
  unfold wordBody
  cn
macro_rules | `(tactic| cn_lemma) => `(tactic| exact cn_wordLoop (by assumption))

omit hR in
theorem mkWord_worth {C : Type} {ws : List (WordKind C)} : worth 5 (mkWord ws) = worthL 5 ws := by
  match ws with
  | [] => rfl
  | [_] => rfl
  | _ :: _ :: _ => rfl

theorem cn_wordRawDelim {delim : Option Token} :
    Cn M 5 c (wordRawDelim R delim) (fun r => c + worth 5 r) := by
  unfold wordRawDelim
  refine cn_bind cn_skipWhitespace fun _ => cn_bind cn_peek fun _ => ?_
  split
  · cn
  · exact cn_bind (cn_wordLoop hR) fun ws => cn_pure (by rw [mkWord_worth])
macro_rules | `(tactic| cn_lemma) => `(tactic| exact cn_wordRawDelim (by assumption))

theorem cn_wordRaw : Cn M 5 c (wordRaw R) (fun r => c + worth 5 r) := cn_wordRawDelim hR
macro_rules | `(tactic| cn_lemma) => `(tactic| exact cn_wordRaw (by assumption))

theorem cn_wordPreserve : Cn M 5 c (wordPreserve R) (fun r => c + worth 4 r) := by
  unfold wordPreserve
  cn
macro_rules | `(tactic| cn_lemma) => `(tactic| exact cn_wordPreserve (by assumption))

theorem cn_word : Cn M 5 c (word R) (fun r => c + worth 4 r) := by
  unfold word
  cn
macro_rules | `(tactic| cn_lemma) => `(tactic| exact cn_word (by assumption))

omit hR in
theorem cn_parameterInner : Cn M 5 c (parameterInner : P AIter B _) (fun _ => c) := by
  unfold parameterInner
  cn
macro_rules | `(tactic| cn_lemma) => `(tactic| exact cn_parameterInner)

omit hR in
theorem cn_captureLiterals {ws : List (WordKind B.Command)} :
    Cn M 5 c (loop captureLiteralsBody ws : P AIter B _) (fun _ => c) := by
  refine cn_loop (fun _ => c) (fun _ => ?_)
  unfold captureLiteralsBody
  cn
macro_rules | `(tactic| cn_lemma) => `(tactic| exact cn_captureLiterals)

theorem cn_paramSubstWordRaw {pos : SourcePos} : Cn M 5 c (paramSubstWordRaw R pos) (fun _ => c) := by
  unfold paramSubstWordRaw
  refine cn_bind (d1 := fun _ => c) (cn_loop (fun _ => c) (fun _ => ?_)) fun _ => ?_
  · unfold captureWordsBody
    cn
  · cn
macro_rules | `(tactic| cn_lemma) => `(tactic| exact cn_paramSubstWordRaw (by assumption))

theorem cn_paramSubstBodyRaw {d : DefaultParameter} {pos : SourcePos} :
    Cn M 5 c (paramSubstBodyRaw R d pos) (fun _ => c) := by
  unfold paramSubstBodyRaw
  cn
macro_rules | `(tactic| cn_lemma) => `(tactic| exact cn_paramSubstBodyRaw (by assumption))

theorem cn_subshellInternal {e : Bool} : Cn M 5 c (subshellInternal R e) (fun _ => c + 5) := by
  unfold subshellInternal
  cn
macro_rules | `(tactic| cn_lemma) => `(tactic| exact cn_subshellInternal (by assumption))

omit hR in
theorem cn_paramSubstArith : Cn M 5 c (paramSubstArith : P AIter B _) (fun _ => c) := by
  unfold paramSubstArith
  refine cn_bind (cn_eat _) fun _ => cn_bind (cn_eat _) fun _ => cn_bind cn_skipWhitespace fun _ =>
    cn_bind (d1 := fun _ => c) ?_ fun _ => ?_
  · cn
  · cn
macro_rules | `(tactic| cn_lemma) => `(tactic| exact cn_paramSubstArith)

theorem cn_paramSubstCurly {pos : SourcePos} {d : DefaultParameter} :
    Cn M 5 c (paramSubstCurly R pos d) (fun _ => c) := by
  unfold paramSubstCurly
  cn
macro_rules | `(tactic| cn_lemma) => `(tactic| exact cn_paramSubstCurly (by assumption))

theorem cn_parameterSubstitutionRaw : Cn M 5 c (parameterSubstitutionRaw R) (fun _ => c) := by
  unfold parameterSubstitutionRaw
  cn
macro_rules | `(tactic| cn_lemma) => `(tactic| exact cn_parameterSubstitutionRaw (by assumption))

theorem cn_parameterRaw : Cn M 5 c (parameterRaw R) (fun _ => c + 5) := by
  unfold parameterRaw
  cn
macro_rules | `(tactic| cn_lemma) => `(tactic| exact cn_parameterRaw (by assumption))

/-! ## Redirections -/

theorem cn_getPath : Cn M 5 c (getPath R) (fun _ => c + 4) := by
  unfold getPath
  cn
macro_rules | `(tactic| cn_lemma) => `(tactic| exact cn_getPath (by assumption))

theorem cn_getDupPath : Cn M 5 c (getDupPath R) (fun _ => c + 4) := by
  unfold getDupPath
  cn
macro_rules | `(tactic| cn_lemma) => `(tactic| exact cn_getDupPath (by assumption))

omit hR in
theorem cn_delimBody {st : Bool × Str} : Cn M 0 c (loop delimBody st : P AIter B _) (fun _ => c) := by
  refine cn_loop (fun _ => c) (fun _ => ?_)
  unfold delimBody
  refine cn_bind cn_getPos fun _ => cn_bind cn_next fun t => ?_
  split <;> first
    | (refine cn_bind cn_quietScan fun _ => ?_; cn; done)
    | (cn; done)

omit hR in
theorem cn_heredocDelim : Cn M 5 c (heredocDelim : P AIter B _) (fun _ => c + 5) := by
  unfold heredocDelim
  refine cn_bind (d1 := fun ts => c + 5 * ts.length) (cn_loop (fun ts => c + 5 * ts.length) (fun ts => ?_)) fun ts => ?_
  · unfold delimTokensBody
    cn
  · cases ts with
    | nil =>
      have h : (withIterRestore (TokStream.ofTokens []) (loop delimBody (false, [])) : P AIter B _)
          = pure (false, []) := rfl
      rw [h]
      exact cn_unexpected
    | cons t ts =>
      refine cn_bind (cn_quietRestore cn_delimBody) fun r => ?_
      cn
macro_rules | `(tactic| cn_lemma) => `(tactic| exact cn_heredocDelim)

omit hR in
theorem cn_saveLine : Cn M 5 c (loop saveLineBody [] : P AIter B _) (fun ts => c + 5 * ts.length) := by
  refine cn_loop (fun ts => c + 5 * ts.length) (fun ts => ?_)
  unfold saveLineBody
  cn
macro_rules | `(tactic| cn_lemma) => `(tactic| exact cn_saveLine)

/-- What a line is worth. -/
def lineWorth : Option (List Token × SourcePos) → Nat
  | some l => 5 * l.1.length
  | none => 0

omit hR in
@[simp] theorem lineWorth_some {l : List Token × SourcePos} : lineWorth (some l) = 5 * l.1.length := rfl
omit hR in
@[simp] theorem lineWorth_none : lineWorth none = 0 := rfl

omit hR in
theorem cn_stripTabs {l : List Token × SourcePos} :
    Cn M 5 (c + 5 * l.1.length) (stripTabs l : P AIter B _) (fun l => c + 5 * l.1.length) := by
  unfold Cn
  rintro ⟨⟨ts, e⟩, b⟩
  unfold stripTabs
  rw [peek_bind]
  cases ts with
  | nil => exact within_ok (Nat.le_refl _)
  | cons t ts =>
    obtain ⟨p, t⟩ := t
    cases t with
    | Whitespace w =>
      refine within_ok ?_
      show M.μ b + 5 * ts.length + (c + 5 * (if _ then _ else _ : List Token).length) ≤
        M.μ b + 5 * (ts.length + 1) + (c + 5 * l.1.length)
      split <;> simp <;> omega
    | _ => exact within_ok (Nat.le_refl _)
macro_rules | `(tactic| cn_lemma) => `(tactic| exact cn_stripTabs)

omit hR in
theorem cn_hereLine {strip : Bool} {d : Str} {p : SourcePos} :
    Cn M 5 c (loop (heredocLineBody strip d) ([], p) : P AIter B _) (fun l => c + lineWorth l) := by
  refine cn_loop (fun l => c + 5 * l.1.length) (fun l => ?_)
  unfold heredocLineBody
  refine cn_bind (d1 := fun l => c + 5 * l.1.length) ?_ fun l => ?_
  · split
    · exact cn_stripTabs
    · exact cn_pure (Nat.le_refl _)
  · refine cn_bind cn_next fun t => ?_
    split
    · split
      · cn
      · split
        · cn
        · exact cn_pure (by simp)
    · split
      · cn
      · exact cn_pure (by simp; omega)
    · exact cn_pure (by simp; omega)
macro_rules | `(tactic| cn_lemma) => `(tactic| exact cn_hereLine)

omit hR in
theorem cn_hereLines {strip : Bool} {d : Str} :
    Cn M 5 c (loop (heredocBody strip d) [] : P AIter B _) (fun ls => c + 5 * linesLen ls) := by
  refine cn_loop (fun ls => c + 5 * linesLen ls) (fun ls => ?_) (by simp [linesLen])
  unfold heredocBody
  refine cn_bind cn_getPos fun _ => cn_bind cn_hereLine fun l => ?_
  cases l with
  | none => exact cn_pure (by simp)
  | some l => exact cn_pure (by simp [linesLen]; omega)
macro_rules | `(tactic| cn_lemma) => `(tactic| exact cn_hereLines)

theorem cn_redirectHeredoc {fd : Option Nat} : Cn M 5 c (redirectHeredoc R fd) (fun _ => c + 8) := by
  unfold redirectHeredoc
  refine cn_bind (d1 := fun _ => c + 5) ?_ fun strip => ?_
  · cn
  · refine cn_bind cn_skipWhitespace fun _ => cn_bind cn_heredocDelim fun q => ?_
    obtain ⟨quoted, delim⟩ := q
    refine cn_bind cn_getPos fun _ => cn_bind cn_saveLine fun saved => cn_bind cn_getPos fun start =>
      cn_bind (cn_hereLines (c := c + 10 + 5 * saved.length)) fun lines => ?_
    refine cn_bind (d1 := fun _ => c + 10 + 5 * linesLen lines)
      ((cn_bufferFirst (c := c + 10 + 5 * linesLen lines)).mono (by omega) (by simp)) fun _ => ?_
    refine cn_bind (d1 := fun _ => c + 10) ?_ fun _ => ?_
    · split
      · cn
      · refine cn_bind (cn_withIter (n := linesLen lines) (foldr_buffer_len lines start).le
          (cn_wordInterpolatedRaw hR)) fun _ => ?_
        cn
    · cn
macro_rules | `(tactic| cn_lemma) => `(tactic| exact cn_redirectHeredoc (by assumption))

theorem cn_redirectTail {fd : Option Nat} {op : Token} : Cn M 5 c (redirectTail R fd op) (fun _ => c + 3) := by
  unfold redirectTail
  cn
macro_rules | `(tactic| cn_lemma) => `(tactic| exact cn_redirectTail (by assumption))

theorem cn_redirectFd {fd : Option (Nat × ComplexWordKind B.Command)} :
    Cn M 5 (c + worth 5 fd) (redirectFd R fd) (fun r => c + worth 4 r) := by
  unfold redirectFd
  cn

theorem cn_redirect : Cn M 5 c (redirect R) (fun r => c + worth 4 r) := by
  unfold redirect
  refine cn_bind (cn_wordRaw hR) fun r => ?_
  cases r with
  | none => exact cn_redirectFd hR (fd := none)
  | some w =>
    simp only
    split
    · exact cn_redirectFd hR (fd := some _)
    · cn
macro_rules | `(tactic| cn_lemma) => `(tactic| exact cn_redirect (by assumption))

theorem cn_redirectList : Cn M 5 c (redirectList R) (fun _ => c) := by
  refine cn_loop (fun _ => c) (fun _ => ?_)
  unfold redirectListBody
  cn
macro_rules | `(tactic| cn_lemma) => `(tactic| exact cn_redirectList (by assumption))

/-! ## Simple commands -/

/-- What the words of a simple command are worth: nothing if there are none. -/
def simpleWorth {δ : Type} (vs : List α) (as : List δ) : Nat := if vs.isEmpty && as.isEmpty then 0 else 4

theorem cn_simplePrefix : Cn M 5 c (loop (simplePrefixBody R) []) (fun r => c + simpleWorth r.1 r.2.toList) := by
  refine cn_loop (fun vs => c + simpleWorth vs ([] : List Unit)) (fun vs => ?_) (by simp [simpleWorth])
  have h : simpleWorth vs ([] : List Unit) ≤ 4 := by unfold simpleWorth; split <;> omega
  unfold simplePrefixBody
  refine cn_bind cn_skipWhitespace fun _ => cn_bind la_mpAssignment fun _ => ?_
  split
  · refine cn_bind cn_next fun _ => ?_
    split
    · refine cn_bind cn_next fun _ => cn_bind (d1 := fun _ => c + 5) ?_ fun _ => ?_
      · cn
      · refine cn_pure ?_
        simp [simpleWorth]
    · cn
  · refine cn_bind (cn_redirect hR) fun r => ?_
    split <;> refine cn_pure ?_ <;> simp [simpleWorth] at * <;> omega
macro_rules | `(tactic| cn_lemma) => `(tactic| exact cn_simplePrefix (by assumption))

theorem cn_simpleArgs {vs : List α} {as : List (RedirectOrCmdWord B.Redirect B.Word)} :
    Cn M 5 (c + simpleWorth vs as) (loop (simpleArgsBody R) as) (fun r => c + simpleWorth vs r) := by
  refine cn_loop (fun as => c + simpleWorth vs as) (fun as => ?_)
  have h : simpleWorth vs as ≤ 4 := by unfold simpleWorth; split <;> omega
  unfold simpleArgsBody
  refine cn_bind (cn_redirect hR) fun r => ?_
  split <;> refine cn_pure ?_ <;> simp [simpleWorth] at *

theorem cn_simpleCommand : Cn M 5 c (simpleCommand R) (fun _ => c + 3) := by
  unfold simpleCommand
  refine cn_bind (cn_simplePrefix hR) fun r => ?_
  obtain ⟨vs, e⟩ := r
  have h : simpleWorth vs e.toList = simpleWorth vs (e.toList.map (RedirectOrCmdWord.CmdWord (R := B.Redirect))) := by
    cases e <;> rfl
  simp only [h]
  refine cn_bind (cn_simpleArgs hR) fun as => ?_
  split
  · cn
  · rename_i h
    have : simpleWorth vs as = 4 := by unfold simpleWorth; rw [if_neg h]
    rw [this]
    cn
macro_rules | `(tactic| cn_lemma) => `(tactic| exact cn_simpleCommand (by assumption))

/-! ## Compound commands -/

theorem cn_commandGroup {d : Delims} : Cn M 5 c (commandGroup R d) (fun _ => c) := by
  unfold commandGroup
  refine cn_bind (hR.group d) fun _ => ?_
  cn
macro_rules | `(tactic| cn_lemma) => `(tactic| exact cn_commandGroup (by assumption))

omit hR in
theorem cn_reservedWordOrUnexpected (ws : List Str) :
    Cn M 5 c (reservedWordOrUnexpected ws : P AIter B _) (fun _ => c + 5) := by
  unfold reservedWordOrUnexpected
  cn
macro_rules | `(tactic| cn_lemma) => `(tactic| exact cn_reservedWordOrUnexpected _)

omit hR in
theorem cn_reservedWordOrIncomplete (ws : List Str) (cmd : Str) (s : SourcePos) (k : Str) :
    Cn M 5 c (reservedWordOrIncomplete ws cmd s k : P AIter B _) (fun _ => c + 5) := by
  unfold reservedWordOrIncomplete
  cn
macro_rules | `(tactic| cn_lemma) => `(tactic| exact cn_reservedWordOrIncomplete _ _ _ _)

theorem cn_doGroup : Cn M 5 c (doGroup R) (fun _ => c + 5) := by
  unfold doGroup
  cn
macro_rules | `(tactic| cn_lemma) => `(tactic| exact cn_doGroup (by assumption))

theorem cn_braceGroup : Cn M 5 c (braceGroup R) (fun _ => c + 5) := by
  unfold braceGroup
  cn
macro_rules | `(tactic| cn_lemma) => `(tactic| exact cn_braceGroup (by assumption))

theorem cn_subshell : Cn M 5 c (subshell R) (fun _ => c + 5) := cn_subshellInternal hR
macro_rules | `(tactic| cn_lemma) => `(tactic| exact cn_subshell (by assumption))

omit hR in
theorem cn_nextCompoundCommandType : Cn M 5 c (nextCompoundCommandType : P AIter B _) (fun _ => c) := by
  unfold nextCompoundCommandType
  cn
macro_rules | `(tactic| cn_lemma) => `(tactic| exact cn_nextCompoundCommandType)

theorem cn_loopCommand : Cn M 5 c (loopCommand R) (fun _ => c + 5) := by
  unfold loopCommand
  refine cn_bind cn_getPos fun _ => cn_bind (cn_reservedWordOrUnexpected _) fun w =>
    cn_bind (d1 := fun _ => c + 5) ?_ fun _ => ?_
  · cn
  · cn
macro_rules | `(tactic| cn_lemma) => `(tactic| exact cn_loopCommand (by assumption))

theorem cn_ifCommand : Cn M 5 c (ifCommand R) (fun _ => c + 5) := by
  unfold ifCommand
  refine cn_bind cn_getPos fun _ => cn_bind (cn_reservedWordOrUnexpected _) fun w =>
    cn_loop (fun _ => c + 5) (fun _ => ?_)
  unfold ifBody
  cn
macro_rules | `(tactic| cn_lemma) => `(tactic| exact cn_ifCommand (by assumption))

omit hR in
theorem cn_identifier (n : Nat) : Cn M 5 c (identifier n : P AIter B _) (fun _ => c + 5) := by
  unfold identifier
  cn
macro_rules | `(tactic| cn_lemma) => `(tactic| exact cn_identifier _)

theorem cn_words : Cn M 5 c (loop (wordsBody R) []) (fun _ => c) := by
  refine cn_loop (fun _ => c) (fun _ => ?_)
  unfold wordsBody
  cn
macro_rules | `(tactic| cn_lemma) => `(tactic| exact cn_words (by assumption))

theorem cn_forWords {pos : SourcePos} {cs : List Nl} : Cn M 5 c (forWords R pos cs) (fun _ => c) := by
  unfold forWords
  cn
macro_rules | `(tactic| cn_lemma) => `(tactic| exact cn_forWords (by assumption))

theorem cn_forCommand : Cn M 5 c (forCommand R) (fun _ => c + 5) := by
  unfold forCommand
  cn
macro_rules | `(tactic| cn_lemma) => `(tactic| exact cn_forCommand (by assumption))

omit hR in
theorem cn_missingEsac {pos : SourcePos} {d : α → Nat} : Cn M 5 c (missingEsac pos : P AIter B α) d := by
  unfold missingEsac
  cn

theorem cn_patterns {pos : SourcePos} : Cn M 5 c (loop (patternBody R pos) []) (fun _ => c) := by
  refine cn_loop (fun _ => c) (fun _ => ?_)
  unfold patternBody
  cn
  exact cn_missingEsac
macro_rules | `(tactic| cn_lemma) => `(tactic| exact cn_patterns (by assumption))

theorem cn_arms {pos : SourcePos} : Cn M 5 c (loop (armBody R pos) []) (fun _ => c) := by
  refine cn_loop (fun _ => c) (fun _ => ?_)
  unfold armBody
  cn
  exact cn_missingEsac
macro_rules | `(tactic| cn_lemma) => `(tactic| exact cn_arms (by assumption))

theorem cn_caseCommand : Cn M 5 c (caseCommand R) (fun _ => c + 5) := by
  unfold caseCommand
  cn
macro_rules | `(tactic| cn_lemma) => `(tactic| exact cn_caseCommand (by assumption))

theorem cn_compoundCommandKw (k : Option CompoundKw) : Cn M 5 c (compoundCommandKw R k) (fun _ => c + 4) := by
  rcases k with _ | _ | _ | _ | _ | _ | _ | _ <;> unfold compoundCommandKw <;> cn
macro_rules | `(tactic| cn_lemma) => `(tactic| exact cn_compoundCommandKw (by assumption) _)

theorem cn_compoundCommand : Cn M 5 c (compoundCommand R) (fun _ => c + 4) := by
  unfold compoundCommand
  cn
macro_rules | `(tactic| cn_lemma) => `(tactic| exact cn_compoundCommand (by assumption))

/-! ## Functions -/

omit hR in
theorem cn_eatWhitespace : Cn M 5 c (eatWhitespace : P AIter B _) (fun _ => c) := by
  unfold eatWhitespace
  cn
macro_rules | `(tactic| cn_lemma) => `(tactic| exact cn_eatWhitespace)

omit hR in
theorem cn_parens : Cn M 5 c (parens : P AIter B _) (fun _ => c + 10) := by
  unfold parens
  cn
macro_rules | `(tactic| cn_lemma) => `(tactic| exact cn_parens)

theorem cn_functionBodyStart {b : Bool} : Cn M 5 c (functionBodyStart R b) (fun r => c + worth 4 r) := by
  unfold functionBodyStart
  cn
macro_rules | `(tactic| cn_lemma) => `(tactic| exact cn_functionBodyStart (by assumption))

theorem cn_functionDeclarationInternal : Cn M 5 c (functionDeclarationInternal R) (fun _ => c + 5) := by
  unfold functionDeclarationInternal
  refine cn_bind (d1 := fun _ => c) ?_ fun _ => ?_
  · cn
  · cn
macro_rules | `(tactic| cn_lemma) => `(tactic| exact cn_functionDeclarationInternal (by assumption))

theorem cn_functionDeclaration : Cn M 5 c (functionDeclaration R) (fun _ => c + 4) := by
  unfold functionDeclaration
  cn
macro_rules | `(tactic| cn_lemma) => `(tactic| exact cn_functionDeclaration (by assumption))

theorem cn_maybeFunctionDeclaration : Cn M 5 c (maybeFunctionDeclaration R) (fun r => c + worth 4 r) := by
  unfold maybeFunctionDeclaration
  cn
macro_rules | `(tactic| cn_lemma) => `(tactic| exact cn_maybeFunctionDeclaration (by assumption))

/-! ## Commands, pipelines, lists -/

theorem cn_command : Cn M 5 c (command R) (fun _ => c + 3) := by
  unfold command
  cn
macro_rules | `(tactic| cn_lemma) => `(tactic| exact cn_command (by assumption))

theorem cn_pipelineLoop : Cn M 5 c (loop (pipelineBody R) []) (fun _ => c + 3) := by
  refine cn_loop (fun l => c) (fun l => ?_)
  unfold pipelineBody
  cn
macro_rules | `(tactic| cn_lemma) => `(tactic| exact cn_pipelineLoop (by assumption))

theorem cn_pipeline : Cn M 5 c (pipeline R) (fun _ => c + 2) := by
  unfold pipeline
  cn
macro_rules | `(tactic| cn_lemma) => `(tactic| exact cn_pipeline (by assumption))

theorem cn_andOrLoop : Cn M 5 c (loop (andOrBody R) []) (fun _ => c) := by
  refine cn_loop (fun _ => c) (fun _ => ?_)
  unfold andOrBody
  cn
macro_rules | `(tactic| cn_lemma) => `(tactic| exact cn_andOrLoop (by assumption))

theorem cn_andOrList : Cn M 5 c (andOrList R) (fun _ => c + 1) := by
  unfold andOrList
  cn
macro_rules | `(tactic| cn_lemma) => `(tactic| exact cn_andOrList (by assumption))

omit hR in
theorem cn_separator : Cn M 5 c (separator : P AIter B _) (fun _ => c) := by
  unfold separator
  cn
macro_rules | `(tactic| cn_lemma) => `(tactic| exact cn_separator)

theorem cn_completeCommandWithComments {cs : List Nl} : Cn M 5 c (completeCommandWithComments R cs) (fun _ => c) := by
  unfold completeCommandWithComments
  cn
macro_rules | `(tactic| cn_lemma) => `(tactic| exact cn_completeCommandWithComments (by assumption))

omit hR in
theorem cn_foundDelim {d : Delims} :
    Cn M 5 c (foundDelim d : P AIter B _) (fun _ => c) := by
  unfold foundDelim
  refine cn_bind (d1 := fun _ => c) ?_ fun _ => ?_
  · cn
  · cn
macro_rules | `(tactic| cn_lemma) => `(tactic| exact cn_foundDelim)

theorem cn_commandGroupInternal {d : Delims} :
    Cn M 5 c (commandGroupInternal R d) (fun _ => c) := by
  refine cn_loop (fun _ => c) (fun _ => ?_)
  unfold groupBody
  refine cn_bind cn_foundDelim fun _ => ?_
  split
  · cn
  · refine cn_bind cn_linebreak fun _ => cn_bind (d1 := fun _ => c) ?_ fun _ => ?_
    · cn
    · cn


theorem cn_completeCommand : Cn M 5 c (completeCommand R) (fun _ => c) := by
  unfold completeCommand
  refine cn_bind cn_linebreak fun pre => ?_
  cases pre <;> cn

theorem cn_backtickedCommandSubstitution : Cn M 5 c (backtickedCommandSubstitution R) (fun _ => c + 4) := by
  unfold backtickedCommandSubstitution
  cn

theorem cn_parameter : Cn M 5 c (parameter R) (fun _ => c + 4) := by
  unfold parameter
  cn

end

theorem recCn_fix (n : Nat) : RecCn M (Rec.fix n : Rec AIter B) := by
  induction n with
  | zero => exact ⟨fun _ => cn_outOfFuel, cn_outOfFuel⟩
  | succ n ih => exact ⟨fun d => cn_commandGroupInternal ih, cn_parameterRaw ih⟩

theorem cn_run {f : Rec AIter B → P AIter B α} (d : α → Nat) (h : ∀ R, RecCn M R → Cn M 5 c (f R) d)
    (hd : ∀ a, c ≤ d a) : Cn M 5 c (run f) (fun _ => c) := by
  have h1 : ∀ n, Cn M 5 c (f (Rec.fix n)) (fun _ => c) := fun n => (h _ (recCn_fix n)).weaken hd
  unfold Cn at h1 ⊢
  exact fun s => h1 _ s

theorem cn_method (m : Method) : Cn M 5 c (m.run : P AIter B _) (fun _ => c) := by
  cases m with
  | completeCommand => exact cn_run _ (fun _ => cn_completeCommand) (by intros; simp)
  | andOrList => exact cn_run _ (fun _ => cn_andOrList) (by intros; simp)
  | pipeline => exact cn_run _ (fun _ => cn_pipeline) (by intros; simp)
  | command => exact cn_run _ (fun _ => cn_command) (by intros; simp)
  | simpleCommand => exact cn_run _ (fun _ => cn_simpleCommand) (by intros; simp)
  | redirectList => exact cn_run _ (fun _ => cn_redirectList) (by intros; simp)
  | redirect => exact cn_run _ (fun _ => cn_redirect) (by intros; simp)
  | redirectHeredoc fd => exact cn_run _ (fun _ h => cn_redirectHeredoc h) (by intros; simp)
  | word => exact cn_run _ (fun _ => cn_word) (by intros; simp)
  | wordPreserveTrailingWhitespace => exact cn_run _ (fun _ => cn_wordPreserve) (by intros; simp)
  | backtickedCommandSubstitution => exact cn_run _ (fun _ => cn_backtickedCommandSubstitution) (by intros; simp)
  | parameter => exact cn_run _ (fun _ => cn_parameter) (by intros; simp)
  | doGroup => exact cn_run _ (fun _ => cn_doGroup) (by intros; simp)
  | braceGroup => exact cn_run _ (fun _ => cn_braceGroup) (by intros; simp)
  | subshell => exact cn_run _ (fun _ => cn_subshell) (by intros; simp)
  | compoundCommand => exact cn_run _ (fun _ => cn_compoundCommand) (by intros; simp)
  | loopCommand => exact cn_run _ (fun _ => cn_loopCommand) (by intros; simp)
  | ifCommand => exact cn_run _ (fun _ => cn_ifCommand) (by intros; simp)
  | forCommand => exact cn_run _ (fun _ => cn_forCommand) (by intros; simp)
  | caseCommand => exact cn_run _ (fun _ => cn_caseCommand) (by intros; simp)
  | maybeFunctionDeclaration => exact cn_run _ (fun _ => cn_maybeFunctionDeclaration) (by intros; simp)
  | functionDeclaration => exact cn_run _ (fun _ => cn_functionDeclaration) (by intros; simp)
  | skipWhitespace => exact cn_skipWhitespace
  | linebreak => exact cn_linebreak.weaken (by intros; simp)
  | newline => exact cn_newline.weaken (by intros; simp)
  | peekReservedToken ts => exact cn_peekReservedToken
  | peekReservedWord ws => exact cn_peekReservedWord ws
  | reservedToken ts => exact cn_reservedToken.weaken (by intros; simp)
  | reservedWord ws => exact (cn_reservedWord ws).weaken (by intros; simp)
  | commandGroup cfg => exact cn_run _ (fun _ h => cn_commandGroup h) (by intros; simp)
  | arithmeticSubstitution => exact cn_arithmeticSubstitution

end Cost
end Conch
