import Verif.RelWord
/-!
# Related runs: redirections and commands
-/
namespace Conch

variable {I J : Type} [TokStream I] [TokStream J] {B C : Builder}
variable {S : StreamSim I J} {H : Hom B C} {α β : Type}

theorem StreamSim.dqDelimN (S : StreamSim I J) (n : Nat) {b : Balanced I} {a : Balanced J}
    (h : S.RB b a) :
    (dqDelimN n b).1 = (dqDelimN n a).1 ∧ S.RB (dqDelimN n b).2 (dqDelimN n a).2 := by
  induction n generalizing b a with
  | zero => exact ⟨rfl, h⟩
  | succ n ih =>
    unfold Conch.dqDelimN
    obtain ⟨h1, h2⟩ := S.balanced_next h
    generalize b.next = x at h1 h2
    generalize a.next = y at h1 h2
    obtain ⟨x, b⟩ := x
    obtain ⟨y, a⟩ := y
    simp only at h1 h2
    subst h1
    have go : ∀ (f : List Token → List Token) {b : Balanced I} {a : Balanced J}, S.RB b a →
        (match Conch.dqDelimN n b with
          | (.ok ts, b) => (Collected.ok (f ts), b)
          | r => r).1 =
        (match Conch.dqDelimN n a with
          | (.ok ts, b) => (Collected.ok (f ts), b)
          | r => r).1 ∧ S.RB
        (match Conch.dqDelimN n b with
          | (.ok ts, b) => (Collected.ok (f ts), b)
          | r => r).2
        (match Conch.dqDelimN n a with
          | (.ok ts, b) => (Collected.ok (f ts), b)
          | r => r).2 := by
      intro f b a h
      obtain ⟨h1, h2⟩ := ih h
      generalize Conch.dqDelimN n b = x at h1 h2
      generalize Conch.dqDelimN n a = y at h1 h2
      obtain ⟨x, b⟩ := x
      obtain ⟨y, a⟩ := y
      simp only at h1 h2
      subst h1
      cases x <;> exact ⟨rfl, h2⟩
    rcases x with _ | _ | t
    · exact ⟨rfl, h2⟩
    · exact ⟨rfl, h2⟩
    · by_cases ht : t = .Backslash
      · subst ht
        simp only
        obtain ⟨h3, h4⟩ := S.balanced_next h2
        generalize b.next = x at h3 h4
        generalize a.next = y at h3 h4
        obtain ⟨x, b⟩ := x
        obtain ⟨y, a⟩ := y
        simp only at h3 h4
        subst h3
        rcases x with _ | _ | t
        · exact go _ h4
        · exact ⟨rfl, h4⟩
        · exact go (fun ts => if t.dqSpecial then t :: ts else .Backslash :: t :: ts) h4
      · cases t <;> first | exact go _ h2 | exact absurd rfl ht

theorem StreamSim.takeDqDelim (S : StreamSim I J) {i : I} {j : J} (h : S.R i j) (p : SourcePos) :
    (takeDqDelim i p).1 = (takeDqDelim j p).1 ∧ S.R (takeDqDelim i p).2 (takeDqDelim j p).2 := by
  have e : TokStream.len i = TokStream.len j := S.len h
  unfold Conch.takeDqDelim
  rw [e]
  have := S.dqDelimN (TokStream.len j + 2) (S.balanced_new h (some (.DoubleQuote, p)))
  exact ⟨this.1, this.2.1⟩

theorem rel_takeDqDelim (p : SourcePos) :
    Rel S H id (scan (fun it => takeDqDelim it p)) (scan (fun it => takeDqDelim it p)) :=
  rel_scan fun _ _ h => S.takeDqDelim h p
macro_rules | `(tactic| rel_lemma) => `(tactic| exact rel_takeDqDelim _)

theorem rel_takeRemoved (p : SourcePos) :
    Rel S H id (scan (fun it => takeBacktickedRemoved it p))
      (scan (fun it => takeBacktickedRemoved it p)) :=
  rel_scan fun _ _ h => S.takeBacktickedRemoved h p
macro_rules | `(tactic| rel_lemma) => `(tactic| exact rel_takeRemoved _)

theorem rel_delimTokens :
    Rel S H id (loop delimTokensBody []) (loop delimTokensBody []) := by
  refine rel_loop (g := id) rfl fun st => ?_
  unfold delimTokensBody
  rel

theorem rel_delim (x : Bool × Str) : Rel S H id (loop delimBody x) (loop delimBody x) := by
  refine rel_loop (g := id) rfl fun st => ?_
  unfold delimBody
  rel

theorem rel_heredocDelim : Rel S H id heredocDelim heredocDelim := by
  unfold heredocDelim
  refine rel_bind' rel_delimTokens fun ts => ?_
  refine rel_bind' (rel_withIterRestore (S.ofTokens ts) (rel_delim _)) fun st => ?_
  rel
macro_rules | `(tactic| rel_lemma) => `(tactic| exact rel_heredocDelim)

theorem rel_saveLine : Rel S H id (loop saveLineBody []) (loop saveLineBody []) := by
  refine rel_loop (g := id) rfl fun st => ?_
  unfold saveLineBody
  rel
macro_rules | `(tactic| rel_lemma) => `(tactic| exact rel_saveLine)

theorem rel_stripTabs (l : List Token × SourcePos) :
    Rel S H id (stripTabs l) (stripTabs l) := by
  unfold stripTabs
  rel
macro_rules | `(tactic| rel_lemma) => `(tactic| exact rel_stripTabs _)

theorem rel_heredocLine (strip : Bool) (delim : Str) (l : List Token × SourcePos) :
    Rel S H id (loop (heredocLineBody strip delim) l) (loop (heredocLineBody strip delim) l) := by
  refine rel_loop (g := id) rfl fun st => ?_
  unfold heredocLineBody
  have : Rel S H id
      (if strip then stripTabs st else pure st : P I B (List Token × SourcePos))
      (if strip then stripTabs st else pure st : P J C (List Token × SourcePos)) := by rel
  refine rel_bind' this fun _ => ?_
  rel
macro_rules | `(tactic| rel_lemma) => `(tactic| exact rel_heredocLine _ _ _)

theorem rel_heredocLines (strip : Bool) (delim : Str) :
    Rel S H id (loop (heredocBody strip delim) []) (loop (heredocBody strip delim) []) := by
  refine rel_loop (g := id) rfl fun st => ?_
  unfold heredocBody
  rel
macro_rules | `(tactic| rel_lemma) => `(tactic| exact rel_heredocLines _ _)

theorem rel_callRedirect (w : RedirectKind B.Word) :
    Rel S H H.redirect (call (.redirect w)) (call (.redirect (w.map H.word))) :=
  rel_call (.redirect w)

section
variable {R : Rec I B} {R' : Rec J C} (hR : RecRel S H R R')
include hR

theorem rel_getPath : Rel S H H.word (getPath R) (getPath R') := by
  unfold getPath
  refine rel_bind (rel_wordRaw hR) ?_
  rintro (_ | w)
  · exact rel_unexpected
  · exact rel_callWord w
macro_rules | `(tactic| rel_lemma) => `(tactic| exact rel_getPath (by assumption))

theorem rel_getDupPath : Rel S H H.word (getDupPath R) (getDupPath R') := by
  unfold getDupPath
  refine rel_bind' (rel_peekReservedToken _) fun t => ?_
  split
  · refine rel_bind' (rel_reservedToken _) fun t => ?_
    exact rel_callWord (.Single (.Simple (.Literal t.asStr)))
  · refine rel_bind' rel_getPos fun p => ?_
    refine rel_bind (rel_wordRaw hR) ?_
    rintro (_ | w)
    · exact rel_unexpected
    · simp only [Option.map_some, couldBeNumeric_map]
      rel
macro_rules | `(tactic| rel_lemma) => `(tactic| exact rel_getDupPath (by assumption))

theorem rel_redirectHeredoc (fd : Option Nat) :
    Rel S H H.redirect (redirectHeredoc R fd) (redirectHeredoc R' fd) := by
  unfold redirectHeredoc
  have h1 : Rel S H id
    (do
      if ← eatMaybe .DLess then pure false
      else if ← eatMaybe .DLessDash then pure true
      else unexpected : P I B Bool)
    (do
      if ← eatMaybe .DLess then pure false
      else if ← eatMaybe .DLessDash then pure true
      else unexpected : P J C Bool) := by rel
  refine rel_bind' h1 fun strip => ?_
  refine rel_bind' rel_skipWhitespace fun _ => ?_
  refine rel_bind' rel_heredocDelim ?_
  rintro ⟨quoted, delim⟩
  simp only
  refine rel_bind' rel_getPos fun savedPos => ?_
  refine rel_bind' rel_saveLine fun saved => ?_
  refine rel_bind' rel_getPos fun start => ?_
  refine rel_bind' (rel_heredocLines _ _) fun lines => ?_
  refine rel_bind' (rel_bufferFirst _ _) fun _ => ?_
  refine rel_bind (g := ComplexWordKind.map H.command) ?_ fun body => ?_
  · split
    · exact rel_pure rfl
    · have : S.R (lines.foldr (fun c it => TokStream.bufferFirst it c.1 c.2)
          (TokStream.withPosition (I := I) start))
          (lines.foldr (fun c it => TokStream.bufferFirst it c.1 c.2)
          (TokStream.withPosition (I := J) start)) := by
        induction lines with
        | nil => exact S.withPosition _
        | cons c cs ih => exact S.bufferFirst _ _ ih
      refine rel_bind (rel_withIter this (rel_wordInterpolatedRaw hR none start)) fun ws => ?_
      exact rel_pure (heredocWord_map _ _)
  · refine rel_bind (rel_callWord body) fun w => ?_
    exact rel_callRedirect (.Heredoc fd w)
macro_rules | `(tactic| rel_lemma) => `(tactic| exact rel_redirectHeredoc (by assumption) _)

theorem rel_redirectTail (fd : Option Nat) (op : Token) :
    Rel S H H.redirect (redirectTail R fd op) (redirectTail R' fd op) := by
  unfold redirectTail
  refine rel_bind' rel_skipWhitespace fun _ => ?_
  split
  · exact rel_bind (rel_getPath hR) fun w => rel_callRedirect (.Read fd w)
  · exact rel_bind (rel_getPath hR) fun w => rel_callRedirect (.Write fd w)
  · exact rel_bind (rel_getPath hR) fun w => rel_callRedirect (.Append fd w)
  · exact rel_bind (rel_getPath hR) fun w => rel_callRedirect (.Clobber fd w)
  · exact rel_bind (rel_getPath hR) fun w => rel_callRedirect (.ReadWrite fd w)
  · exact rel_bind (rel_getDupPath hR) fun w => rel_callRedirect (.DupRead fd w)
  · exact rel_bind (rel_getDupPath hR) fun w => rel_callRedirect (.DupWrite fd w)
  · exact rel_panicAt
macro_rules | `(tactic| rel_lemma) => `(tactic| exact rel_redirectTail (by assumption) _ _)

omit hR in
/-- The map on the result of `redirect`. -/
def Hom.redirOrWord (H : Hom B C) : Option (B.Redirect ⊕ B.Word) → Option (C.Redirect ⊕ C.Word) :=
  Option.map (Sum.map H.redirect H.word)

theorem rel_redirectFd (fd : Option (Nat × ComplexWordKind B.Command)) :
    Rel S H H.redirOrWord (redirectFd R fd)
      (redirectFd R' (fd.map fun p => (p.1, p.2.map H.command))) := by
  unfold redirectFd
  have e : Option.map (fun x => x.1) (fd.map fun p => (p.1, p.2.map H.command)) =
    fd.map (fun x => x.1) := by cases fd <;> rfl
  rw [e]
  refine rel_bind' rel_peek fun t => ?_
  split
  · refine rel_bind' rel_next fun t => ?_
    rel
  · split
    · rel
    · cases fd with
      | none => exact rel_pure rfl
      | some p =>
        refine rel_bind (rel_callWord p.2) fun w => ?_
        exact rel_pure rfl

theorem rel_redirect : Rel S H H.redirOrWord (redirect R) (redirect R') := by
  unfold redirect
  refine rel_bind (rel_wordRaw hR) ?_
  rintro (_ | w)
  · exact rel_redirectFd hR none
  · simp only [Option.map_some, asNum_map]
    cases w.asNum with
    | some n => exact rel_redirectFd hR (some (n, w))
    | none =>
      refine rel_bind (rel_callWord w) fun w => ?_
      exact rel_pure rfl

theorem rel_redirectList : Rel S H (List.map H.redirect) (redirectList R) (redirectList R') := by
  refine rel_loop (g := List.map H.redirect) rfl fun acc => ?_
  unfold redirectListBody
  refine rel_bind' rel_skipWhitespace fun _ => ?_
  refine rel_bind' rel_getPos fun p => ?_
  refine rel_bind (rel_redirect hR) ?_
  rintro (_ | r | w)
  · exact rel_pure rfl
  · refine rel_pure ?_
    simp [Step.map]
  · simp only [Hom.redirOrWord, Option.map_some, Sum.map_inr]
    rel
macro_rules | `(tactic| rel_lemma) => `(tactic| exact rel_redirectList (by assumption))

omit hR in
theorem mp_assignment : MPRel S mpAssignment mpAssignment := by
  intro m m' h
  unfold mpAssignment
  obtain ⟨t, n, n', h1, h2, h3⟩ := mp_step h
  obtain ⟨u, k, k', e1, e2, h4⟩ := mp_step h3
  simp only [h1, h2, e1, e2]
  split
  · exact ⟨rfl, h4⟩
  · exact ⟨rfl, h3⟩
macro_rules | `(tactic| rel_lemma) => `(tactic| exact rel_lookahead mp_assignment)

omit hR in
theorem mp_function : MPRel S mpFunction mpFunction := by
  intro m m' h
  unfold mpFunction
  obtain ⟨t, n, n', h1, h2, h3⟩ := mp_step h
  obtain ⟨u, k, k', e1, e2, h4⟩ := mp_step h3
  obtain ⟨v, l, l', g1, g2, h5⟩ := mp_step h4
  simp only [h1, h2, e1, e2, g1, g2]
  split
  · split
    · exact ⟨rfl, h5⟩
    · exact ⟨rfl, h4⟩
  · exact ⟨rfl, h3⟩
macro_rules | `(tactic| rel_lemma) => `(tactic| exact rel_lookahead mp_function)

omit hR in
theorem rel_callSimple (vs : List (RedirectOrEnvVar B.Redirect Str B.Word))
    (as : List (RedirectOrCmdWord B.Redirect B.Word)) :
    Rel S H H.pipeable (call (.simpleCommand vs as))
      (call (.simpleCommand (vs.map (RedirectOrEnvVar.map H.word H.redirect))
        (as.map (RedirectOrCmdWord.map H.word H.redirect)))) := rel_call (.simpleCommand vs as)

theorem rel_simplePrefix :
    Rel S H (fun x => (x.1.map (RedirectOrEnvVar.map H.word H.redirect), x.2.map H.word))
      (loop (simplePrefixBody R) []) (loop (simplePrefixBody R') []) := by
  refine rel_loop (g := List.map (RedirectOrEnvVar.map H.word H.redirect)) rfl fun acc => ?_
  unfold simplePrefixBody
  refine rel_bind' rel_skipWhitespace fun _ => ?_
  refine rel_bind' (rel_lookahead mp_assignment) fun b => ?_
  split
  · refine rel_bind' rel_next fun t => ?_
    split
    · refine rel_bind' rel_next fun t => ?_
      refine rel_bind (g := Option.map H.word) ?_ fun v => ?_
      · rel
      · refine rel_pure ?_
        simp [Step.map, RedirectOrEnvVar.map]
    · exact rel_panicAt
  · refine rel_bind (rel_redirect hR) ?_
    rintro (_ | r | w)
    · exact rel_pure rfl
    · refine rel_pure ?_
      simp [Step.map, RedirectOrEnvVar.map]
    · exact rel_pure rfl

theorem rel_simpleArgs (x : List (RedirectOrCmdWord B.Redirect B.Word)) :
    Rel S H (List.map (RedirectOrCmdWord.map H.word H.redirect)) (loop (simpleArgsBody R) x)
      (loop (simpleArgsBody R') (x.map (RedirectOrCmdWord.map H.word H.redirect))) := by
  refine rel_loop (g := List.map (RedirectOrCmdWord.map H.word H.redirect)) rfl fun acc => ?_
  unfold simpleArgsBody
  refine rel_bind (rel_redirect hR) ?_
  rintro (_ | r | w)
  · exact rel_pure rfl
  · refine rel_pure ?_
    simp [Step.map, RedirectOrCmdWord.map]
  · refine rel_pure ?_
    simp [Step.map, RedirectOrCmdWord.map]

theorem rel_simpleCommand : Rel S H H.pipeable (simpleCommand R) (simpleCommand R') := by
  unfold simpleCommand
  refine rel_bind (rel_simplePrefix hR) ?_
  rintro ⟨vs, exec⟩
  simp only
  have e : (Option.map H.word exec).toList.map RedirectOrCmdWord.CmdWord =
      (exec.toList.map RedirectOrCmdWord.CmdWord).map (RedirectOrCmdWord.map H.word H.redirect) := by
    cases exec <;> rfl
  rw [e]
  refine rel_bind (rel_simpleArgs hR _) fun as => ?_
  simp only [List.isEmpty_map]
  split
  · exact rel_unexpected
  · exact rel_callSimple vs as
macro_rules | `(tactic| rel_lemma) => `(tactic| exact rel_simpleCommand (by assumption))

theorem rel_commandGroup (cfg : Delims) :
    Rel S H (CommandGroup.map H.command) (commandGroup R cfg) (commandGroup R' cfg) := by
  unfold commandGroup
  refine rel_bind (hR.group cfg) fun g => ?_
  have : (g.map H.command).commands.isEmpty = g.commands.isEmpty := by simp [CommandGroup.map]
  rw [this]
  rel
macro_rules | `(tactic| rel_lemma) => `(tactic| exact rel_commandGroup (by assumption) _)

omit hR in
theorem rel_reservedWordOrUnexpected (ws : List Str) :
    Rel S H id (reservedWordOrUnexpected ws) (reservedWordOrUnexpected ws) := by
  unfold reservedWordOrUnexpected
  rel
macro_rules | `(tactic| rel_lemma) => `(tactic| exact rel_reservedWordOrUnexpected _)

omit hR in
theorem rel_reservedWordOrIncomplete (ws : List Str) (a : Str) (p : SourcePos) (b : Str) :
    Rel S H id (reservedWordOrIncomplete ws a p b) (reservedWordOrIncomplete ws a p b) := by
  unfold reservedWordOrIncomplete
  rel
macro_rules | `(tactic| rel_lemma) => `(tactic| exact rel_reservedWordOrIncomplete _ _ _ _)

theorem rel_doGroup : Rel S H (CommandGroup.map H.command) (doGroup R) (doGroup R') := by
  unfold doGroup
  rel
macro_rules | `(tactic| rel_lemma) => `(tactic| exact rel_doGroup (by assumption))

theorem rel_braceGroup : Rel S H (CommandGroup.map H.command) (braceGroup R) (braceGroup R') := by
  unfold braceGroup
  rel
macro_rules | `(tactic| rel_lemma) => `(tactic| exact rel_braceGroup (by assumption))

omit hR in
theorem rel_nextCompoundCommandType :
    Rel S H id nextCompoundCommandType nextCompoundCommandType := by
  unfold nextCompoundCommandType
  rel
macro_rules | `(tactic| rel_lemma) => `(tactic| exact rel_nextCompoundCommandType)

theorem rel_loopCommand :
    Rel S H (fun x => (x.1, x.2.map H.command)) (loopCommand R) (loopCommand R') := by
  unfold loopCommand
  refine rel_bind' rel_getPos fun p => ?_
  refine rel_bind' (rel_reservedWordOrUnexpected _) fun w => ?_
  refine rel_bind (g := id) ?_ fun k => ?_
  · rel
  · refine rel_bind (rel_commandGroup hR _) fun g => ?_
    refine rel_bind' (rel_peekReservedWord _) fun d => ?_
    split
    · refine rel_bind (rel_doGroup hR) fun b => ?_
      exact rel_pure rfl
    · rel

theorem rel_ifCommand :
    Rel S H (IfFragments.map H.command) (ifCommand R) (ifCommand R') := by
  unfold ifCommand
  refine rel_bind' rel_getPos fun p => ?_
  refine rel_bind' (rel_reservedWordOrUnexpected _) fun w => ?_
  refine rel_loop (g := List.map (GuardBodyPairGroup.map H.command)) rfl fun acc => ?_
  unfold ifBody
  refine rel_bind (rel_commandGroup hR _) fun guard => ?_
  refine rel_bind' (rel_reservedWordOrIncomplete _ _ _ _) fun w => ?_
  refine rel_bind (rel_commandGroup hR _) fun body => ?_
  refine rel_bind' (rel_reservedWordOrIncomplete _ _ _ _) fun w => ?_
  split
  · refine rel_pure ?_
    simp [Step.map, GuardBodyPairGroup.map]
  · split
    · refine rel_bind (rel_commandGroup hR _) fun els => ?_
      refine rel_bind' (rel_reservedWordOrIncomplete _ _ _ _) fun w => ?_
      refine rel_pure ?_
      simp [Step.map, GuardBodyPairGroup.map, IfFragments.map]
    · split
      · refine rel_pure ?_
        simp [Step.map, GuardBodyPairGroup.map, IfFragments.map]
      · exact rel_panicAt

omit hR in
theorem rel_identifier (n : Nat) : Rel S H id (identifier n) (identifier n) := by
  unfold identifier
  rel
macro_rules | `(tactic| rel_lemma) => `(tactic| exact rel_identifier _)

theorem rel_words : Rel S H (List.map H.word) (loop (wordsBody R) []) (loop (wordsBody R') []) := by
  refine rel_loop (g := List.map H.word) rfl fun acc => ?_
  unfold wordsBody
  refine rel_bind (rel_word hR) ?_
  rintro (_ | w)
  · exact rel_pure rfl
  · refine rel_pure ?_
    simp [Step.map]
macro_rules | `(tactic| rel_lemma) => `(tactic| exact rel_words (by assumption))

theorem rel_forWords (p : SourcePos) (pv : List Nl) :
    Rel S H (fun x => (x.1.map (fun y => (y.1, y.2.1.map H.word, y.2.2)), x.2))
      (forWords R p pv) (forWords R' p pv) := by
  unfold forWords
  rel
macro_rules | `(tactic| rel_lemma) => `(tactic| exact rel_forWords (by assumption) _ _)

theorem rel_forCommand :
    Rel S H (ForFragments.map H.command H.word) (forCommand R) (forCommand R') := by
  unfold forCommand
  rel

omit hR in
theorem rel_missingEsac {f : α → β} (p : SourcePos) :
    Rel S H f (missingEsac p) (missingEsac p) := by
  unfold missingEsac
  rel
macro_rules | `(tactic| rel_lemma) => `(tactic| exact rel_missingEsac _)

theorem rel_patterns (p : SourcePos) :
    Rel S H (List.map H.word) (loop (patternBody R p) []) (loop (patternBody R' p) []) := by
  refine rel_loop (g := List.map H.word) rfl fun acc => ?_
  unfold patternBody
  refine rel_bind (rel_word hR) ?_
  rintro (_ | w)
  · exact rel_unexpected
  · simp only [Option.map_some]
    have e : acc.map H.word ++ [H.word w] = (acc ++ [w]).map H.word := by simp
    rw [e]
    rel
macro_rules | `(tactic| rel_lemma) => `(tactic| exact rel_patterns (by assumption) _)

theorem rel_arms (p : SourcePos) :
    Rel S H (fun x => (x.1.map (CaseArm.map H.command H.word), x.2)) (loop (armBody R p) [])
      (loop (armBody R' p) []) := by
  refine rel_loop (g := List.map (CaseArm.map H.command H.word)) rfl fun acc => ?_
  unfold armBody
  rel
  all_goals (
    refine rel_pure ?_
    simp [Step.map, CaseArm.map, CasePatternFragments.map])
macro_rules | `(tactic| rel_lemma) => `(tactic| exact rel_arms (by assumption) _)

theorem rel_caseCommand :
    Rel S H (CaseFragments.map H.command H.word) (caseCommand R) (caseCommand R') := by
  unfold caseCommand
  refine rel_bind' rel_getPos fun p => ?_
  refine rel_bind' (rel_reservedWordOrUnexpected _) fun w => ?_
  refine rel_bind (rel_word hR) ?_
  rintro (_ | w)
  · exact rel_unexpected
  · simp only [Option.map_some]
    rel

theorem rel_compoundCommandKw (k : Option CompoundKw) :
    Rel S H H.compound (compoundCommandKw R k) (compoundCommandKw R' k) := by
  have hloop : Rel S H H.compound
      (do let (k, p) ← loopCommand R; let io ← redirectList R; call (.loopCommand k p io))
      (do let (k, p) ← loopCommand R'; let io ← redirectList R'; call (.loopCommand k p io)) :=
    rel_bind (rel_loopCommand hR) fun f => rel_bind (rel_redirectList hR) fun io =>
      rel_call (.loopCommand f.1 f.2 io)
  cases k with
  | none => exact rel_unexpected
  | some k =>
    cases k with
    | If => exact rel_bind (rel_ifCommand hR) fun f => rel_bind (rel_redirectList hR) fun io =>
        rel_call (.ifCommand f io)
    | While => exact hloop
    | Until => exact hloop
    | For => exact rel_bind (rel_forCommand hR) fun f => rel_bind (rel_redirectList hR) fun io =>
        rel_call (.forCommand f io)
    | Case => exact rel_bind (rel_caseCommand hR) fun f => rel_bind (rel_redirectList hR) fun io =>
        rel_call (.caseCommand f io)
    | Brace => exact rel_bind (rel_braceGroup hR) fun f => rel_bind (rel_redirectList hR) fun io =>
        rel_call (.braceGroup f io)
    | Subshell =>
      exact rel_bind (rel_subshellInternal hR _) fun f =>
        rel_bind (rel_redirectList hR) fun io => rel_call (.subshell f io)
macro_rules | `(tactic| rel_lemma) => `(tactic| exact rel_compoundCommandKw (by assumption) _)

theorem rel_compoundCommand : Rel S H H.compound (compoundCommand R) (compoundCommand R') := by
  unfold compoundCommand
  rel
macro_rules | `(tactic| rel_lemma) => `(tactic| exact rel_compoundCommand (by assumption))

omit hR in
theorem rel_eatWhitespace : Rel S H id eatWhitespace eatWhitespace := by
  unfold eatWhitespace
  rel
macro_rules | `(tactic| rel_lemma) => `(tactic| exact rel_eatWhitespace)

omit hR in
theorem rel_parens : Rel S H id parens parens := by
  unfold parens
  rel
macro_rules | `(tactic| rel_lemma) => `(tactic| exact rel_parens)

theorem rel_functionBodyStart (fn : Bool) :
    Rel S H (Option.map H.compound) (functionBodyStart R fn) (functionBodyStart R' fn) := by
  unfold functionBodyStart
  refine rel_bind' rel_peek fun t => ?_
  split
  · rel
  · split
    · rel
    · refine rel_bind' rel_eatWhitespace fun _ => ?_
      refine rel_bind' rel_skipWhitespace fun _ => ?_
      split
      · rel
      · refine rel_bind' rel_peek fun _ => ?_
        split
        · refine rel_bind (rel_subshellInternal hR true) fun g => ?_
          have e1 : (g.map H.command).commands.isEmpty = g.commands.isEmpty := by
            simp [CommandGroup.map]
          have e2 : (g.map H.command).trailingComments.isEmpty = g.trailingComments.isEmpty := rfl
          rw [e1, e2]
          split
          · exact rel_pure rfl
          · exact rel_bind (rel_call (.subshell g [])) fun c => rel_pure rfl
        · exact rel_pure rfl

theorem rel_functionDeclarationInternal :
    Rel S H (fun x => (x.1, x.2.1, H.compound x.2.2)) (functionDeclarationInternal R)
      (functionDeclarationInternal R') := by
  unfold functionDeclarationInternal
  refine rel_bind (g := id) ?_ fun fn => ?_
  · rel
  · refine rel_bind' rel_skipWhitespace fun _ => ?_
    refine rel_bind' (rel_identifier _) fun name => ?_
    refine rel_bind (rel_functionBodyStart hR fn) ?_
    rintro (_ | c)
    · simp only [Option.map_none]
      rel
    · exact rel_pure rfl

theorem rel_functionDeclaration :
    Rel S H H.pipeable (functionDeclaration R) (functionDeclaration R') := by
  unfold functionDeclaration
  exact rel_bind (rel_functionDeclarationInternal hR) fun x =>
    rel_call (.functionDeclaration x.1 x.2.1 x.2.2)
macro_rules | `(tactic| rel_lemma) => `(tactic| exact rel_functionDeclaration (by assumption))

theorem rel_maybeFunctionDeclaration :
    Rel S H (Option.map H.pipeable) (maybeFunctionDeclaration R) (maybeFunctionDeclaration R') := by
  unfold maybeFunctionDeclaration
  rel

theorem rel_command : Rel S H H.pipeable (command R) (command R') := by
  unfold command
  refine rel_bind' rel_nextCompoundCommandType ?_
  rintro (_ | k)
  · refine rel_bind (rel_maybeFunctionDeclaration hR) ?_
    rintro (_ | c)
    · exact rel_simpleCommand hR
    · exact rel_pure rfl
  · exact rel_bind (rel_compoundCommandKw hR _) fun c => rel_call (.compoundCommandIntoPipeable c)
macro_rules | `(tactic| rel_lemma) => `(tactic| exact rel_command (by assumption))

theorem rel_pipeline : Rel S H H.listable (pipeline R) (pipeline R') := by
  unfold pipeline
  refine rel_bind' rel_skipWhitespace fun _ => ?_
  refine rel_bind' (rel_eatMaybe _) fun b => ?_
  have : Rel S H (List.map fun p => (p.1, H.pipeable p.2)) (loop (pipelineBody R) [])
      (loop (pipelineBody R') []) := by
    refine rel_loop (g := List.map fun p => (p.1, H.pipeable p.2)) rfl fun acc => ?_
    unfold pipelineBody
    rel
    all_goals (
      refine rel_pure ?_
      simp [Step.map])
  exact rel_bind this fun cs => rel_call (.pipeline b cs)
macro_rules | `(tactic| rel_lemma) => `(tactic| exact rel_pipeline (by assumption))

theorem rel_andOrList : Rel S H H.commandList (andOrList R) (andOrList R') := by
  unfold andOrList
  refine rel_bind (rel_pipeline hR) fun x => ?_
  have : Rel S H (List.map fun p => (p.1, p.2.map H.listable)) (loop (andOrBody R) [])
      (loop (andOrBody R') []) := by
    refine rel_loop (g := List.map fun p => (p.1, p.2.map H.listable)) rfl fun acc => ?_
    unfold andOrBody
    rel
    all_goals (
      refine rel_pure ?_
      simp [Step.map, AndOr.map])
  exact rel_bind this fun cs => rel_call (.andOrList x cs)
macro_rules | `(tactic| rel_lemma) => `(tactic| exact rel_andOrList (by assumption))

omit hR in
theorem rel_separator : Rel S H id separator separator := by
  unfold separator
  rel
macro_rules | `(tactic| rel_lemma) => `(tactic| exact rel_separator)

theorem rel_completeCommandWithComments (pre : List Nl) :
    Rel S H H.command (completeCommandWithComments R pre) (completeCommandWithComments R' pre) := by
  unfold completeCommandWithComments
  refine rel_bind (rel_andOrList hR) fun l => ?_
  refine rel_bind' rel_separator fun x => ?_
  exact rel_call (.completeCommand pre l x.1 x.2)
macro_rules
  | `(tactic| rel_lemma) => `(tactic| exact rel_completeCommandWithComments (by assumption) _)

omit hR in
theorem rel_foundDelim (cfg : Delims) : Rel S H id (foundDelim cfg) (foundDelim cfg) := by
  unfold foundDelim
  refine rel_bind' ?_ fun _ => ?_
  · rel
  · rel
macro_rules | `(tactic| rel_lemma) => `(tactic| exact rel_foundDelim _)

theorem rel_commandGroupInternal (cfg : Delims) :
    Rel S H (CommandGroup.map H.command) (commandGroupInternal R cfg)
      (commandGroupInternal R' cfg) := by
  unfold commandGroupInternal
  refine rel_loop (g := List.map H.command) rfl fun acc => ?_
  unfold groupBody
  refine rel_bind' (rel_foundDelim _) fun b => ?_
  split
  · exact rel_pure rfl
  · refine rel_bind' rel_linebreak fun ls => ?_
    refine rel_bind (g := id) ?_ fun stop => ?_
    · rel
    · simp only [id]
      split
      · exact rel_pure rfl
      · refine rel_bind (rel_completeCommandWithComments hR _) fun c => ?_
        refine rel_pure ?_
        simp [Step.map]

theorem rel_completeCommand :
    Rel S H (Option.map H.command) (completeCommand R) (completeCommand R') := by
  unfold completeCommand
  refine rel_bind' rel_linebreak fun ls => ?_
  refine rel_bind' rel_peek fun t => ?_
  split
  · rel
  · split
    · rel
    · exact rel_bind (rel_call (.comments ls)) fun _ => rel_pure rfl

theorem rel_backtickedCommandSubstitution :
    Rel S H H.word (backtickedCommandSubstitution R) (backtickedCommandSubstitution R') := by
  unfold backtickedCommandSubstitution
  exact rel_bind (rel_backtickedRaw hR) fun w => rel_callWord (.Single (.Simple w))

theorem rel_parameter : Rel S H H.word (parameter R) (parameter R') := by
  unfold parameter
  exact rel_bind (rel_parameterRaw hR) fun w => rel_callWord (.Single (.Simple w))

end

theorem recRel_fix (n : Nat) :
    RecRel S H (Rec.fix n : Rec I B) (Rec.fix n : Rec J C) := by
  induction n with
  | zero => exact ⟨fun _ => rel_outOfFuel, rel_outOfFuel⟩
  | succ n ih => exact ⟨rel_commandGroupInternal ih, rel_parameterRaw ih⟩

/-- Every public method: related instances run in a related way. -/
theorem rel_run {f : α → β} {m : Rec I B → P I B α} {m' : Rec J C → P J C β}
    (h : ∀ R R', RecRel S H R R' → Rel S H f (m R) (m' R')) : Rel S H f (run m) (run m') :=
  rel_len (m := fun n => m (Rec.fix n)) (m' := fun n => m' (Rec.fix n))
    (fun n => h _ _ (recRel_fix n)) 1

end Conch
