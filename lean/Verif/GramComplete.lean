import Verif.GramCmd3
/-!
# The parser reads what the grammar says

`Claim N n b l a r b'`: the function of the non-terminal `n`, with a recursion budget of `N`, reads
`a` from `l`. `complete`: it does so whenever the grammar says so.
-/
namespace Conch.Gram
open Conch

section
variable {B : Builder}

/-- What the parser does for each non-terminal. -/
def Claim (N : Nat) : (n : NT) → B.State → List Token → n.Res B → List Token → B.State → Prop
  | .piece, b, l, a, r, b' => ∀ d acc, (∀ t l', l = t :: l' → d ≠ some t) →
      Run (wordBody (Rec.fix N) d acc) l b (.cont (acc ++ [a])) r b'
  | .pieces d, b, l, a, r, b' => ∀ acc, LRun (wordBody (Rec.fix N) d) acc l b (acc ++ a) r b'
  | .rawWord d, b, l, a, r, b' => Run (wordRawDelim (Rec.fix N) d) l b a r b'
  | .wordP, b, l, a, r, b' => Run (wordPreserve (Rec.fix N)) l b a r b'
  | .word, b, l, a, r, b' => Run (word (Rec.fix N)) l b a r b'
  | .words, b, l, a, r, b' => ∀ acc, LRun (wordsBody (Rec.fix N)) acc l b (acc ++ a) r b'
  | .interpParts d, b, l, a, r, b' => ∀ delim : Option (Token × Token), delim.map (·.2) = d → ∀ ws s,
      InterpRun (Rec.fix N) delim ws s l b a r b'
  | .interp d, b, l, a, r, b' => ∀ delim : Option (Token × Token), delim.map (·.2) = d → ∀ p,
      Run (wordInterpolatedRaw (Rec.fix N) delim p) l b a r b'
  | .param, b, l, a, r, b' => Run (parameterRaw (Rec.fix N)) l b a r b'
  | .curly q, b, l, a, r, b' => ∀ p, Run (paramSubstCurly (Rec.fix N) p q) l b a r b'
  | .substPieces false, b, l, a, r, b' => SubF (Rec.fix N) l b a r b'
  | .substPieces true, b, l, a, r, b' => SubT (Rec.fix N) l b a r b'
  | .substWord, b, l, a, r, b' => ∀ p, Run (paramSubstWordRaw (Rec.fix N) p) l b a r b'
  | .backtick, b, l, a, r, b' => Run (backtickedRaw (Rec.fix N)) l b a r b'
  | .subshell ok, b, l, a, r, b' => Run (subshellInternal (Rec.fix N) ok) l b a r b'
  | .group cfg, b, l, a, r, b' => Delims.Proper cfg → ∀ acc,
      LRun (groupBody (Rec.fix N) cfg) acc l b ⟨acc ++ a.commands, a.trailingComments⟩ r b'
  | .brace, b, l, a, r, b' => Run (braceGroup (Rec.fix N)) l b a r b'
  | .doGroup, b, l, a, r, b' => Run (doGroup (Rec.fix N)) l b a r b' ∧
      ∃ l1 l2, Skip l l1 ∧ Keyword DO l1 l2 ∧ Run (doGroup (Rec.fix N)) l1 b a r b'
  | .redirTail fd, b, l, a, r, b' => ∀ fdw : Option (Nat × ComplexWordKind B.Command), fdw.map (·.1) = fd →
      Run (redirectFd (Rec.fix N) fdw) l b (some (.inl a)) r b'
  | .heredoc fd, b, l, a, r, b' => Run (redirectHeredoc (Rec.fix N) fd) l b a r b'
  | .redirect, b, l, a, r, b' => Run (redirect (Rec.fix N)) l b a r b'
  | .redirects, b, l, a, r, b' => ∀ acc, LRun (redirectListBody (Rec.fix N)) acc l b (acc ++ a) r b'
  | .assigns, b, l, a, r, b' => ∀ acc, LRun (simplePrefixBody (Rec.fix N)) acc l b (acc ++ a.1, a.2) r b'
  | .args, b, l, a, r, b' => ∀ acc, LRun (simpleArgsBody (Rec.fix N)) acc l b (acc ++ a) r b'
  | .simple, b, l, a, r, b' => Run (simpleCommand (Rec.fix N)) l b a r b'
  | .ifArms, b, l, a, r, b' => ∀ p acc,
      LRun (ifBody (Rec.fix N) p) acc l b ⟨acc ++ a.conditionals, a.elseBranch⟩ r b'
  | .ifCommand, b, l, a, r, b' => Run (ifCommand (Rec.fix N)) l b a r b'
  | .loopCommand, b, l, a, r, b' => Run (loopCommand (Rec.fix N)) l b a r b'
  | .forWords post, b, l, a, r, b' => ∀ p, Run (forWords (Rec.fix N) p post) l b a r b'
  | .forCommand, b, l, a, r, b' => Run (forCommand (Rec.fix N)) l b a r b'
  | .patterns, b, l, a, r, b' => ∀ p acc, LRun (patternBody (Rec.fix N) p) acc l b (acc ++ a) r b'
  | .arms, b, l, a, r, b' => ∀ p acc, LRun (armBody (Rec.fix N) p) acc l b (acc ++ a.1, a.2) r b'
  | .caseCommand, b, l, a, r, b' => Run (caseCommand (Rec.fix N)) l b a r b'
  | .compound kw, b, l, a, r, b' => Run (compoundCommandKw (Rec.fix N) (some kw)) l b a r b'
  | .fnStart found, b, l, a, r, b' => Run (functionBodyStart (Rec.fix N) found) l b a r b'
  | .function, b, l, a, r, b' => Run (functionDeclaration (Rec.fix N)) l b a r b'
  | .command, b, l, a, r, b' => Run (command (Rec.fix N)) l b a r b'
  | .pipelineCmds, b, l, a, r, b' => ∀ acc, LRun (pipelineBody (Rec.fix N)) acc l b (acc ++ a) r b'
  | .pipeline, b, l, a, r, b' => Run (pipeline (Rec.fix N)) l b a r b'
  | .andOrRest, b, l, a, r, b' => ∀ acc, LRun (andOrBody (Rec.fix N)) acc l b (acc ++ a) r b'
  | .andOr, b, l, a, r, b' => Run (andOrList (Rec.fix N)) l b a r b'
  | .complete pre, b, l, a, r, b' => Run (completeCommandWithComments (Rec.fix N) pre) l b a r b'
  | .top, b, l, a, r, b' => Run (completeCommand (Rec.fix N)) l b a r b'

/-- How long the input may be for a recursion budget of `N`. -/
@[reducible] def NT.Fits (N : Nat) : NT → Nat → Prop
  | .param, k => k ≤ N + 1
  | .ifArms, k => k < N
  | _, k => k ≤ N

theorem Reads.le {n : NT} {b : B.State} {l} {a : n.Res B} {r b'}
    (h : Reads n b l a r b') : r.length ≤ l.length := h.len.1

theorem group_run {N : Nat} {cfg : Conch.Delims} (hp : Delims.Proper cfg) {b : B.State} {l a r b'}
    (h : Claim N (.group cfg) b l a r b') : Run ((Rec.fix (N + 1)).group cfg) l b a r b' := by
  rw [Rec.fix_succ]
  exact (h hp []).run

theorem param_run {N : Nat} {b : B.State} {l a r b'}
    (h : Claim N .param b l a r b') : Run ((Rec.fix (N + 1)).param) l b a r b' := by
  rw [Rec.fix_succ]
  exact h

theorem Reads.subshell_head {ok} {b : B.State} {l r a b'} (h : Reads (.subshell ok) b l a r b') :
    ∃ l', l = .ParenOpen :: l' := by
  cases h; exact ⟨_, rfl⟩

theorem Reads.heredoc_head {fd} {b : B.State} {l r a b'} (h : Reads (.heredoc fd) b l a r b') :
    ∃ t l', l = t :: l' ∧ (t = .DLess ∨ t = .DLessDash) := by
  cases h <;> exact ⟨_, _, rfl, ‹_›⟩

theorem Reads.patterns_ne {b : B.State} {l r a b'} (h : Reads .patterns b l a r b') : l ≠ [] := by
  rintro rfl; have := h.len.2 trivial; simp at this

theorem LRun.app {α β : Type} {body : List α → P AIter B (Step (List α) β)} {f : List α → β} {acc : List α} {w ws l b r b'}
    (h : ∀ acc, LRun body acc l b (f (acc ++ ws)) r b') : LRun body (acc ++ [w]) l b (f (acc ++ w :: ws)) r b' := by
  have := h (acc ++ [w])
  rwa [List.append_assoc] at this

/-- Length goals. -/
macro "len" : tactic => `(tactic| (
  (try simp only [NT.Fits, List.length_append, List.length_cons, List.length_nil] at *);
  (grind [→ Skip.le, → OptLine.le, → Lines.le, → Line.lt, → Kw.lt, → Keyword.lt, → DelimToks.le, → RestOfLine.le,
    → HereLines.le, → SepAfter.le, → Parens.lt, unescape_le, → Reads.le])))

theorem complete {n : NT} {b : B.State} {l} {a : n.Res B} {r b'} (h : Reads n b l a r b') :
    ∀ N, n.Fits N l.length → Claim N n b l a r b' := by
  induction h <;> intro N hN
  case literal h => exact fun d acc hd => wordBody_literal h (hd _ _ rfl)
  case name => exact fun d acc hd => wordBody_name (hd _ _ rfl)
  case text => exact fun d acc hd => wordBody_text (hd _ _ rfl)
  case special h => exact fun d acc hd => wordBody_special h (hd _ _ rfl)
  case escaped h => exact fun d acc hd => wordBody_escaped h (hd _ _ rfl)
  case singleQuoted h => exact fun d acc hd => wordBody_single h (hd _ _ rfl)
  case doubleQuoted h ih =>
    exact fun d acc hd => wordBody_double (hd _ _ rfl) (ih N (by len) (some (.DoubleQuote, .DoubleQuote)) rfl)
  case pieceBacktick h ih =>
    obtain ⟨l', rfl⟩ := h.backtick_head
    exact fun d acc hd => wordBody_backtick (hd _ _ rfl) (ih N (by len))
  case pieceParam h ih =>
    obtain ⟨t, l', rfl, ht⟩ := h.param_head
    obtain ⟨M, rfl⟩ : ∃ M, N = M + 1 := ⟨N - 1, by len⟩
    exact fun d acc hd => wordBody_param ht (hd _ _ rfl) (param_run (ih M (by len)))
  case endWord h => exact fun acc => by rw [List.append_nil]; exact .done (wordBody_end (.inl h))
  case endCurly => exact fun acc => by rw [List.append_nil]; exact .done (wordBody_end (.inr ⟨_, _, rfl, rfl⟩))
  case endEscaped h => exact fun acc => by rw [List.append_nil]; exact .done (wordBody_endEscaped h)
  case endBackslash h => exact fun acc => by rw [List.append_nil]; exact .done (wordBody_endBackslash h)
  case consPiece w _ _ _ _ _ hd h hs ih ihs =>
    have := h.len.2 trivial
    refine fun acc => .cont (ih N (by len) _ acc hd) this ?_
    exact LRun.app (f := fun x => x) (ihs N (by len))
  case noWord h => exact wordRaw_none h
  case someWord hs hp h ih => exact wordRaw_some hs hp (ih N (by len) [])
  case wordPSome h hc ih => exact wordP_some (ih N (by len)) hc
  case wordPNone h ih => exact wordP_none (ih N (by len))
  case word h hs ih => exact word_run (ih N (by len)) hs
  case wordsNil h ih => exact fun acc => by rw [List.append_nil]; exact .done (words_nil (ih N (by len)))
  case wordsCons h hs ih ihs =>
    have := h.len.2 (by simp)
    refine fun acc => .cont (words_cons (ih N (by len))) this ?_
    exact LRun.app (f := fun x => x) (ihs N (by len))
  case interpEnd =>
    intro delim hd ws s
    rw [Option.map_eq_some_iff] at hd
    obtain ⟨⟨o, t⟩, rfl, rfl⟩ := hd
    exact interp_end rfl
  case interpEof =>
    intro delim hd ws s
    obtain rfl : delim = none := by simpa using hd
    exact interp_eof
  case interpParam hd h hs ih ihs =>
    intro delim hdel ws s
    have := h.len.2 trivial
    obtain ⟨t, l', rfl, ht⟩ := h.param_head
    obtain ⟨M, rfl⟩ : ∃ M, N = M + 1 := ⟨N - 1, by len⟩
    exact interp_cont (interpBody_param ht (hdel ▸ hd _ _ rfl) (param_run (ih M (by len)))) this
      (ihs (M + 1) (by len) delim hdel)
  case interpBacktick hd h hs ih ihs =>
    intro delim hdel ws s
    have := h.len.2 trivial
    obtain ⟨l', rfl⟩ := h.backtick_head
    exact interp_cont (interpBody_backtick (hdel ▸ hd _ _ rfl) (ih N (by len))) this
      (ihs N (by len) delim hdel)
  case interpEscaped hd h hs ihs =>
    intro delim hdel ws s
    exact interp_cont (interpBody_escaped (hdel ▸ hd) (hdel ▸ h)) (by len) (ihs N (by len) delim hdel)
  case interpBackslash hd h hne hs ihs =>
    intro delim hdel ws s
    exact interp_text (interpBody_backslash (hdel ▸ hd) (hdel ▸ h) hne) (by len) (ihs N (by len) delim hdel)
  case interpText hd h1 h2 hs ihs =>
    intro delim hdel ws s
    exact interp_text (interpBody_text (hdel ▸ hd) h1 h2) (by len) (ihs N (by len) delim hdel)
  case interp h ih =>
    intro delim hdel
    exact interp_run (ih N (by len) delim hdel [] [])
  case positional => exact param_positional
  case parameter h => exact param_name h
  case loneDollar h => exact param_lone h
  case arithmetic h1 h2 h3 h4 h5 h6 => exact param_subst (.inl rfl) (subst_arith h1 h2 h3 h4 h5 h6)
  case noArithmetic h1 h2 => exact param_subst (.inl rfl) (subst_noArith h1 h2)
  case commandSubst hl h ih =>
    obtain ⟨l', rfl⟩ := h.subshell_head
    exact param_subst (.inl rfl) (subst_command (fun l hl' => hl l (by rw [hl'])) (ih N (by len)))
  case braced hp h ih => exact param_subst (.inr rfl) (subst_braced hp (ih N (by len)))
  case curlyEnd => exact fun p => curly_end
  case curlyColonEnd => exact fun p => curly_colonEnd
  case curlyLen h ht => exact fun p => curly_len h ht
  case curlyLenSpecial h => exact fun p => curly_lenSpecial h
  case curlyOp ht h hq ih => exact fun p => curly_op ht (ih N (by len) p) hq
  case curlyColonOp ht h ih => exact fun p => curly_colonOp ht (ih N (by len) p)
  case curlyPercent hl h ih => exact fun p => curly_percent hl (ih N (by len) p)
  case curlyPercent2 h ih => exact fun p => curly_percent2 (ih N (by len) p)
  case curlyPound hl h hq ih => exact fun p => curly_pound hl (ih N (by len) p) hq
  case curlyPound2 h ih => exact fun p => curly_pound2 (ih N (by len) p)
  case substEnd mid _ =>
    cases mid
    · exact SubF.close
    · exact SubT.ofEnd (fun acc => wordBody_end (.inr ⟨_, _, rfl, rfl⟩)) (le_refl _) SubF.close
  case substDelim mid t _ _ _ _ ht h ih =>
    have := SubF.step (fun acc => lit_take (t := t) (by simp [Token.substLiteral, ht])) (by simp) (ih N (by len))
    cases mid
    · exact this
    · refine SubT.ofEnd (fun acc => wordBody_end (.inl ?_)) (le_refl _) this
      rintro t r h; cases h; exact ht
  case substPound h ih => exact SubF.step (fun acc => lit_take rfl) (by simp) (ih N (by len))
  case substEscaped h ih => exact SubF.step (fun acc => lit_escaped) (by len) (ih N (by len))
  case substDropped h ih => exact SubT.ofEnd (fun acc => wordBody_endEscaped (by simp)) (by len) (ih N (by len))
  case substPiece mid _ _ _ _ _ _ _ hc hp h hs ih ihs =>
    have hlt := h.len.2 trivial
    obtain ⟨t, l', rfl, hd, hb⟩ := h.piece_head
    have hw := fun acc => ih N (by len) (some .CurlyClose) acc
      (by rintro t l' h h'; cases h; cases h'; exact hc _ rfl)
    cases mid
    · exact SubF.piece (by rintro rfl; exact hc _ rfl) (by rintro rfl; exact hp rfl _ rfl) hd hb hw hlt
        (ihs N (by len))
    · exact SubT.piece hw hlt (ihs N (by len))
  case substWord h ih => exact fun p => substWord_run ((ih N (by len)).words [])
  case backtick u _ _ _ hb h ih =>
    obtain ⟨M, rfl⟩ : ∃ M, N = M + 1 := ⟨N - 1, by len⟩
    have := unescape_le u
    exact Run.backtick hb (group_run proper_no (ih M (by len)))
  case subshell h hg ih =>
    obtain ⟨M, rfl⟩ : ∃ M, N = M + 1 := ⟨N - 1, by len⟩
    exact subshell_run (group_run proper_paren (ih M (by len))) hg
  case groupEnd hl hd => exact fun hp acc => by rw [List.append_nil]; exact .done (group_end hp hl hd)
  case groupCons hl hd hne h hs ih ihs =>
    have := h.len.2 trivial
    refine fun hp acc => .cont (group_cons hp hl hd hne (ih N (by len))) (by len) ?_
    exact LRun.app (f := fun x => (⟨x, _⟩ : CommandGroup B.Command)) (ihs N (by len) hp)
  case brace hs he h hg hs2 he2 ih =>
    obtain ⟨M, rfl⟩ : ∃ M, N = M + 1 := ⟨N - 1, by len⟩
    exact brace_run hs he (group_run proper_brace (ih M (by len))) hg hs2 he2
  case doGroup hk h hg hk2 ih =>
    obtain ⟨M, rfl⟩ : ∃ M, N = M + 1 := ⟨N - 1, by len⟩
    have := group_run (proper_word _) (ih M (by len))
    obtain ⟨l1, hs, hkw⟩ := hk
    exact ⟨doGroup_run ⟨l1, hs, hkw⟩ this hg hk2, l1, _, hs, hkw,
      doGroup_run ⟨l1, .refl hs.noBlank, hkw⟩ this hg hk2⟩
  case redirPath ht hs h hw hc ih =>
    rintro fdw rfl
    exact redirectFd_op (pathOps_isRedirOp ht) (path_tail ht hs (getPath_run (ih N (by len)) hw) hc)
  case redirDupDash ht hs he hw hc =>
    rintro fdw rfl
    exact redirectFd_op (dupOps_isRedirOp ht) (dup_tail ht hs (getDupPath_dash (.refl hs.noBlank) he hw) hc)
  case redirDup ht hs hd h hn hw hc ih =>
    rintro fdw rfl
    exact redirectFd_op (dupOps_isRedirOp ht)
      (dup_tail ht hs (getDupPath_run hs.noBlank hd (ih N (by len)) hn hw) hc)
  case redirHeredoc h ih =>
    rintro fdw rfl
    have := ih N (by len)
    obtain ⟨t, l', rfl, ht⟩ := h.heredoc_head
    exact redirectFd_heredoc ht this
  case heredocQuoted ht hs hd hx hne hr hh hw hc =>
    exact Run.heredoc ht hs hd hx hne hr hh hereBody_quoted hw hc
  case heredoc ht hs hd hx hne hr hh h hw hc ih =>
    exact Run.heredoc ht hs hd hx hne hr hh (hereBody_unquoted (ih N (by len) none rfl)) hw hc
  case redirect h ht hs ih ihs => exact redirect_none (ih N (by len)) (ihs N (by len) none rfl)
  case redirectFd h hf ht hs ih ihs => exact redirect_fd (ih N (by len)) hf (ihs N (by len) (some (_, _)) rfl)
  case redirectWord h hk hw ih => exact redirect_word (ih N (by len)) hk hw
  case noRedirect h hk ih => exact redirect_none (ih N (by len)) (redirectFd_none hk)
  case redirectsNil hs h ih =>
    exact fun acc => by rw [List.append_nil]; exact .done (redirectList_nil hs (ih N (by len)))
  case redirectsCons hs h hr ih ihs =>
    have := h.len.2 (by simp)
    refine fun acc => .cont (redirectList_cons hs (ih N (by len))) (by len) ?_
    exact LRun.app (f := fun x => x) (ihs N (by len))
  case assignEmpty hs h ih =>
    refine fun acc => .cont (prefix_assignEmpty hs) (by len) ?_
    exact LRun.app (f := fun x => (x, _)) (ih N (by len))
  case assign hs hn h hr ih ihs =>
    refine fun acc => .cont (prefix_assign hs hn (ih N (by len))) (by len) ?_
    exact LRun.app (f := fun x => (x, _)) (ihs N (by len))
  case assignsRedirect hs hn h hr ih ihs =>
    have := h.len.2 (by simp)
    refine fun acc => .cont (prefix_other hs hn (ih N (by len)) .pure) (by len) ?_
    exact LRun.app (f := fun x => (x, _)) (ihs N (by len))
  case assignsWord hs hn h ih =>
    exact fun acc => by rw [List.append_nil]; exact .done (prefix_other hs hn (ih N (by len)) .pure)
  case assignsEnd hs hn h ih =>
    exact fun acc => by rw [List.append_nil]; exact .done (prefix_other hs hn (ih N (by len)) .pure)
  case argsRedirect h hr ih ihs =>
    have := h.len.2 (by simp)
    refine fun acc => .cont (args_step (ih N (by len))) this ?_
    exact LRun.app (f := fun x => x) (ihs N (by len))
  case argsWord h hr ih ihs =>
    have := h.len.2 (by simp)
    refine fun acc => .cont (args_step (ih N (by len))) this ?_
    exact LRun.app (f := fun x => x) (ihs N (by len))
  case argsEnd h ih => exact fun acc => by rw [List.append_nil]; exact .done (args_end (ih N (by len)))
  case simple h hs hne hc ih ihs => exact simple_run (ih N (by len) []) (ihs N (by len) _) hne hc
  case ifElif hg hgn h1 ht htn h2 h ihg iht ih =>
    intro p acc
    obtain ⟨M, rfl⟩ : ∃ M, N = M + 1 := ⟨N - 1, by len⟩
    refine .cont (ifBody_elif (group_run (proper_word _) (ihg M (by len))) hgn h1
      (group_run (proper_word _) (iht M (by len))) htn h2) (by len) ?_
    exact LRun.app (f := fun x => (⟨x, _⟩ : IfFragments B.Command)) (ih (M + 1) (by len) p)
  case ifElse hg hgn h1 ht htn h2 he hen h3 ihg iht ihe =>
    intro p acc
    obtain ⟨M, rfl⟩ : ∃ M, N = M + 1 := ⟨N - 1, by len⟩
    exact .done (ifBody_else (group_run (proper_word _) (ihg M (by len))) hgn h1
      (group_run (proper_word _) (iht M (by len))) htn h2 (group_run (proper_word _) (ihe M (by len))) hen h3)
  case ifFi hg hgn h1 ht htn h2 ihg iht =>
    intro p acc
    obtain ⟨M, rfl⟩ : ∃ M, N = M + 1 := ⟨N - 1, by len⟩
    exact .done (ifBody_fi (group_run (proper_word _) (ihg M (by len))) hgn h1
      (group_run (proper_word _) (iht M (by len))) htn h2)
  case ifCommand hk h ih => exact if_run hk fun p => ih N (by len) p []
  case loopCommand hk hg hgn h ihg ih =>
    obtain ⟨M, rfl⟩ : ∃ M, N = M + 1 := ⟨N - 1, by len⟩
    obtain ⟨-, l1, l2, hs, hkd, hd⟩ := ih (M + 1) (by len)
    exact loop_run hk (group_run (proper_word _) (ihg M (by len))) hgn hs hkd hd
  case forIn hk h h3 hc hl ih => exact fun p => for_in hk (ih N (by len) []) h3 hc hl
  case forSemi hs hl => exact fun p => for_semi hs hl
  case forDo hs hk => exact fun p => for_do hs hk
  case forCommand hk hs hc hl hw h ihw ih =>
    obtain ⟨-, l1, l2, hsd, hkd, hd⟩ := ih N (by len)
    exact for_run hk hs hc hl (ihw N (by len)) hsd hkd hd
  case patternLast h ih => exact fun p acc => .done (pattern_last (ih N (by len)))
  case patternCons h hs ih ihs =>
    have := h.len.2 (by simp)
    refine fun p acc => .cont (pattern_cons (ih N (by len))) (by len) ?_
    exact LRun.app (f := fun x => x) (ihs N (by len) p)
  case armsEnd hl hk => exact fun p acc => by rw [List.append_nil]; exact .done (arm_end hl hk)
  case armsCons hl hk hp hps hc hg hac h ihps ihg ih =>
    intro p acc
    have := hps.len.2 trivial
    obtain ⟨M, rfl⟩ : ∃ M, N = M + 1 := ⟨N - 1, by len⟩
    refine .cont (arm_start hl hk hp hps.patterns_ne (ihps (M + 1) (by len) p []) hc
      (group_run proper_arm (ihg M (by len))) (.peekCons (Run.next (.bind (.newline hac) .pure)))) (by len) ?_
    exact LRun.app (f := fun x => (x, _)) (ih (M + 1) (by len) p)
  case armsLast hl hk hp hps hc hg hr ihps ihg =>
    intro p acc
    have := hps.len.2 trivial
    obtain ⟨M, rfl⟩ : ∃ M, N = M + 1 := ⟨N - 1, by len⟩
    refine .done (arm_start hl hk hp hps.patterns_ne (ihps (M + 1) (by len) p []) hc
      (group_run proper_arm (ihg M (by len))) (.peek ?_))
    rw [if_neg (head_ne hr)]
    exact .pure
  case caseCommand hk hw hl hi hc h hr he ihw ih =>
    exact case_run hk (ihw N (by len)) hl hi hc (fun p => ih N (by len) p []) hr he
  case compoundIf h hr hc ih ihr => exact .bind (ih N (by len)) (.bind (ihr N (by len) []).run (.call hc))
  case compoundLoop hk h hr hc ih ihr =>
    rcases hk with rfl | rfl <;>
      exact Run.bind (ih N (by len)) (.bind (ihr N (by len) []).run (.call hc))
  case compoundFor h hr hc ih ihr => exact .bind (ih N (by len)) (.bind (ihr N (by len) []).run (.call hc))
  case compoundCase h hr hc ih ihr => exact .bind (ih N (by len)) (.bind (ihr N (by len) []).run (.call hc))
  case compoundBrace h hr hc ih ihr => exact .bind (ih N (by len)) (.bind (ihr N (by len) []).run (.call hc))
  case compoundSubshell h hr hc ih ihr => exact .bind (ih N (by len)) (.bind (ihr N (by len) []).run (.call hc))
  case fnParens h => exact fn_parens h
  case fnNewline => exact fn_newline
  case fnWsParens hs h => exact fn_ws hs (Run.bind (parens_run h) .pure)
  case fnWs hs h =>
    refine fn_ws hs (.peek ?_)
    rw [if_neg (head_ne h)]
    exact .pure
  case fnEmpty hs h ih =>
    have := ih N (by len)
    obtain ⟨l', rfl⟩ := h.subshell_head
    exact fn_ws hs (.peekCons (Run.bind this .pure))
  case fnSubshell g _ _ _ _ hs h hg hc ih =>
    have := ih N (by len)
    obtain ⟨l', rfl⟩ := h.subshell_head
    refine fn_ws hs (.peekCons (Run.bind this ?_))
    rw [if_neg]
    · exact .bind (.call hc) .pure
    · obtain ⟨cs, ts⟩ := g
      simp at hg ⊢
      exact hg
  case function hf hs h hl hk hcomp hc ih ihc =>
    refine function_run (function_head hf hs (.bind (ih N (by len)) (.bind (.linebreak hl) ?_))) hc
    unfold compoundCommand
    refine .bind (.bind (compoundKw_run (.refl hl.noBlank) hk) (ihc N (by len))) .pure
  case functionSubshell hf hs h hc ih =>
    exact function_run (function_head (.inl ⟨rfl, hf⟩) hs (.bind (ih N (by len)) .pure)) hc
  case commandCompound hs hk h hc ih => exact command_compound hs hk (ih N (by len)) hc
  case commandFunction hs hk hf h ih => exact command_function hs hk hf (ih N (by len))
  case commandSimple hs hk hf h ih => exact command_simple hs hk hf (ih N (by len))
  case pipeLast hl h hr ih => exact fun acc => .done (pipe_last hl (ih N (by len)) hr)
  case pipeCons hl h hn hs ih ihs =>
    have := h.len.2 trivial
    refine fun acc => .cont (pipe_cons hl (ih N (by len)) hn) (by len) ?_
    exact LRun.app (f := fun x => x) (ihs N (by len))
  case pipeline hs hb h hc ih => exact pipeline_run hs hb (ih N (by len) []) hc
  case andOrEnd hs hr => exact fun acc => by rw [List.append_nil]; exact .done (andOr_end hs hr)
  case andOrAnd hs hl h hr ih ihs =>
    refine fun acc => .cont (andOr_and hs hl (ih N (by len))) (by len) ?_
    exact LRun.app (f := fun x => x) (ihs N (by len))
  case andOrOr hs hl h hr ih ihs =>
    refine fun acc => .cont (andOr_or hs hl (ih N (by len))) (by len) ?_
    exact LRun.app (f := fun x => x) (ihs N (by len))
  case andOr h hr hc ih ihs => exact andOr_run (ih N (by len)) (ihs N (by len) []) hc
  case complete h hs hc ih => exact complete_run (ih N (by len)) hs hc
  case topCommand hl hne h ih => exact top_command hl hne (ih N (by len))
  case topNone hl => exact top_none hl
  case topComments hl hn hc => exact top_comments hl hn hc

end
end Conch.Gram
