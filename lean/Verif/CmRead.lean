import Verif.CmEnd
/-!
# A comment before the newline at the end of input: reading
-/
namespace Conch.Gram
open Conch

/-- What cannot be read at all from the newline at the end. -/
def NT.tin : NT → Bool
  | .pieces _ => true
  | _ => false

/-- What does not skip blanks at its end. -/
def NT.tout : NT → Bool
  | .piece | .param | .backtick | .curly _ | .substWord | .substPieces _ | .subshell _ | .interp _ | .interpParts _ | .doGroup
    | .brace | .ifArms | .ifCommand | .loopCommand | .forCommand | .caseCommand => true
  | _ => false

section
variable {B : Builder} {b b' : B.State} {l r : List Token}

theorem Reads.interp_room1 {d a} (h : Reads (B := B) (.interpParts d) b l a r b')
    (hr : 1 + (NT.interpParts d).slack a ≤ r.length) : 1 < l.length := by
  by_cases hd : d = some .DoubleQuote
  · subst hd; have := h.interp_lt; omega
  · have := h.le; simp [NT.slack, hd] at hr; omega

/-- From a newline no part of a word is read. -/
theorem Reads.pieces_newline {d ws} (h : Reads (B := B) (.pieces d) b [.Newline] ws r b') :
    ws = [] ∧ r = [.Newline] ∧ b' = b := by
  generalize e : [Token.Newline] = l at h
  cases h with
  | endWord => exact ⟨rfl, rfl, rfl⟩
  | endCurly => exact ⟨rfl, rfl, rfl⟩
  | endEscaped => cases e
  | endBackslash => cases e
  | consPiece _ h _ =>
    exfalso
    subst e
    generalize e : [Token.Newline] = l at h
    cases h with
    | literal h1 => cases e; simp [literalTokens] at h1
    | special h1 => cases e; simp [specialTokens] at h1
    | pieceBacktick h => cases h; cases e
    | pieceParam h => cases h <;> cases e
    | _ => cases e

theorem skip_newline {r : List Token} (h : Skip [.Newline] r) : r = [.Newline] := (h.eq (by simp [NoBlank])).symm

/-- Nor a word. -/
theorem Reads.word_newline {v} (h : Reads (B := B) .word b [.Newline] v r b') : v = none ∧ r = [.Newline] ∧ b' = b := by
  cases h with
  | word h h2 =>
    have raw : ∀ {k l' b'}, Reads (B := B) (.rawWord none) b [.Newline] k l' b' → k = none ∧ l' = [.Newline] ∧ b' = b := by
      intro k l' b' h
      cases h with
      | noWord h => exact absurd (skip_newline h) (by simp)
      | someWord h1 _ h3 =>
        obtain rfl := skip_newline h1
        obtain ⟨rfl, rfl, rfl⟩ := h3.pieces_newline
        exact ⟨rfl, rfl, rfl⟩
    cases h with
    | wordPSome h _ => have := (raw h).1; cases this
    | wordPNone h =>
      obtain ⟨-, rfl, rfl⟩ := raw h
      exact ⟨rfl, skip_newline h2, rfl⟩
end

local macro "len" : tactic => `(tactic| (dsimp only [NT.slack] at *; grind (gen := 30) (ematch := 20) [→ Reads.le, → Skip.le, → OptLine.le, → Lines.le, → Kw.lt,
  → Keyword.lt, → SepAfter.le, → Parens.lt, → Reads.piece_lt, → Reads.param_lt, → Reads.backtick_lt, → Reads.doGroup_lt,
  → Reads.patterns_lt, → Reads.subshell_lt, → Reads.compound_lt, → Reads.command_lt, → Reads.pipelineCmds_lt, → Reads.pipeline_lt,
  → Reads.complete_lt]))

set_option maxHeartbeats 4000000 in
theorem Reads.cmEnd {B : Builder} {w0 : Str} {T : List Token} {n : NT} {b : B.State} {l}
    {a : n.Res B} {r b'} (h : Reads n b l a r b') : n.Proper → ∀ l', CmEnd w0 T n.tin l l' → 1 + n.slack a ≤ r.length →
      ∃ r', CmEnd w0 T n.tout r r' ∧ Reads n b l' a r' b' := by
  induction h with
  | literal h1 => intro _ l' e hr; obtain ⟨r', rfl, e01⟩ := e.cons_strict (by len); exact ⟨r', e01, .literal h1⟩
  | name => intro _ l' e hr; obtain ⟨r', rfl, e01⟩ := e.cons_strict (by len); exact ⟨r', e01, .name⟩
  | text => intro _ l' e hr; obtain ⟨r', rfl, e01⟩ := e.cons_strict (by len); exact ⟨r', e01, .text⟩
  | special h1 => intro _ l' e hr; obtain ⟨r', rfl, e01⟩ := e.cons_strict (by len); exact ⟨r', e01, .special h1⟩
  | escaped h1 =>
    intro _ l' e hr
    obtain ⟨r1, rfl, e01⟩ := e.cons (by len)
    obtain ⟨r', rfl, e02⟩ := e01.cons_strict (by len)
    exact ⟨r', e02, .escaped h1⟩
  | @singleQuoted b u r h1 =>
    intro _ l' e hr
    obtain ⟨r', rfl, e01⟩ := CmEnd.suffix_strict (v := .SingleQuote :: u ++ [.SingleQuote]) (r := r) (by simpa using e) (.inl (by simp)) (by len)
    exact ⟨r', e01, by simpa using Reads.singleQuoted (r := r') h1⟩
  | doubleQuoted h1 ih =>
    intro _ l' e hr
    obtain ⟨l1, rfl, e01⟩ := e.cons_strict (by len)
    obtain ⟨r', e02, h2⟩ := ih trivial _ e01.weak hr
    exact ⟨r', e02, .doubleQuoted h2⟩
  | pieceBacktick h1 ih =>
    intro _ l' e hr
    obtain ⟨r', e01, h2⟩ := ih trivial _ e hr
    exact ⟨r', e01, .pieceBacktick h2⟩
  | pieceParam h1 ih =>
    intro _ l' e hr
    obtain ⟨r', e01, h2⟩ := ih trivial _ e hr
    exact ⟨r', e01, .pieceParam h2⟩
  | endWord h1 => intro _ l' e hr; exact ⟨l', CmEnd.weak e, .endWord (e.endsWord h1)⟩
  | endCurly =>
    intro _ l' e hr
    rename_i d r0 _
    by_cases h0 : 1 < (d :: r0).length
    · have := e.head h0
      cases l' with
      | nil => simp at this
      | cons t l' =>
        simp at this
        subst this
        exact ⟨_, CmEnd.weak e, .endCurly⟩
    · obtain ⟨h1, -⟩ := e.one (by omega)
      cases h1
      exact ⟨_, CmEnd.weak e, .endWord (e.endsWord (by rintro _ _ e; cases e; rfl))⟩
  | endEscaped h1 =>
    intro _ l' e hr
    obtain ⟨r1, rfl, e01⟩ := e.cons (by len)
    obtain ⟨r', rfl, e02⟩ := e01.cons (by len)
    exact ⟨r', e02, .endEscaped h1⟩
  | endBackslash => intro _ l' e hr; exact e.last.elim
  | consPiece h1 h2 h3 ih1 ih2 =>
    intro _ l' e hr
    obtain ⟨l1, e1, g1⟩ := ih1 trivial _ (CmEnd.weak e) (by len)
    obtain ⟨r', e2, g2⟩ := ih2 trivial _ e1 hr
    exact ⟨r', e2, .consPiece (e.heads (by len) h1) g1 g2⟩
  | noWord h1 =>
    intro _ l' e hr
    obtain ⟨r1, e1, h2⟩ := e.skip h1 (by len)
    obtain ⟨r', rfl, e2⟩ := e1.cons_ne (by simp)
    exact ⟨_, e1, .noWord h2⟩
  | someWord h1 h2 h3 ih =>
    intro _ l' e hr
    obtain ⟨l1, e1, g1, h4⟩ := e.skip' h1 (by len)
    rcases h4 with h4 | ⟨rfl, rfl⟩
    · obtain ⟨r', e2, g2⟩ := ih trivial _ (e1.strict h4) hr
      exact ⟨r', e2, .someWord g1 (e1.ne_lt h4 h2) g2⟩
    · obtain ⟨rfl, rfl, rfl⟩ := h3.pieces_newline
      refine ⟨l1, e1, ?_⟩
      obtain ⟨q, rfl | rfl⟩ := e1.1
      · exact .noWord g1
      · exact .someWord g1 (by simp) (.endWord (by rintro _ _ e; cases e; rfl))
  | wordPSome h1 h2 ih =>
    intro _ l' e hr
    obtain ⟨r', e2, g2⟩ := ih trivial _ e hr
    exact ⟨r', e2, .wordPSome g2 h2⟩
  | wordPNone h1 ih =>
    intro _ l' e hr
    obtain ⟨r', e2, g2⟩ := ih trivial _ e hr
    exact ⟨r', e2, .wordPNone g2⟩
  | word h1 h2 ih =>
    intro _ l' e hr
    obtain ⟨l1, e1, g1⟩ := ih trivial _ e (by len)
    obtain ⟨r', e2, g2⟩ := e1.skip h2 (by len)
    exact ⟨r', e2, .word g1 g2⟩
  | wordsNil h1 ih =>
    intro _ l' e hr
    obtain ⟨r', e2, g2⟩ := ih trivial _ e hr
    exact ⟨r', e2, .wordsNil g2⟩
  | wordsCons h1 h2 ih1 ih2 =>
    intro _ l' e hr
    obtain ⟨l1, e1, g1⟩ := ih1 trivial _ e (by len)
    obtain ⟨r', e2, g2⟩ := ih2 trivial _ e1 hr
    exact ⟨r', e2, .wordsCons g1 g2⟩
  | interpEnd => intro _ l' e hr; obtain ⟨r', rfl, e01⟩ := e.cons_strict (by len); exact ⟨r', e01, .interpEnd⟩
  | interpEof => intro _ l' e hr; simp [NT.slack] at hr
  | interpParam h1 h2 h3 ih1 ih2 =>
    intro _ l' e hr
    obtain ⟨l1, e1, g1⟩ := ih1 trivial _ e (by len)
    obtain ⟨r', e2, g2⟩ := ih2 trivial _ (CmEnd.weak e1) hr
    exact ⟨r', e2, .interpParam (e.heads (by len) h1) g1 g2⟩
  | interpBacktick h1 h2 h3 ih1 ih2 =>
    intro _ l' e hr
    obtain ⟨l1, e1, g1⟩ := ih1 trivial _ e (by len)
    obtain ⟨r', e2, g2⟩ := ih2 trivial _ (CmEnd.weak e1) hr
    exact ⟨r', e2, .interpBacktick (e.heads (by len) h1) g1 g2⟩
  | interpEscaped h1 h2 h3 ih =>
    intro _ l' e hr
    obtain ⟨r1, rfl, e01⟩ := e.cons (by len)
    obtain ⟨r2, rfl, e02⟩ := e01.cons (by len)
    obtain ⟨r', e2, g2⟩ := ih trivial _ e02 hr
    exact ⟨r', e2, .interpEscaped h1 h2 g2⟩
  | interpBackslash h1 h2 h3 h4 ih =>
    intro _ l' e hr
    obtain ⟨r1, rfl, e01⟩ := e.cons (by len)
    obtain ⟨r', e2, g2⟩ := ih trivial _ e01 hr
    exact ⟨r', e2, .interpBackslash h1 (e01.heads (h4.interp_room1 hr) h2) (e01.nonempty') g2⟩
  | interpText h1 h2 h3 h4 ih =>
    intro _ l' e hr
    obtain ⟨r1, rfl, e01⟩ := e.cons (by len)
    obtain ⟨r', e2, g2⟩ := ih trivial _ e01 hr
    exact ⟨r', e2, .interpText h1 h2 h3 g2⟩
  | interp h1 ih =>
    intro _ l' e hr
    obtain ⟨r', e2, g2⟩ := ih trivial _ e hr
    exact ⟨r', e2, .interp g2⟩
  | positional => intro _ l' e hr; obtain ⟨r', rfl, e01⟩ := e.cons_strict (by len); exact ⟨r', e01, .positional⟩
  | parameter h1 =>
    intro _ l' e hr
    obtain ⟨r1, rfl, e01⟩ := e.cons (by len)
    obtain ⟨r2, rfl, e02⟩ := e01.cons_strict (by len)
    exact ⟨r2, e02, .parameter h1⟩
  | loneDollar h1 =>
    intro _ l' e hr
    obtain ⟨r1, rfl, e01⟩ := e.cons_strict (by len)
    exact ⟨r1, e01, .loneDollar (e01.heads_nl (fun _ => ⟨by simp, by simp, by rintro q (h | _); simp [specialParams] at h⟩) (.inl rfl) h1)⟩
  | @arithmetic b l l' u l1 l2 a r h1 h2 h3 h4 h5 h6 =>
    intro _ l' e hr
    obtain ⟨r1, rfl, e01⟩ := e.cons (by len)
    obtain ⟨r2, rfl, e02⟩ := e01.cons (by len)
    obtain ⟨r3, rfl, e03⟩ := e02.cons (by len)
    obtain ⟨r4, e1, g1⟩ := e03.skip h1 (by len)
    subst h3
    obtain ⟨r5, rfl, e2⟩ := e1.suffix_lt (by len)
    obtain ⟨r6, e3, g3⟩ := e2.skip_cons h5 (by len)
    obtain ⟨r7, e4, g4⟩ := e3.skip_cons_strict h6 (by len)
    exact ⟨r7, e4, .arithmetic g1 (e1.ne h2) rfl h4 g3 g4⟩
  | noArithmetic h1 h2 =>
    intro _ l' e hr
    obtain ⟨r1, rfl, e01⟩ := e.cons (by len)
    obtain ⟨r2, rfl, e02⟩ := e01.cons (by len)
    obtain ⟨r3, rfl, e03⟩ := e02.cons (by len)
    obtain ⟨r6, e3, g3⟩ := e03.skip_cons h1 (by len)
    obtain ⟨r7, e4, g4⟩ := e3.skip_cons_strict h2 (by len)
    exact ⟨r7, e4, .noArithmetic g3 g4⟩
  | commandSubst h1 h2 ih =>
    intro _ l' e hr
    obtain ⟨r1, rfl, e01⟩ := e.cons (by len)
    obtain ⟨r', e2, g2⟩ := ih trivial _ e01 hr
    exact ⟨r', e2, .commandSubst (e01.ne2 (by simp [CmEnd.Other]) (by simp [CmEnd.Other]) h1) g2⟩
  | braced h1 h2 ih =>
    intro _ l' e hr
    obtain ⟨r1, rfl, e01⟩ := e.cons (by len)
    obtain ⟨r2, rfl, e02⟩ := e01.cons (by len)
    obtain ⟨r3, rfl, e03⟩ := e02.cons (by len)
    obtain ⟨r', e2, g2⟩ := ih trivial _ e03 hr
    exact ⟨r', e2, .braced h1 g2⟩
  | curlyEnd => intro _ l' e hr; obtain ⟨r', rfl, e01⟩ := e.cons_strict (by len); exact ⟨r', e01, .curlyEnd⟩
  | curlyColonEnd =>
    intro _ l' e hr
    obtain ⟨r1, rfl, e01⟩ := e.cons (by len)
    obtain ⟨r', rfl, e02⟩ := e01.cons_strict (by len); exact ⟨r', e02, .curlyColonEnd⟩
  | curlyLen h1 h2 =>
    intro _ l' e hr
    obtain ⟨r1, rfl, e01⟩ := e.cons (by len)
    obtain ⟨r', rfl, e02⟩ := e01.cons_strict (by len); exact ⟨r', e02, .curlyLen h1 h2⟩
  | curlyLenSpecial h1 =>
    intro _ l' e hr
    obtain ⟨r1, rfl, e01⟩ := e.cons (by len)
    obtain ⟨r', rfl, e02⟩ := e01.cons_strict (by len); exact ⟨r', e02, .curlyLenSpecial h1⟩
  | curlyOp h1 h2 h3 ih =>
    intro _ l' e hr
    obtain ⟨r1, rfl, e01⟩ := e.cons (by len)
    obtain ⟨r', e2, g2⟩ := ih trivial _ e01 hr
    exact ⟨r', e2, .curlyOp h1 g2 h3⟩
  | curlyColonOp h1 h2 ih =>
    intro _ l' e hr
    obtain ⟨r1, rfl, e01⟩ := e.cons (by len)
    obtain ⟨r2, rfl, e02⟩ := e01.cons (by len)
    obtain ⟨r', e2, g2⟩ := ih trivial _ e02 hr
    exact ⟨r', e2, .curlyColonOp h1 g2⟩
  | curlyPercent h1 h2 ih =>
    intro _ l' e hr
    obtain ⟨r1, rfl, e01⟩ := e.cons (by len)
    obtain ⟨r', e2, g2⟩ := ih trivial _ e01 hr
    exact ⟨r', e2, .curlyPercent (e01.ne h1) g2⟩
  | curlyPercent2 h1 ih =>
    intro _ l' e hr
    obtain ⟨r1, rfl, e01⟩ := e.cons (by len)
    obtain ⟨r2, rfl, e02⟩ := e01.cons (by len)
    obtain ⟨r', e2, g2⟩ := ih trivial _ e02 hr
    exact ⟨r', e2, .curlyPercent2 g2⟩
  | curlyPound h1 h2 h3 ih =>
    intro _ l' e hr
    obtain ⟨r1, rfl, e01⟩ := e.cons_strict (by len)
    obtain ⟨r', e2, g2⟩ := ih trivial _ e01.weak hr
    exact ⟨r', e2, .curlyPound (e01.ne_pound h1) g2 h3⟩
  | curlyPound2 h1 ih =>
    intro _ l' e hr
    obtain ⟨r1, rfl, e01⟩ := e.cons (by len)
    obtain ⟨r2, rfl, e02⟩ := e01.cons (by len)
    obtain ⟨r', e2, g2⟩ := ih trivial _ e02 hr
    exact ⟨r', e2, .curlyPound2 g2⟩
  | substEnd => intro _ l' e hr; obtain ⟨r', rfl, e01⟩ := e.cons_strict (by len); exact ⟨r', e01, .substEnd⟩
  | substDelim h1 h2 ih =>
    intro _ l' e hr
    obtain ⟨r1, rfl, e01⟩ := e.cons (by len)
    obtain ⟨r', e2, g2⟩ := ih trivial _ e01 hr
    exact ⟨r', e2, .substDelim h1 g2⟩
  | substPound h1 ih =>
    intro _ l' e hr
    obtain ⟨r1, rfl, e01⟩ := e.cons (by len)
    obtain ⟨r', e2, g2⟩ := ih trivial _ e01 hr
    exact ⟨r', e2, .substPound g2⟩
  | substEscaped h1 ih =>
    intro _ l' e hr
    obtain ⟨r1, rfl, e01⟩ := e.cons (by len)
    obtain ⟨r2, rfl, e02⟩ := e01.cons (by len)
    obtain ⟨r', e2, g2⟩ := ih trivial _ e02 hr
    exact ⟨r', e2, .substEscaped g2⟩
  | substDropped h1 ih =>
    intro _ l' e hr
    obtain ⟨r1, rfl, e01⟩ := e.cons (by len)
    obtain ⟨r2, rfl, e02⟩ := e01.cons (by len)
    obtain ⟨r', e2, g2⟩ := ih trivial _ e02 hr
    exact ⟨r', e2, .substDropped g2⟩
  | substPiece h1 h2 h3 h4 ih1 ih2 =>
    intro _ l' e hr
    obtain ⟨l1, e1, g1⟩ := ih1 trivial _ e (by len)
    obtain ⟨r', e2, g2⟩ := ih2 trivial _ (CmEnd.weak e1) hr
    exact ⟨r', e2, .substPiece (e.ne h1) (fun hm => e.ne_lt (by len) (h2 hm)) g1 g2⟩
  | substWord h1 ih =>
    intro _ l' e hr
    obtain ⟨r', e2, g2⟩ := ih trivial _ e hr
    exact ⟨r', e2, .substWord g2⟩
  | @backtick b u r g b' h1 h2 _ =>
    intro _ l' e hr
    obtain ⟨r', rfl, e01⟩ := CmEnd.suffix_strict (v := .Backtick :: u ++ [.Backtick]) (r := r) (by simpa using e) (.inl (by simp)) (by len)
    exact ⟨r', e01, by simpa using Reads.backtick (r := r') h1 h2⟩
  | subshell h1 h2 ih =>
    intro _ l' e hr
    obtain ⟨r1, rfl, e01⟩ := e.cons (by len)
    obtain ⟨r2, e2, g2⟩ := ih proper_paren _ e01 (by len)
    obtain ⟨r', rfl, e3⟩ := e2.cons_strict (by len)
    exact ⟨r', e3, .subshell g2 h2⟩
  | groupEnd h1 h2 =>
    intro hp l' e hr
    obtain ⟨r', e2, g2⟩ := e.lines h1 (by len)
    refine ⟨r', e2, .groupEnd g2 (.inl (e2.atDelim hp (h2.resolve_right ?_)))⟩
    rintro rfl; simp [NT.slack] at hr
  | groupCons h1 h2 h3 h4 h5 ih1 ih2 =>
    intro hp l' e hr
    obtain ⟨l1, e1, g1⟩ := e.lines h1 (by len)
    obtain ⟨l2, e2, g2⟩ := ih1 trivial _ e1 (by len)
    obtain ⟨r', e3, g3⟩ := ih2 hp _ e2 hr
    exact ⟨r', e3, .groupCons g1 (fun h => h2 (e1.atDelim' hp h)) (e1.nonempty') g2 g3⟩
  | brace h1 h2 h3 h4 h5 h6 ih =>
    intro _ l' e hr
    obtain ⟨l1, e1, g1⟩ := e.skip_cons_strict h1 (by len)
    obtain ⟨l2, e2, g2⟩ := ih proper_brace _ e1.weak (by len)
    obtain ⟨r', e3, g3⟩ := e2.skip_cons_strict h5 (by len)
    exact ⟨r', e3, .brace g1 (e1.endsWord h2) g2 h4 g3 (e3.endsWord h6)⟩
  | doGroup h1 h2 h3 h4 ih =>
    intro _ l' e hr
    obtain ⟨l1, e1, g1⟩ := e.kw h1 (by len)
    obtain ⟨l2, e2, g2⟩ := ih (proper_word _) _ e1 (by len)
    obtain ⟨r', e3, g3⟩ := e2.kw_strict h4 (by len)
    exact ⟨r', e3, .doGroup g1 g2 h3 g3⟩
  | redirPath h1 h2 h3 h4 h5 ih =>
    intro _ l' e hr
    obtain ⟨l1, rfl, e01⟩ := e.cons (by len)
    obtain ⟨l1, e1, g1⟩ := e01.skip h2 (by len)
    obtain ⟨r', e2, g2⟩ := ih trivial _ e1 hr
    exact ⟨r', e2, .redirPath h1 g1 g2 h4 h5⟩
  | redirDupDash h1 h2 h3 h4 h5 =>
    intro _ l' e hr
    obtain ⟨l1, rfl, e01⟩ := e.cons (by len)
    obtain ⟨r', e1, g1⟩ := e01.skip_cons_strict h2 (by len)
    exact ⟨r', e1.weak, .redirDupDash h1 g1 (e1.endsWord h3) h4 h5⟩
  | redirDup h1 h2 h3 h4 h5 h6 h7 ih =>
    intro _ l' e hr
    obtain ⟨l1, rfl, e01⟩ := e.cons (by len)
    obtain ⟨l1, e1, g1⟩ := e01.skip h2 (by len)
    obtain ⟨r', e2, g2⟩ := ih trivial _ e1 hr
    refine ⟨r', e2, .redirDup h1 g1 ?_ g2 h5 h6 h7⟩
    rintro r rfl he
    obtain ⟨r2, rfl, e3⟩ := e1.cons_ne' (by simp [CmEnd.Other])
    exact h3 _ rfl (e3.endsWord' he)
  | redirHeredoc h1 ih =>
    intro _ l' e hr
    obtain ⟨r', e2, g2⟩ := ih trivial _ e hr
    exact ⟨r', e2, .redirHeredoc g2⟩
  | heredocQuoted h0 => intro _ l' e hr; exact absurd h0 e.here
  | heredoc h0 => intro _ l' e hr; exact absurd h0 e.here
  | redirect h1 h2 h3 ih1 ih2 =>
    intro _ l' e hr
    obtain ⟨l1, e1, g1⟩ := ih1 trivial _ e (by len)
    obtain ⟨l2, rfl, -⟩ := e1.cons_ne (by rintro rfl; simp [redirOps] at h2)
    obtain ⟨r', e2, g2⟩ := ih2 trivial _ e1 hr
    exact ⟨r', e2, .redirect g1 h2 g2⟩
  | redirectFd h1 h2 h3 h4 ih1 ih2 =>
    intro _ l' e hr
    obtain ⟨l1, e1, g1⟩ := ih1 trivial _ e (by len)
    obtain ⟨l2, rfl, -⟩ := e1.cons_ne (by rintro rfl; simp [redirOps] at h3)
    obtain ⟨r', e2, g2⟩ := ih2 trivial _ e1 hr
    exact ⟨r', e2, .redirectFd g1 h2 h3 g2⟩
  | redirectWord h1 h2 h3 ih =>
    intro _ l' e hr
    obtain ⟨r', e2, g2⟩ := ih trivial _ e hr
    exact ⟨r', e2, .redirectWord g2 (fun h => e2.heads_nl (by simp [redirOps]) (.inr (by simp [redirOps])) (h2 h)) h3⟩
  | noRedirect h1 h2 ih =>
    intro _ l' e hr
    obtain ⟨r', e2, g2⟩ := ih trivial _ e hr
    exact ⟨r', e2, .noRedirect g2 (e2.heads_nl (by simp [redirOps]) (.inr (by simp [redirOps])) h2)⟩
  | redirectsNil h1 h2 ih =>
    intro _ l' e hr
    obtain ⟨l1, e1, g1⟩ := e.skip h1 (by len)
    obtain ⟨r', e2, g2⟩ := ih trivial _ e1 hr
    exact ⟨r', e2, .redirectsNil g1 g2⟩
  | redirectsCons h1 h2 h3 ih1 ih2 =>
    intro _ l' e hr
    obtain ⟨l1, e1, g1⟩ := e.skip h1 (by len)
    obtain ⟨l2, e2, g2⟩ := ih1 trivial _ e1 (by len)
    obtain ⟨r', e3, g3⟩ := ih2 trivial _ e2 hr
    exact ⟨r', e3, .redirectsCons g1 g2 g3⟩
  | assignEmpty h1 h2 ih =>
    intro _ l' e hr
    obtain ⟨l1, e1, g1⟩ := e.skip_cons h1 (by len)
    obtain ⟨l2, rfl, e2⟩ := e1.cons_ne (by simp)
    obtain ⟨l3, rfl, -⟩ := e2.cons_ne (by simp)
    obtain ⟨r', e3, g3⟩ := ih trivial _ e2 hr
    exact ⟨r', e3, .assignEmpty g1 g3⟩
  | @assign b l x l' v l2 b' as en r b'' h1 h2 h3 h4 ih1 ih2 =>
    intro _ lq e hr
    obtain ⟨l1, e1, g1⟩ := e.skip_cons h1 (by len)
    obtain ⟨l3, rfl, e2⟩ := e1.cons_ne_strict (by simp)
    by_cases hl : 1 < l'.length
    · obtain ⟨l4, e3, g3⟩ := ih1 trivial _ e2.weak (by len)
      obtain ⟨r', e4, g4⟩ := ih2 trivial _ e3 hr
      refine ⟨r', e4, .assign g1 ?_ g3 g4⟩
      have := e2.heads hl (P := fun t => ∀ w, t ≠ .Whitespace w) (by rintro t r rfl w rfl; exact h2 _ _ rfl)
      rintro w r rfl
      exact this _ _ rfl w rfl
    · obtain ⟨rfl, -⟩ := e2.one (by omega)
      obtain ⟨rfl, rfl, rfl⟩ := h3.word_newline
      have e3 : l3 = .Whitespace w0 :: T := by
        rcases e2.2 with ⟨y, -, h5, h6⟩ | ⟨h5, -⟩
        · obtain rfl : y = [] := by simpa using h5.symm
          exact h6
        · cases h5
      subst e3
      obtain ⟨r', e4, g4⟩ := ih2 trivial _ e2.weak hr
      exact ⟨r', e4, .assignEmpty g1 g4⟩
  | assignsRedirect h1 h2 h3 h4 ih1 ih2 =>
    intro _ l' e hr
    obtain ⟨l1, e1, g1⟩ := e.skip h1 (by len)
    obtain ⟨l3, e3, g3⟩ := ih1 trivial _ e1 (by len)
    obtain ⟨r', e4, g4⟩ := ih2 trivial _ e3 hr
    exact ⟨r', e4, .assignsRedirect g1 (fun h => h2 (e1.assignStart' h)) g3 g4⟩
  | assignsWord h1 h2 h3 ih =>
    intro _ l' e hr
    obtain ⟨l1, e1, g1⟩ := e.skip h1 (by len)
    obtain ⟨r', e4, g4⟩ := ih trivial _ e1 hr
    exact ⟨r', e4, .assignsWord g1 (fun h => h2 (e1.assignStart' h)) g4⟩
  | assignsEnd h1 h2 h3 ih =>
    intro _ l' e hr
    obtain ⟨l1, e1, g1⟩ := e.skip h1 (by len)
    obtain ⟨r', e4, g4⟩ := ih trivial _ e1 hr
    exact ⟨r', e4, .assignsEnd g1 (fun h => h2 (e1.assignStart' h)) g4⟩
  | argsRedirect h1 h2 ih1 ih2 =>
    intro _ l' e hr
    obtain ⟨l3, e3, g3⟩ := ih1 trivial _ e (by len)
    obtain ⟨r', e4, g4⟩ := ih2 trivial _ e3 hr
    exact ⟨r', e4, .argsRedirect g3 g4⟩
  | argsWord h1 h2 ih1 ih2 =>
    intro _ l' e hr
    obtain ⟨l3, e3, g3⟩ := ih1 trivial _ e (by len)
    obtain ⟨r', e4, g4⟩ := ih2 trivial _ e3 hr
    exact ⟨r', e4, .argsWord g3 g4⟩
  | argsEnd h1 ih =>
    intro _ l' e hr
    obtain ⟨r', e4, g4⟩ := ih trivial _ e hr
    exact ⟨r', e4, .argsEnd g4⟩
  | simple h1 h2 h3 h4 ih1 ih2 =>
    intro _ l' e hr
    obtain ⟨l3, e3, g3⟩ := ih1 trivial _ e (by len)
    obtain ⟨r', e4, g4⟩ := ih2 trivial _ e3 hr
    exact ⟨r', e4, .simple g3 g4 h3 h4⟩
  | ifElif h1 h2 h3 h4 h5 h6 h7 ih1 ih2 ih3 =>
    intro _ l' e hr
    obtain ⟨l1, e1, g1⟩ := ih1 (proper_word _) _ e (by len)
    obtain ⟨l2, e2, g2⟩ := e1.kw h3 (by len)
    obtain ⟨l3, e3, g3⟩ := ih2 (proper_word _) _ e2 (by len)
    obtain ⟨l4, e4, g4⟩ := e3.kw h6 (by len)
    obtain ⟨r', e5, g5⟩ := ih3 trivial _ e4 hr
    exact ⟨r', e5, .ifElif g1 h2 g2 g3 h5 g4 g5⟩
  | ifElse h1 h2 h3 h4 h5 h6 h7 h8 h9 ih1 ih2 ih3 =>
    intro _ l' e hr
    obtain ⟨l1, e1, g1⟩ := ih1 (proper_word _) _ e (by len)
    obtain ⟨l2, e2, g2⟩ := e1.kw h3 (by len)
    obtain ⟨l3, e3, g3⟩ := ih2 (proper_word _) _ e2 (by len)
    obtain ⟨l4, e4, g4⟩ := e3.kw h6 (by len)
    obtain ⟨l5, e5, g5⟩ := ih3 (proper_word _) _ e4 (by len)
    obtain ⟨r', e6, g6⟩ := e5.kw_strict h9 (by len)
    exact ⟨r', e6, .ifElse g1 h2 g2 g3 h5 g4 g5 h8 g6⟩
  | ifFi h1 h2 h3 h4 h5 h6 ih1 ih2 =>
    intro _ l' e hr
    obtain ⟨l1, e1, g1⟩ := ih1 (proper_word _) _ e (by len)
    obtain ⟨l2, e2, g2⟩ := e1.kw h3 (by len)
    obtain ⟨l3, e3, g3⟩ := ih2 (proper_word _) _ e2 (by len)
    obtain ⟨r', e6, g6⟩ := e3.kw_strict h6 (by len)
    exact ⟨r', e6, .ifFi g1 h2 g2 g3 h5 g6⟩
  | ifCommand h1 h2 ih =>
    intro _ l' e hr
    obtain ⟨l1, e1, g1⟩ := e.kw h1 (by len)
    obtain ⟨r', e2, g2⟩ := ih trivial _ e1 hr
    exact ⟨r', e2, .ifCommand g1 g2⟩
  | loopCommand h1 h2 h3 h4 ih1 ih2 =>
    intro _ l' e hr
    obtain ⟨l1, e1, g1⟩ := e.kw h1 (by len)
    obtain ⟨l2, e2, g2⟩ := ih1 (proper_word _) _ e1 (by len)
    obtain ⟨r', e3, g3⟩ := ih2 trivial _ e2 hr
    exact ⟨r', e3, .loopCommand g1 g2 h3 g3⟩
  | forIn h1 h2 h3 h4 h5 ih =>
    intro _ l' e hr
    obtain ⟨l1, e1, g1⟩ := e.kw h1 (by len)
    obtain ⟨l2, e2, g2⟩ := ih trivial _ e1 (by len)
    rcases h3 with rfl | ⟨rfl, h6, h7⟩
    · obtain ⟨l3, rfl, e3⟩ := e2.cons_ne (by simp)
      obtain ⟨l4, e4, g4⟩ := e3.optLine h4 (by len)
      obtain ⟨r', e5, g5⟩ := e4.lines h5 (by len)
      exact ⟨r', e5, .forIn g1 g2 (.inl rfl) g4 g5⟩
    · obtain ⟨l4, e4, g4⟩ := e2.optLine h4 (by len)
      obtain ⟨r', e5, g5⟩ := e4.lines h5 (by len)
      exact ⟨r', e5, .forIn g1 g2 (.inr ⟨rfl, e2.ne h6, h7⟩) g4 g5⟩
  | forSemi h1 h2 =>
    intro _ l' e hr
    obtain ⟨l1, e1, g1⟩ := e.skip_cons h1 (by len)
    obtain ⟨r', e5, g5⟩ := e1.lines h2 (by len)
    exact ⟨r', e5, .forSemi g1 g5⟩
  | forDo h1 h2 =>
    intro _ l' e hr
    obtain ⟨l1, e1, g1⟩ := e.skip h1 (by len)
    obtain ⟨r', e5, g5⟩ := e1.keyword h2
    exact ⟨_, e1, .forDo g1 g5⟩
  | forCommand h1 h2 h3 h4 h5 h6 ih1 ih2 =>
    intro _ l' e hr
    obtain ⟨l1, e1, g1⟩ := e.kw h1 (by len)
    obtain ⟨l2, e2, g2⟩ := e1.skip_cons h2 (by len)
    obtain ⟨l3, e3, g3⟩ := e2.optLine h3 (by len)
    obtain ⟨l4, e4, g4⟩ := e3.lines h4 (by len)
    obtain ⟨l5, e5, g5⟩ := ih1 trivial _ e4 (by len)
    obtain ⟨r', e6, g6⟩ := ih2 trivial _ e5 hr
    exact ⟨r', e6, .forCommand g1 g2 g3 g4 g5 g6⟩
  | patternLast h1 ih =>
    intro _ l' e hr
    obtain ⟨l1, e1, g1⟩ := ih trivial _ e (by len)
    obtain ⟨r', rfl, e2⟩ := e1.cons (by len)
    exact ⟨r', e2, .patternLast g1⟩
  | patternCons h1 h2 ih1 ih2 =>
    intro _ l' e hr
    obtain ⟨l1, e1, g1⟩ := ih1 trivial _ e (by len)
    obtain ⟨l2, rfl, e2⟩ := e1.cons_ne (by simp)
    obtain ⟨r', e3, g3⟩ := ih2 trivial _ e2 hr
    exact ⟨r', e3, .patternCons g1 g3⟩
  | armsEnd h1 h2 =>
    intro _ l' e hr
    obtain ⟨l1, e1, g1⟩ := e.lines h1 (by len)
    obtain ⟨r', e5, g5⟩ := e1.keyword h2
    exact ⟨_, e1, .armsEnd g1 g5⟩
  | armsCons h1 h2 h3 h4 h5 h6 h7 h8 ih1 ih2 ih3 =>
    intro _ l' e hr
    obtain ⟨l1, e1, g1⟩ := e.lines h1 (by len)
    rcases h3 with rfl | ⟨rfl, h9⟩
    · obtain ⟨l2, rfl, e2⟩ := e1.cons_ne (by simp)
      obtain ⟨l3, e3, g4⟩ := ih1 trivial _ e2 (by len)
      obtain ⟨l4, e4, g5⟩ := e3.optLine h5 (by len)
      obtain ⟨l5, e5, g6⟩ := ih2 proper_arm _ e4 (by len)
      obtain ⟨l6, rfl, e6⟩ := e5.cons_ne (by simp)
      obtain ⟨l7, e7, g7⟩ := e6.optLine h7 (by len)
      obtain ⟨r', e8, g8⟩ := ih3 trivial _ e7 hr
      exact ⟨r', e8, .armsCons g1 (e1.noKeyword h2) (.inl rfl) g4 g5 g6 g7 g8⟩
    · obtain ⟨l3, e3, g4⟩ := ih1 trivial _ e1 (by len)
      obtain ⟨l4, e4, g5⟩ := e3.optLine h5 (by len)
      obtain ⟨l5, e5, g6⟩ := ih2 proper_arm _ e4 (by len)
      obtain ⟨l6, rfl, e6⟩ := e5.cons_ne (by simp)
      obtain ⟨l7, e7, g7⟩ := e6.optLine h7 (by len)
      obtain ⟨r', e8, g8⟩ := ih3 trivial _ e7 hr
      exact ⟨r', e8, .armsCons g1 (e1.noKeyword h2) (.inr ⟨rfl, e1.ne h9⟩) g4 g5 g6 g7 g8⟩
  | armsLast h1 h2 h3 h4 h5 h6 h7 ih1 ih2 =>
    intro _ l' e hr
    obtain ⟨l1, e1, g1⟩ := e.lines h1 (by len)
    rcases h3 with rfl | ⟨rfl, h9⟩
    · obtain ⟨l2, rfl, e2⟩ := e1.cons_ne (by simp)
      obtain ⟨l3, e3, g4⟩ := ih1 trivial l2 e2 (by len)
      obtain ⟨l4, e4, g5⟩ := e3.optLine h5 (by len)
      obtain ⟨r', e5, g6⟩ := ih2 proper_arm _ e4 hr
      exact ⟨r', e5, .armsLast g1 (e1.noKeyword h2) (.inl rfl) g4 g5 g6 (e5.ne h7)⟩
    · obtain ⟨l3, e3, g4⟩ := ih1 trivial l1 e1 (by len)
      obtain ⟨l4, e4, g5⟩ := e3.optLine h5 (by len)
      obtain ⟨r', e5, g6⟩ := ih2 proper_arm _ e4 hr
      exact ⟨r', e5, .armsLast g1 (e1.noKeyword h2) (.inr ⟨rfl, e1.ne h9⟩) g4 g5 g6 (e5.ne h7)⟩
  | caseCommand h1 h2 h3 h4 h5 h6 h7 h8 ih1 ih2 =>
    intro _ l' e hr
    obtain ⟨l1, e1, g1⟩ := e.kw h1 (by len)
    obtain ⟨l2, e2, g2⟩ := ih1 trivial _ e1 (by len)
    obtain ⟨l3, e3, g3⟩ := e2.lines h3 (by len)
    obtain ⟨l4, e4, g4⟩ := e3.kw h4 (by len)
    obtain ⟨l5, e5, g5⟩ := e4.optLine h5 (by len)
    obtain ⟨l6, e6, g6⟩ := ih2 trivial _ e5 (by len)
    obtain ⟨l7, e7, g7⟩ := e6.lines h7 (by len)
    obtain ⟨r', e8, g8⟩ := e7.kw_strict h8 (by len)
    exact ⟨r', e8, .caseCommand g1 g2 g3 g4 g5 g6 g7 g8⟩
  | compoundIf h1 h2 h3 ih1 ih2 =>
    intro _ l' e hr
    obtain ⟨l1, e1, g1⟩ := ih1 trivial _ e (by len)
    obtain ⟨r', e2, g2⟩ := ih2 trivial _ e1.weak hr
    exact ⟨r', e2, .compoundIf g1 g2 h3⟩
  | compoundLoop h0 h1 h2 h3 ih1 ih2 =>
    intro _ l' e hr
    obtain ⟨l1, e1, g1⟩ := ih1 trivial _ e (by len)
    obtain ⟨r', e2, g2⟩ := ih2 trivial _ e1.weak hr
    exact ⟨r', e2, .compoundLoop h0 g1 g2 h3⟩
  | compoundFor h1 h2 h3 ih1 ih2 =>
    intro _ l' e hr
    obtain ⟨l1, e1, g1⟩ := ih1 trivial _ e (by len)
    obtain ⟨r', e2, g2⟩ := ih2 trivial _ e1.weak hr
    exact ⟨r', e2, .compoundFor g1 g2 h3⟩
  | compoundCase h1 h2 h3 ih1 ih2 =>
    intro _ l' e hr
    obtain ⟨l1, e1, g1⟩ := ih1 trivial _ e (by len)
    obtain ⟨r', e2, g2⟩ := ih2 trivial _ e1.weak hr
    exact ⟨r', e2, .compoundCase g1 g2 h3⟩
  | compoundBrace h1 h2 h3 ih1 ih2 =>
    intro _ l' e hr
    obtain ⟨l1, e1, g1⟩ := ih1 trivial _ e (by len)
    obtain ⟨r', e2, g2⟩ := ih2 trivial _ e1.weak hr
    exact ⟨r', e2, .compoundBrace g1 g2 h3⟩
  | compoundSubshell h1 h2 h3 ih1 ih2 =>
    intro _ l' e hr
    obtain ⟨l1, e1, g1⟩ := ih1 trivial _ e (by len)
    obtain ⟨r', e2, g2⟩ := ih2 trivial _ (CmEnd.weak e1) hr
    exact ⟨r', e2, .compoundSubshell g1 g2 h3⟩
  | fnParens h1 =>
    intro _ l' e hr
    obtain ⟨r', e1, g1⟩ := e.parens h1 (by len)
    exact ⟨r', e1, .fnParens g1⟩
  | fnNewline =>
    intro _ l' e hr
    obtain ⟨l1, rfl, -⟩ := e.cons (by len)
    exact ⟨_, e, .fnNewline⟩
  | fnWsParens h1 h2 =>
    intro _ l' e hr
    obtain ⟨l1, rfl, e01⟩ := e.cons (by len)
    obtain ⟨l2, e2, g2⟩ := e01.skip h1 (by len)
    obtain ⟨r', e3, g3⟩ := e2.parens h2 (by len)
    exact ⟨r', e3, .fnWsParens g2 g3⟩
  | fnWs h1 h2 =>
    intro _ l' e hr
    obtain ⟨l1, rfl, e01⟩ := e.cons (by len)
    obtain ⟨r', e2, g2⟩ := e01.skip h1 (by len)
    exact ⟨r', e2, .fnWs g2 (e2.ne h2)⟩
  | fnEmpty h1 h2 ih =>
    intro _ l' e hr
    obtain ⟨l1, rfl, e01⟩ := e.cons (by len)
    obtain ⟨l2, e2, g2⟩ := e01.skip h1 (by len)
    obtain ⟨r', e3, g3⟩ := ih trivial _ e2 (by len)
    exact ⟨r', CmEnd.weak e3, .fnEmpty g2 g3⟩
  | fnSubshell h1 h2 h3 h4 ih =>
    intro _ l' e hr
    obtain ⟨l1, rfl, e01⟩ := e.cons (by len)
    obtain ⟨l2, e2, g2⟩ := e01.skip h1 (by len)
    obtain ⟨r', e3, g3⟩ := ih trivial _ e2 (by len)
    exact ⟨r', CmEnd.weak e3, .fnSubshell g2 g3 h3 h4⟩
  | function h1 h2 h3 h4 h5 h6 h7 ih1 ih2 =>
    intro _ l' e hr
    rcases h1 with ⟨rfl, h1⟩ | ⟨rfl, rfl, h1⟩
    · obtain ⟨l1, e1, g1⟩ := e.kw h1 (by len)
      obtain ⟨l2, e2, g2⟩ := e1.skip_cons h2 (by len)
      obtain ⟨l3, e3, g3⟩ := ih1 trivial _ e2 (by len)
      obtain ⟨l4, e4, g4⟩ := e3.lines h4 (by len)
      obtain ⟨r', e5, g5⟩ := ih2 trivial _ e4 hr
      exact ⟨r', e5, .function (.inl ⟨rfl, g1⟩) g2 g3 g4 (e4.compoundStart h5) g5 h7⟩
    · obtain ⟨l2', e2', g2⟩ := e.skip h2 (by len)
      obtain ⟨l2, rfl, e2⟩ := e2'.cons_ne (by simp)
      obtain ⟨l3, e3, g3⟩ := ih1 trivial _ e2 (by len)
      obtain ⟨l4, e4, g4⟩ := e3.lines h4 (by len)
      obtain ⟨r', e5, g5⟩ := ih2 trivial _ e4 hr
      refine ⟨r', e5, .function (.inr ⟨rfl, rfl, ?_⟩) g2 g3 g4 (e4.compoundStart h5) g5 h7⟩
      rintro r ⟨l5, h8, h9⟩
      obtain rfl := Skip.unique g2 h8
      obtain ⟨r2, h10⟩ := e2'.keyword' h9
      exact h1 _ ⟨_, h2, h10⟩
  | functionSubshell h1 h2 h3 h4 ih =>
    intro _ l' e hr
    obtain ⟨l1, e1, g1⟩ := e.kw h1 (by len)
    obtain ⟨l2, e2, g2⟩ := e1.skip_cons h2 (by len)
    obtain ⟨r', e3, g3⟩ := ih trivial _ e2 hr
    exact ⟨r', e3, .functionSubshell g1 g2 g3 h4⟩
  | commandCompound h1 h2 h3 h4 ih =>
    intro _ l' e hr
    obtain ⟨l1, e1, g1⟩ := e.skip h1 (by len)
    obtain ⟨r', e2, g2⟩ := ih trivial _ e1 hr
    exact ⟨r', e2, .commandCompound g1 (e1.compoundStart h2) g2 h4⟩
  | commandFunction h1 h2 h3 h4 ih =>
    intro _ l' e hr
    obtain ⟨l1, e1, g1⟩ := e.skip h1 (by len)
    obtain ⟨r', e2, g2⟩ := ih trivial _ e1 hr
    exact ⟨r', e2, .commandFunction g1 (fun k h => h2 k (e1.compoundStart' h)) (e1.functionStart h3) g2⟩
  | commandSimple h1 h2 h3 h4 ih =>
    intro _ l' e hr
    obtain ⟨l1, e1, g1⟩ := e.skip h1 (by len)
    obtain ⟨r', e2, g2⟩ := ih trivial _ e1 hr
    exact ⟨r', e2, .commandSimple g1 (fun k h => h2 k (e1.compoundStart' h)) (fun h => h3 (e1.functionStart' h)) g2⟩
  | pipeLast h1 h2 h3 ih =>
    intro _ l' e hr
    obtain ⟨r', e2, g2⟩ := ih trivial _ e hr
    exact ⟨r', e2, .pipeLast (e.ne h1) g2 (e2.ne h3)⟩
  | pipeCons h1 h2 h3 h4 ih1 ih2 =>
    intro _ l' e hr
    obtain ⟨l1, e1, g1⟩ := ih1 trivial _ e (by len)
    obtain ⟨l2, rfl, e2⟩ := e1.cons_ne (by simp)
    obtain ⟨l3, e3, g3⟩ := e2.lines h3 (by len)
    obtain ⟨r', e4, g4⟩ := ih2 trivial _ e3 hr
    exact ⟨r', e4, .pipeCons (e.ne h1) g1 g3 g4⟩
  | pipeline h1 h2 h3 h4 ih =>
    intro _ l' e hr
    obtain ⟨l1, e1, g1⟩ := e.skip h1 (by len)
    rcases h2 with ⟨rfl, rfl⟩ | ⟨rfl, rfl, h2⟩
    · obtain ⟨l2, rfl, e2⟩ := e1.cons_ne (by simp)
      obtain ⟨r', e4, g4⟩ := ih trivial _ e2 hr
      exact ⟨r', e4, .pipeline g1 (.inl ⟨rfl, rfl⟩) g4 h4⟩
    · obtain ⟨r', e4, g4⟩ := ih trivial _ e1 hr
      exact ⟨r', e4, .pipeline g1 (.inr ⟨rfl, rfl, e1.ne h2⟩) g4 h4⟩
  | andOrEnd h1 h2 =>
    intro _ l' e hr
    obtain ⟨r', e1, g1⟩ := e.skip h1 (by len)
    exact ⟨r', e1, .andOrEnd g1 fun r => ⟨e1.ne (fun r => (h2 r).1) (by simp [CmEnd.Other]) r, e1.ne (fun r => (h2 r).2) (by simp [CmEnd.Other]) r⟩⟩
  | andOrAnd h1 h2 h3 h4 ih1 ih2 =>
    intro _ l' e hr
    obtain ⟨l1, e1, g1⟩ := e.skip_cons h1 (by len)
    obtain ⟨l2, e2, g2⟩ := e1.lines h2 (by len)
    obtain ⟨l3, e3, g3⟩ := ih1 trivial _ e2 (by len)
    obtain ⟨r', e4, g4⟩ := ih2 trivial _ e3 hr
    exact ⟨r', e4, .andOrAnd g1 g2 g3 g4⟩
  | andOrOr h1 h2 h3 h4 ih1 ih2 =>
    intro _ l' e hr
    obtain ⟨l1, e1, g1⟩ := e.skip_cons h1 (by len)
    obtain ⟨l2, e2, g2⟩ := e1.lines h2 (by len)
    obtain ⟨l3, e3, g3⟩ := ih1 trivial _ e2 (by len)
    obtain ⟨r', e4, g4⟩ := ih2 trivial _ e3 hr
    exact ⟨r', e4, .andOrOr g1 g2 g3 g4⟩
  | andOr h1 h2 h3 ih1 ih2 =>
    intro _ l' e hr
    obtain ⟨l3, e3, g3⟩ := ih1 trivial _ e (by len)
    obtain ⟨r', e4, g4⟩ := ih2 trivial _ e3 hr
    exact ⟨r', e4, .andOr g3 g4 h3⟩
  | complete h1 h2 h3 ih =>
    intro _ l' e hr
    obtain ⟨l1, e1, g1⟩ := ih trivial _ e (by len)
    obtain ⟨r', e2, g2⟩ := e1.sepAfter h2 (by len)
    exact ⟨r', e2, .complete g1 g2 h3⟩
  | topCommand h1 h2 h3 ih =>
    intro _ l' e hr
    obtain ⟨l1, e1, g1⟩ := e.lines h1 (by len)
    obtain ⟨r', e2, g2⟩ := ih trivial _ e1 hr
    exact ⟨r', e2, .topCommand g1 (e1.nonempty') g2⟩
  | topNone => intro _ l' e hr; simp [NT.slack] at hr
  | topComments => intro _ l' e hr; simp [NT.slack] at hr

end Conch.Gram
