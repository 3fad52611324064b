import Verif.TextRead
/-!
# What is read holds only text of the tokens (C54): the induction
-/
namespace Conch
open Spec Gram

variable {O : TextOrd}

/-- The text of what is read. -/
def tRes : (n : NT) → n.Res DefaultBuilder → Str
  | .piece, a => gkPart a
  | .pieces _, a | .substPieces _, a => gkParts a
  | .rawWord _, a | .substWord, a => gkOpt a
  | .wordP, a | .word, a => Txt.optWordText a
  | .words, a | .patterns, a => Txt.wordsText a
  | .interpParts _, a => gkInterp a
  | .interp _, a => gkSimples a
  | .param, a | .curly _, a | .backtick, a => gkSimple a
  | .subshell _, a | .group _, a | .brace, a | .doGroup, a => Txt.commandsText a.commands
  | .redirTail _, a | .heredoc _, a => Txt.redirectText a
  | .redirect, a => match a with
    | none => []
    | some (.inl r) => Txt.redirectText r
    | some (.inr w) => Txt.wordText w
  | .redirects, a => Txt.redirectsText a
  | .assigns, a => Txt.varsText a.1 ++ Txt.optWordText a.2
  | .args, a => Txt.argsText a
  | .simple, a | .function, a | .command, a => Txt.pipeableText a
  | .ifArms, a | .ifCommand, a =>
    Txt.guardBodiesText (a.conditionals.map fun p => ⟨p.guard.commands, p.body.commands⟩) ++
      Txt.optCommandsText (a.elseBranch.map (·.commands))
  | .loopCommand, a => Txt.commandsText a.2.guard.commands ++ Txt.commandsText a.2.body.commands
  | .forWords _, a => Txt.optWordsText (a.1.map (·.2.1))
  | .forCommand, a => a.var ++ Txt.optWordsText (a.words.map (·.2.1)) ++ Txt.commandsText a.body.commands
  | .arms, a => Txt.armsText (a.1.map fun x => ⟨x.patterns.patternAlternatives, x.body.commands⟩)
  | .caseCommand, a => Txt.wordText a.word ++
      Txt.armsText (a.arms.map fun x => ⟨x.patterns.patternAlternatives, x.body.commands⟩)
  | .compound _, a => Txt.compoundText a
  | .fnStart _, a => match a with
    | none => []
    | some c => Txt.compoundText c
  | .pipelineCmds, a => Txt.pipeablesText (a.map (·.2))
  | .pipeline, a => Txt.listableText a
  | .andOrRest, a => Txt.restText (a.map (·.2))
  | .andOr, a => Txt.andOrText a
  | .complete _, a => Txt.commandText a
  | .top, a => match a with
    | none => []
    | some c => Txt.commandText c

/-- The text that was read before. -/
def _root_.Conch.Gram.NT.before : NT → Str
  | .curly q => Txt.paramText q
  | _ => []

theorem free_part {l r : List Token} (h : Part r l) (hl : Free O l) : Free O r :=
  fun hs t ht => hl hs t (h.2 t ht)

theorem free_cons {t : Token} {l : List Token} (h : Free O (t :: l)) : Free O l := free_part .cons h

theorem free_sub {l r : List Token} (h : List.Sublist r l) (hl : Free O l) : Free O r :=
  fun hs t ht => hl hs t (h.subset ht)

/-- The tokens read later are among those read now. -/
macro "pt" : tactic => `(tactic|
  grind (gen := 20) (ematch := 20) [→ Skip.part, → Keyword.part, → Kw.part, → OptLine.part, → Lines.part, → Parens.part, → SepAfter.part, → Reads.part, Gram.Part])

theorem mapEnvVar_text (vs) : Txt.varsText (vs.map stringCore.mapEnvVar) = Txt.varsText vs := by
  induction vs with
  | nil => rfl
  | cons v vs ih =>
    simp only [List.map_cons, Txt.varsText]
    rw [ih]
    cases v <;> rfl

theorem argsText_app (a b) : Txt.argsText (a ++ b) = Txt.argsText a ++ Txt.argsText b := by
  induction a with
  | nil => rfl
  | cons x a ih => simp [Txt.argsText, ih]

theorem cmdWord_text (e : Option (TopLevelWord Str)) :
    Txt.argsText (e.toList.map .CmdWord) = Txt.optWordText e := by
  cases e <;> simp [Txt.argsText, Txt.argText, Txt.optWordText]

theorem redirect_text {k : RedirectKind (TopLevelWord Str)} {w b a b'}
    (h : Gram.Calls (B := DefaultBuilder) (.redirect k) b a b')
    (e : Txt.redirectText (Core.mapRedirect k) = Txt.wordText w) : Txt.redirectText a = Txt.wordText w := by
  obtain rfl := calls_eq h rfl
  exact e

theorem pathOps_text {t mk} (h : (t, mk) ∈ pathOps (TopLevelWord Str)) (fd w) :
    Txt.redirectText (Core.mapRedirect (mk fd w)) = Txt.wordText w := by
  simp only [pathOps, List.mem_cons, Prod.mk.injEq, List.not_mem_nil, or_false] at h
  rcases h with ⟨-, rfl⟩ | ⟨-, rfl⟩ | ⟨-, rfl⟩ | ⟨-, rfl⟩ | ⟨-, rfl⟩ <;> rfl

theorem dupOps_text {t mk} (h : (t, mk) ∈ dupOps (TopLevelWord Str)) (fd w) :
    Txt.redirectText (Core.mapRedirect (mk fd w)) = Txt.wordText w := by
  simp only [dupOps, List.mem_cons, Prod.mk.injEq, List.not_mem_nil, or_false] at h
  rcases h with ⟨-, rfl⟩ | ⟨-, rfl⟩ <;> rfl

theorem substOps_text {t mk} (h : (t, mk) ∈ substOps (TopLevelCommand Str)) (c q w) :
    gkSubst (mk c q w) = Txt.paramText q ++ gkOpt w := by
  simp only [substOps, List.mem_cons, Prod.mk.injEq, List.not_mem_nil, or_false] at h
  rcases h with ⟨-, rfl⟩ | ⟨-, rfl⟩ | ⟨-, rfl⟩ | ⟨-, rfl⟩ <;> rfl

theorem called_word {k : GKind} {b w b'} (h : Gram.Calls (B := DefaultBuilder) (.word k) b w b') :
    Txt.wordText w = gkText k := by
  obtain rfl := calls_eq h rfl
  exact word_text k

theorem pipeline_text {bang : Bool} {cs} {b a b'} 
    (h : Gram.Calls (B := DefaultBuilder) (.pipeline bang cs) b a b') :
    Txt.listableText a = Txt.pipeablesText (cs.map (·.2)) := by
  match bang, cs with
  | _, [] => cases (congrArg Prod.fst h : stringCore.call (.pipeline _ []) = .ok a)
  | false, [c] => obtain rfl := calls_eq h rfl; simp [Txt.listableText, Txt.pipeablesText]
  | true, [c] => obtain rfl := calls_eq h rfl; simp [Txt.listableText]
  | bang, c :: d :: cs =>
    have e : stringCore.call (.pipeline bang (c :: d :: cs)) = .ok (.Pipe bang ((c :: d :: cs).map (·.2))) := by cases bang <;> rfl
    obtain rfl := calls_eq h e
    simp [Txt.listableText]

/-- What is claimed of what is read. -/
def TextClaim (O : TextOrd) (n : NT) (l : List Token) (a : n.Res DefaultBuilder) (r : List Token) : Prop :=
  O.R (tRes n a ++ concatTokens r) (n.before ++ concatTokens l)

theorem cov {n l a r s} (h : Cov O l s r) (e : tRes n a = s) (hb : n.before = [] := by rfl) :
    TextClaim O n l a r := by
  unfold TextClaim
  rw [e, hb]
  exact h

theorem asStr_name (s : Str) : (Token.Name s).asStr = s := rfl
theorem asStr_literal (s : Str) : (Token.Literal s).asStr = s := rfl

/-- A word of a parameter substitution after the parameter. -/
theorem after_param {l s r q} (h : Cov O l s r) : O.R (Txt.paramText q ++ s ++ concatTokens r) (Txt.paramText q ++ concatTokens l) := by
  rw [List.append_assoc]; exact O.app (O.refl _) h

/-- A here-document. -/
theorem here_cov {t : Token} {s d} {l l1 l2 l3 u saved body r : List Token} {w : Str} (hT : Free O (t :: l))
    (ht : t = .DLess ∨ t = .DLessDash) (h1 : Skip l l1) (h2 : DelimToks l1 u l2)
    (h3 : RestOfLine l2 saved l3) (h4 : HereLines s d l3 body r)
    (hw : O.R w (concatTokens body)) : Cov O (t :: l) w (saved ++ r) := by
  have swap : ∀ a b, O.R (a ++ b) (b ++ a) := by
    by_contra hs
    have := hT hs t (by simp)
    rcases ht with rfl | rfl <;> simp at this
  have key : Cov O l2 w (saved ++ r) := by
    unfold Cov
    rw [h3.append, concat_app, concat_app, ← List.append_assoc]
    refine O.trans (O.app (swap _ _) (O.refl _)) ?_
    rw [List.append_assoc]
    refine O.app (O.refl _) (O.trans (O.app hw (O.refl _)) (O.sub (hereLines_text h4)))
  refine Cov.drop ?_
  have h5 := Cov.skip (O := O) h1
  rw [h2.append] at h5
  exact (h5.trans key.drops)

set_option maxHeartbeats 1000000 in
theorem reads_text {n : NT} {b l a r b'} (h : Reads (B := DefaultBuilder) n b l a r b') :
    Free O l → TextClaim O n l a r := by
  induction h with
  | literal h1 => exact fun _ => cov (Cov.refl _).keep (by simp [tRes, gkPart, gkSimple])
  | name => exact fun _ => cov (Cov.refl _).keep (by simp [tRes, gkPart, gkSimple, asStr_name, asStr_literal])
  | text => exact fun _ => cov (Cov.refl _).keep (by simp [tRes, gkPart, gkSimple, asStr_name, asStr_literal])
  | special h1 =>
    intro _
    refine cov (Cov.refl _).keep ?_
    simp only [specialTokens, List.mem_cons, Prod.mk.injEq, List.not_mem_nil, or_false] at h1
    rcases h1 with ⟨rfl, rfl⟩ | ⟨rfl, rfl⟩ | ⟨rfl, rfl⟩ | ⟨rfl, rfl⟩ | ⟨rfl, rfl⟩ | ⟨rfl, rfl⟩ <;> rfl
  | escaped h1 => exact fun _ => cov (Cov.refl _).keep.drop (by simp [tRes, gkPart, gkSimple])
  | singleQuoted h1 => exact fun _ => cov (Cov.refl _).drop.keeps.drop (by simp [tRes, gkPart])
  | doubleQuoted h1 ih => exact fun hT => cov (Cov.drop (ih (free_cons hT))) rfl
  | pieceBacktick h1 ih => exact fun hT => cov (ih hT) rfl
  | pieceParam h1 ih => exact fun hT => cov (ih hT) rfl
  | endWord h1 => exact fun _ => cov (Cov.refl _) rfl
  | endCurly => exact fun _ => cov (Cov.refl _) rfl
  | endEscaped h1 => exact fun _ => cov (Cov.refl _).drop.drop rfl
  | endBackslash => exact fun _ => cov (Cov.refl _).drop rfl
  | consPiece h1 h2 h3 ih1 ih2 => exact fun hT => cov (Cov.trans (ih1 hT) (ih2 (free_part (by pt) hT))) rfl
  | noWord h1 => exact fun _ => cov (Cov.skip h1) rfl
  | someWord h1 h2 h3 ih =>
    exact fun hT => cov ((Cov.skip h1).trans (ih (free_part (by pt) hT))) (by simp [tRes, gkOpt_wordOf])
  | wordPSome h1 h2 ih =>
    exact fun hT => cov (ih hT) (by simp [tRes, Txt.optWordText, called_word h2, gkOpt])
  | wordPNone h1 ih => exact fun hT => cov (ih hT) rfl
  | word h1 h2 ih => exact fun hT => cov (Cov.trans (ih hT) (Cov.skip h2)) (by simp [tRes])
  | wordsNil h1 ih => exact fun hT => cov (ih hT) (by simp [tRes, Txt.optWordText, Txt.wordsText])
  | wordsCons h1 h2 ih1 ih2 =>
    exact fun hT => cov (Cov.trans (ih1 hT) (ih2 (free_part (by pt) hT))) (by simp [tRes, Txt.optWordText, Txt.wordsText])
  | interpEnd => exact fun _ => cov (Cov.refl _).drop rfl
  | interpEof => exact fun _ => cov (Cov.refl _) rfl
  | interpParam h1 h2 h3 ih1 ih2 =>
    exact fun hT => cov (Cov.trans (ih1 hT) (ih2 (free_part (by pt) hT))) rfl
  | interpBacktick h1 h2 h3 ih1 ih2 =>
    exact fun hT => cov (Cov.trans (ih1 hT) (ih2 (free_part (by pt) hT))) rfl
  | interpEscaped h1 h2 h3 ih =>
    exact fun hT => cov (Cov.keep (ih (free_cons (free_cons hT)))).drop (by simp [tRes, gkInterp, gkSimple])
  | interpBackslash h1 h2 h3 h4 ih => exact fun hT => cov (Cov.keep (ih (free_cons hT))) rfl
  | interpText h1 h2 h3 h4 ih => exact fun hT => cov (Cov.keep (ih (free_cons hT))) rfl
  | interp h1 ih => exact fun hT => cov (ih hT) (by simp [tRes, gkSimples_gather])
  | positional => exact fun _ => cov (Cov.refl _).drop rfl
  | parameter h1 => exact fun _ => cov (Cov.refl _).keep.drop (by simp [tRes, gkSimple, paramName_text h1])
  | loneDollar h1 => exact fun _ => cov (Cov.refl _).keep rfl
  | @«arithmetic» _ l l' u l1 l2 a r h1 h2 h3 h4 h5 h6 =>
    intro _
    subst h3
    have e : Cov O (u ++ l1) (Txt.arithText a) l1 := by
      unfold Cov; rw [concat_app]; exact O.app (O.sub (expr_anywhere h4)) (O.refl _)
    refine cov ((((((Cov.skip h1).trans e).trans (Cov.skip h5)).trans (Cov.refl _).drop).trans
      (Cov.skip h6)).trans (Cov.refl _).drop).drop.drop.drop ?_
    simp [tRes, gkSimple, gkSubst, Txt.optArithText]
  | noArithmetic h1 h2 =>
    exact fun _ => cov ((((Cov.skip h1).trans (Cov.refl _).drop).trans (Cov.skip h2)).trans (Cov.refl _).drop).drop.drop.drop rfl
  | commandSubst h1 h2 ih => exact fun hT => cov (Cov.drop (ih (free_cons hT))) rfl
  | @braced _ t q l w r _ h1 h2 ih =>
    intro hT
    have := ih (free_cons (free_cons (free_cons hT)))
    refine cov (s := gkSimple w) (Cov.drop (Cov.drop ?_)) rfl
    refine O.trans this ?_
    rw [concat_cons]
    exact O.app (O.sub (paramIn_text h1)) (O.refl _)
  | curlyEnd =>
    intro _
    exact O.app (O.refl _) (Cov.drop (Cov.refl _))
  | curlyColonEnd =>
    intro _
    exact O.app (O.refl _) (Cov.drop (Cov.drop (Cov.refl _)))
  | @curlyLen _ t q r h1 h2 =>
    intro _
    refine O.trans ?_ (O.sub (List.sublist_append_right _ _))
    rw [concat_cons]
    exact O.app (O.sub (paramIn_text h1)) (Cov.refl _).drop
  | @curlyLenSpecial _ t q r h1 =>
    intro _
    refine O.trans ?_ (O.sub (List.sublist_append_right _ _))
    rw [concat_cons]
    have e : Txt.paramText q = t.asStr := by
      simp only [List.mem_cons, Prod.mk.injEq, List.not_mem_nil, or_false] at h1
      rcases h1 with ⟨rfl, rfl⟩ | ⟨rfl, rfl⟩ | ⟨rfl, rfl⟩ <;> rfl
    exact O.app (e ▸ O.refl _) (Cov.refl _).drop
  | curlyOp h1 h2 h3 ih =>
    intro hT
    refine O.trans ?_ (after_param (Cov.drop (ih (free_cons hT))))
    exact O.app (substOps_text h1 _ _ _ ▸ O.refl _) (O.refl _)
  | curlyColonOp h1 h2 ih =>
    intro hT
    refine O.trans ?_ (after_param (Cov.drop (Cov.drop (ih (free_cons (free_cons hT))))))
    exact O.app (substOps_text h1 _ _ _ ▸ O.refl _) (O.refl _)
  | curlyPercent h1 h2 ih => exact fun hT => after_param (Cov.drop (ih (free_cons hT)))
  | curlyPercent2 h1 ih => exact fun hT => after_param (Cov.drop (Cov.drop (ih (free_cons (free_cons hT)))))
  | curlyPound h1 h2 h3 ih => exact fun hT => after_param (Cov.drop (ih (free_cons hT)))
  | curlyPound2 h1 ih => exact fun hT => after_param (Cov.drop (Cov.drop (ih (free_cons (free_cons hT)))))
  | substEnd => exact fun _ => cov (Cov.refl _).drop rfl
  | substDelim h1 h2 ih => exact fun hT => cov (Cov.keep (ih (free_cons hT))) rfl
  | substPound h1 ih => exact fun hT => cov (Cov.keep (ih (free_cons hT))) rfl
  | substEscaped h1 ih => exact fun hT => cov (Cov.keep (ih (free_cons (free_cons hT)))).drop rfl
  | substDropped h1 ih => exact fun hT => cov (Cov.drop (Cov.drop (ih (free_cons (free_cons hT))))) rfl
  | substPiece h1 h2 h3 h4 ih1 ih2 => exact fun hT => cov (Cov.trans (ih1 hT) (ih2 (free_part (by pt) hT))) rfl
  | substWord h1 ih => exact fun hT => cov (ih hT) (by simp [tRes, gkOpt_wordOf])
  | @backtick _ u r g _ h1 h2 ih =>
    intro hT
    have h3 := ih (free_sub ((unescape_sub u).trans ((List.sublist_append_left _ _).trans (List.sublist_cons_self _ _))) hT)
    have h4 : O.R (Txt.commandsText g.commands) (concatTokens u) := by
      have h5 : O.R (Txt.commandsText g.commands ++ []) ([] ++ concatTokens (Gram.unescape u)) := h3
      rw [List.append_nil, List.nil_append] at h5
      exact O.trans h5 (O.sub (concat_sub (unescape_sub u)))
    have e : Cov O (u ++ .Backtick :: r) (Txt.commandsText g.commands) r := by
      unfold Cov
      rw [concat_app]
      exact O.app h4 (Cov.refl _).drop
    exact cov e.drop rfl
  | subshell h1 h2 ih => exact fun hT => cov (Cov.trans (ih (free_cons hT)) (Cov.refl _).drop).drop (by simp [tRes])
  | groupEnd h1 h2 => exact fun _ => cov (Cov.lines h1) rfl
  | groupCons h1 h2 h3 h4 h5 ih1 ih2 =>
    exact fun hT => cov (((Cov.lines h1).trans (ih1 (free_part (by pt) hT))).trans (ih2 (free_part (by pt) hT))) rfl
  | brace h1 h2 h3 h4 h5 h6 ih =>
    exact fun hT => cov (((((Cov.skip h1).trans (Cov.refl _).drop).trans (ih (free_part (by pt) hT))).trans (Cov.skip h5)).trans (Cov.refl _).drop) (by simp [tRes])
  | doGroup h1 h2 h3 h4 ih =>
    exact fun hT => cov (((Cov.kw h1).trans (ih (free_part (by pt) hT))).trans (Cov.kw h4)) (by simp [tRes])
  | redirPath h1 h2 h3 h4 h5 ih =>
    exact fun hT => cov (((Cov.skip h2).trans (ih (free_part (by pt) hT))).drop)
      (by simp [tRes, redirect_text h5 (pathOps_text h1 _ _), called_word h4, gkOpt])
  | redirDupDash h1 h2 h3 h4 h5 =>
    exact fun _ => cov ((Cov.skip h2).trans (Cov.refl _).keep).drop
      (by simp [tRes, redirect_text h5 (dupOps_text h1 _ _), called_word h4, gkText, gkPart, gkSimple])
  | redirDup h1 h2 h3 h4 h5 h6 h7 ih =>
    exact fun hT => cov (((Cov.skip h2).trans (ih (free_part (by pt) hT))).drop)
      (by simp [tRes, redirect_text h7 (dupOps_text h1 _ _), called_word h6, gkOpt])
  | redirHeredoc h1 ih => exact fun hT => cov (ih hT) rfl
  | heredocQuoted h1 h2 h3 h4 h5 h6 h7 h8 h9 =>
    intro hT
    refine cov (here_cov hT h1 h2 h3 h6 h7 (O.refl _)) ?_
    simp [tRes, redirect_text h9 rfl, called_word h8, gkText, gkPart, gkSimple]
  | @heredoc _ fd t l l1 u l2 delim saved l3 body r ps _ _ _ _ _ h1 h2 h3 h4 h5 h6 h7 h8 h9 h10 ih =>
    intro hT
    have hb : Free O body := by
      intro hs
      have := hT hs t (by simp)
      rcases h1 with rfl | rfl <;> simp at this
    have h11 : O.R (gkSimples ps ++ []) ([] ++ concatTokens body) := ih hb
    rw [List.append_nil, List.nil_append] at h11
    refine cov (here_cov hT h1 h2 h3 h6 h7 h11) ?_
    simp [tRes, redirect_text h10 rfl, called_word h9, gkText_hereWord]
  | redirect h1 h2 h3 ih1 ih2 =>
    exact fun hT => cov (Cov.trans (ih1 hT) (ih2 (free_part (by pt) hT))) (by simp [tRes, gkOpt])
  | redirectFd h1 h2 h3 h4 ih1 ih2 =>
    exact fun hT => cov (Cov.trans (ih1 hT) (ih2 (free_part (by pt) hT))).forget (by simp [tRes])
  | redirectWord h1 h2 h3 ih => exact fun hT => cov (ih hT) (by simp [tRes, called_word h3, gkOpt])
  | noRedirect h1 h2 ih => exact fun hT => cov (ih hT) rfl
  | redirectsNil h1 h2 ih =>
    exact fun hT => cov ((Cov.skip h1).trans (ih (free_part (by pt) hT))) rfl
  | redirectsCons h1 h2 h3 ih1 ih2 =>
    exact fun hT => cov (((Cov.skip h1).trans (ih1 (free_part (by pt) hT))).trans (ih2 (free_part (by pt) hT))) rfl
  | assignEmpty h1 h2 ih =>
    exact fun hT => cov ((Cov.skip h1).trans (Cov.keep (Cov.drop (ih (free_part (by pt) hT)))))
      (by simp [tRes, Txt.varsText, Txt.varText, Txt.optWordText, asStr_name, asStr_literal])
  | assign h1 h2 h3 h4 ih1 ih2 =>
    exact fun hT => cov (((Cov.skip h1).trans (Cov.keep (Cov.drop (ih1 (free_part (by pt) hT))))).trans (ih2 (free_part (by pt) hT)))
      (by simp [tRes, Txt.varsText, Txt.varText, asStr_name, asStr_literal])
  | assignsRedirect h1 h2 h3 h4 ih1 ih2 =>
    exact fun hT => cov (((Cov.skip h1).trans (ih1 (free_part (by pt) hT))).trans (ih2 (free_part (by pt) hT)))
      (by simp [tRes, Txt.varsText, Txt.varText])
  | assignsWord h1 h2 h3 ih =>
    exact fun hT => cov ((Cov.skip h1).trans (ih (free_part (by pt) hT))) (by simp [tRes, Txt.varsText, Txt.optWordText])
  | assignsEnd h1 h2 h3 ih =>
    exact fun hT => cov ((Cov.skip h1).trans (ih (free_part (by pt) hT))) (by simp [tRes, Txt.varsText, Txt.optWordText])
  | argsRedirect h1 h2 ih1 ih2 =>
    exact fun hT => cov (Cov.trans (ih1 hT) (ih2 (free_part (by pt) hT))) (by simp [tRes, Txt.argsText, Txt.argText])
  | argsWord h1 h2 ih1 ih2 =>
    exact fun hT => cov (Cov.trans (ih1 hT) (ih2 (free_part (by pt) hT))) (by simp [tRes, Txt.argsText, Txt.argText])
  | argsEnd h1 ih => exact fun hT => cov (ih hT) (by simp [tRes, Txt.argsText])
  | simple h1 h2 h3 h4 ih1 ih2 =>
    intro hT
    refine cov (Cov.trans (ih1 hT) (ih2 (free_part (by pt) hT))) ?_
    obtain rfl := calls_eq h4 rfl
    simp only [tRes, Txt.pipeableText, Txt.simpleCommandText, List.append_assoc]
    exact congr (congrArg _ (mapEnvVar_text _)) ((argsText_app _ _).trans (congrArg (· ++ _) (cmdWord_text _)))
  | ifElif h1 h2 h3 h4 h5 h6 h7 ih1 ih2 ih3 =>
    exact fun hT => cov (((((Cov.trans (ih1 hT) (Cov.kw h3)).trans (ih2 (free_part (by pt) hT))).trans (Cov.kw h6))).trans (ih3 (free_part (by pt) hT)))
      (by simp [tRes, Txt.guardBodiesText, Txt.guardBodyText])
  | ifElse h1 h2 h3 h4 h5 h6 h7 h8 h9 ih1 ih2 ih3 =>
    exact fun hT => cov ((((((Cov.trans (ih1 hT) (Cov.kw h3)).trans (ih2 (free_part (by pt) hT))).trans (Cov.kw h6))).trans (ih3 (free_part (by pt) hT))).trans (Cov.kw h9))
      (by simp [tRes, Txt.guardBodiesText, Txt.guardBodyText, Txt.optCommandsText])
  | ifFi h1 h2 h3 h4 h5 h6 ih1 ih2 =>
    exact fun hT => cov (((Cov.trans (ih1 hT) (Cov.kw h3)).trans (ih2 (free_part (by pt) hT))).trans (Cov.kw h6))
      (by simp [tRes, Txt.guardBodiesText, Txt.guardBodyText, Txt.optCommandsText])
  | ifCommand h1 h2 ih => exact fun hT => cov ((Cov.kw h1).trans (ih (free_part (by pt) hT))) rfl
  | loopCommand h1 h2 h3 h4 ih1 ih2 =>
    exact fun hT => cov (((Cov.kw h1).trans (ih1 (free_part (by pt) hT))).trans (ih2 (free_part (by pt) hT))) (by simp [tRes])
  | @forIn _ _ l l1 ws l2 _ l3 c l4 ns r h1 h2 h3 h4 h5 ih =>
    intro hT
    have e : Cov O l2 [] l3 := by
      rcases h3 with rfl | ⟨rfl, _⟩
      · exact (Cov.refl _).drop
      · exact Cov.refl _
    exact cov (((((Cov.kw h1).trans (ih (free_part (by pt) hT))).trans e).trans (Cov.optLine h4)).trans (Cov.lines h5))
      (by simp [tRes, Txt.optWordsText])
  | forSemi h1 h2 => exact fun _ => cov ((Cov.skip h1).trans (Cov.drop (Cov.lines h2))) rfl
  | forDo h1 h2 => exact fun _ => cov (Cov.skip h1) rfl
  | forCommand h1 h2 h3 h4 h5 h6 ih1 ih2 =>
    exact fun hT => cov (((((((Cov.kw h1).trans (Cov.skip h2)).trans (Cov.refl _).keep).trans (Cov.optLine h3)).trans (Cov.lines h4)).trans (ih1 (free_part (by pt) hT))).trans (ih2 (free_part (by pt) hT)))
      (by simp [tRes, asStr_name, asStr_literal])
  | patternLast h1 ih => exact fun hT => cov (Cov.trans (ih hT) (Cov.refl _).drop) (by simp [tRes, Txt.wordsText, Txt.optWordText])
  | patternCons h1 h2 ih1 ih2 =>
    exact fun hT => cov (Cov.trans (ih1 hT) (Cov.drop (ih2 (free_part (by pt) hT)))) (by simp [tRes, Txt.wordsText, Txt.optWordText])
  | armsEnd h1 h2 => exact fun _ => cov (Cov.lines h1) rfl
  | @armsCons _ l pre l1 l2 ps l3 _ c l4 g l5 _ ac l6 as ns r _ h1 h2 h3 h4 h5 h6 h7 h8 ih1 ih2 ih3 =>
    intro hT
    have e : Cov O l1 [] l2 := by
      rcases h3 with rfl | ⟨rfl, _⟩
      · exact (Cov.refl _).drop
      · exact Cov.refl _
    exact cov (((((((Cov.lines h1).trans e).trans (ih1 (free_part (by pt) hT))).trans (Cov.optLine h5)).trans (ih2 (free_part (by pt) hT))).trans (Cov.drop (Cov.optLine h7))).trans (ih3 (free_part (by pt) hT)))
      (by simp [tRes, Txt.armsText, Txt.armText])
  | @armsLast _ l pre l1 l2 ps l3 _ c l4 g r _ h1 h2 h3 h4 h5 h6 h7 ih1 ih2 =>
    intro hT
    have e : Cov O l1 [] l2 := by
      rcases h3 with rfl | ⟨rfl, _⟩
      · exact (Cov.refl _).drop
      · exact Cov.refl _
    exact cov (((((Cov.lines h1).trans e).trans (ih1 (free_part (by pt) hT))).trans (Cov.optLine h5)).trans (ih2 (free_part (by pt) hT)))
      (by simp [tRes, Txt.armsText, Txt.armText])
  | caseCommand h1 h2 h3 h4 h5 h6 h7 h8 ih1 ih2 =>
    exact fun hT => cov ((((((((Cov.kw h1).trans (ih1 (free_part (by pt) hT))).trans (Cov.lines h3)).trans (Cov.kw h4)).trans (Cov.optLine h5)).trans (ih2 (free_part (by pt) hT))).trans (Cov.lines h7)).trans (Cov.kw h8))
      (by simp [tRes, Txt.optWordText])
  | compoundIf h1 h2 h3 ih1 ih2 =>
    intro hT
    refine cov (Cov.trans (ih1 hT) (ih2 (free_part (by pt) hT))) ?_
    obtain rfl := calls_eq h3 rfl
    simp [tRes, Txt.compoundText, Txt.kindText]
  | @compoundLoop _ kw l k _ _ _ _ _ _ _ _ h1 h2 h3 h4 ih1 ih2 =>
    intro hT
    refine cov (Cov.trans (ih1 hT) (ih2 (free_part (by pt) hT))) ?_
    cases k <;> obtain rfl := calls_eq h4 rfl <;> simp [tRes, Txt.compoundText, Txt.kindText, Txt.guardBodyText]
  | compoundFor h1 h2 h3 ih1 ih2 =>
    intro hT
    refine cov (Cov.trans (ih1 hT) (ih2 (free_part (by pt) hT))) ?_
    obtain rfl := calls_eq h3 rfl
    simp [tRes, Txt.compoundText, Txt.kindText]
  | compoundCase h1 h2 h3 ih1 ih2 =>
    intro hT
    refine cov (Cov.trans (ih1 hT) (ih2 (free_part (by pt) hT))) ?_
    obtain rfl := calls_eq h3 rfl
    simp [tRes, Txt.compoundText, Txt.kindText]
  | compoundBrace h1 h2 h3 ih1 ih2 =>
    intro hT
    refine cov (Cov.trans (ih1 hT) (ih2 (free_part (by pt) hT))) ?_
    obtain rfl := calls_eq h3 rfl
    simp [tRes, Txt.compoundText, Txt.kindText]
  | compoundSubshell h1 h2 h3 ih1 ih2 =>
    intro hT
    refine cov (Cov.trans (ih1 hT) (ih2 (free_part (by pt) hT))) ?_
    obtain rfl := calls_eq h3 rfl
    simp [tRes, Txt.compoundText, Txt.kindText]
  | fnParens h1 => exact fun _ => cov (Cov.parens h1) rfl
  | fnNewline => exact fun _ => cov (Cov.refl _) rfl
  | fnWsParens h1 h2 => exact fun _ => cov ((Cov.skip h1).trans (Cov.parens h2)).drop rfl
  | fnWs h1 h2 => exact fun _ => cov (Cov.skip h1).drop rfl
  | fnEmpty h1 h2 ih => exact fun hT => cov ((Cov.skip h1).trans (ih (free_part (by pt) hT))).drop (by simp [tRes, Txt.commandsText])
  | fnSubshell h1 h2 h3 h4 ih =>
    intro hT
    refine cov ((Cov.skip h1).trans (ih (free_part (by pt) hT))).drop ?_
    obtain rfl := calls_eq h4 rfl
    simp [tRes, Txt.compoundText, Txt.kindText, Txt.redirectsText]
  | @function _ found l l1 x l2 l3 _ ns l4 kw c r _ a _ h1 h2 h3 h4 h5 h6 h7 ih1 ih2 =>
    intro hT
    have e : Cov O l [] l1 := by
      rcases h1 with ⟨_, h⟩ | ⟨_, rfl, _⟩
      · exact Cov.kw h
      · exact Cov.refl _
    have e' : Part l1 l := by
      rcases h1 with ⟨_, h⟩ | ⟨_, rfl, _⟩
      · exact h.part
      · exact .refl
    refine cov (((((e.trans (Cov.skip h2)).trans (Cov.refl _).keep).trans (ih1 (free_part (by pt) hT))).trans (Cov.lines h4)).trans (ih2 (free_part (by pt) hT))) ?_
    obtain rfl := calls_eq h7 rfl
    simp [tRes, Txt.pipeableText, asStr_name, asStr_literal]
  | functionSubshell h1 h2 h3 h4 ih =>
    intro hT
    refine cov ((((Cov.kw h1).trans (Cov.skip h2)).trans (Cov.refl _).keep).trans (ih (free_part (by pt) hT))) ?_
    obtain rfl := calls_eq h4 rfl
    simp [tRes, Txt.pipeableText, asStr_name, asStr_literal]
  | commandCompound h1 h2 h3 h4 ih =>
    intro hT
    refine cov ((Cov.skip h1).trans (ih (free_part (by pt) hT))) ?_
    obtain rfl := calls_eq h4 rfl
    simp [tRes, Txt.pipeableText]
  | commandFunction h1 h2 h3 h4 ih => exact fun hT => cov ((Cov.skip h1).trans (ih (free_part (by pt) hT))) rfl
  | commandSimple h1 h2 h3 h4 ih => exact fun hT => cov ((Cov.skip h1).trans (ih (free_part (by pt) hT))) rfl
  | pipeLast h1 h2 h3 ih => exact fun hT => cov (ih hT) (by simp [tRes, Txt.pipeablesText])
  | pipeCons h1 h2 h3 h4 ih1 ih2 =>
    exact fun hT => cov (Cov.trans (ih1 hT) (Cov.drop ((Cov.lines h3).trans (ih2 (free_part (by pt) hT))))) (by simp [tRes, Txt.pipeablesText])
  | @pipeline _ l l1 bang l2 cs r _ a _ h1 h2 h3 h4 ih =>
    intro hT
    have e : Cov O l1 [] l2 := by
      rcases h2 with ⟨_, rfl⟩ | ⟨_, rfl, _⟩
      · exact (Cov.refl _).drop
      · exact Cov.refl _
    refine cov (((Cov.skip h1).trans e).trans (ih (free_part (by pt) hT))) ?_
    simp [tRes, pipeline_text h4]
  | andOrEnd h1 h2 => exact fun _ => cov (Cov.skip h1) rfl
  | andOrAnd h1 h2 h3 h4 ih1 ih2 =>
    exact fun hT => cov ((((Cov.skip h1).trans (Cov.drop (Cov.lines h2))).trans (ih1 (free_part (by pt) hT))).trans (ih2 (free_part (by pt) hT)))
      (by simp [tRes, Txt.restText, Txt.linkText])
  | andOrOr h1 h2 h3 h4 ih1 ih2 =>
    exact fun hT => cov ((((Cov.skip h1).trans (Cov.drop (Cov.lines h2))).trans (ih1 (free_part (by pt) hT))).trans (ih2 (free_part (by pt) hT)))
      (by simp [tRes, Txt.restText, Txt.linkText])
  | andOr h1 h2 h3 ih1 ih2 =>
    intro hT
    refine cov (Cov.trans (ih1 hT) (ih2 (free_part (by pt) hT))) ?_
    obtain rfl := calls_eq h3 rfl
    simp [tRes, Txt.andOrText]
  | @complete _ _ _ _ _ _ s _ _ _ _ h1 h2 h3 ih =>
    intro hT
    refine cov (Cov.trans (ih hT) (Cov.sepAfter h2)) ?_
    cases s <;> obtain rfl := calls_eq h3 rfl <;> simp [tRes, Txt.commandText, Txt.listText]
  | topCommand h1 h2 h3 ih => exact fun hT => cov ((Cov.lines h1).trans (ih (free_part (by pt) hT))) rfl
  | topNone h1 => exact fun _ => cov (Cov.lines h1) rfl
  | topComments h1 h2 h3 => exact fun _ => cov (Cov.lines h1) rfl

end Conch
