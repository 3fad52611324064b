import Verif.NormalWord
import Verif.LocalLive
import Verif.PropsGram
/-!
# Normal form of commands (C48): induction on grammar derivations
-/
namespace Conch
open Spec Gram

/-- Every token has text. -/
def TokNe (l : List Token) : Prop := ∀ t ∈ l, t.asStr ≠ []

/-- What is claimed of what is read. -/
def NfRes : (n : NT) → n.Res DefaultBuilder → Prop
  | .piece, a => KPart a
  | .pieces _, a | .substPieces _, a => ∀ w ∈ a, KPart w
  | .rawWord _, a | .substWord, a => ∀ k ∈ a, KWord k
  | .wordP, a | .word, a => ∀ w ∈ a, NfWord w
  | .words, a => ∀ w ∈ a, NfWord w
  | .patterns, a => a ≠ [] ∧ ∀ w ∈ a, NfWord w
  | .interpParts d, a => d = none ∨ d = some .DoubleQuote → ∀ w, .inr w ∈ a → KSimple true w
  | .interp d, a => d = none ∨ d = some .DoubleQuote → ∀ w ∈ a, KSimple true w
  | .param, a | .backtick, a => ∀ q, KSimple q a
  | .curly p, a => NfParam p → ∀ q, KSimple q a
  | .subshell ok, a => (ok = false → a.commands ≠ []) ∧ ∀ c ∈ a.commands, NfCommand c
  | .group _, a => ∀ c ∈ a.commands, NfCommand c
  | .brace, a | .doGroup, a => NfCommands a.commands
  | .redirTail fd, a | .heredoc fd, a => NfFd fd → NfRedirect a
  | .redirect, a => (∀ r, a = some (.inl r) → NfRedirect r) ∧ ∀ w, a = some (.inr w) → NfWord w
  | .redirects, a => ∀ r ∈ a, NfRedirect r
  | .assigns, a => (∀ e ∈ a.1, NfEnv e) ∧ ∀ w ∈ a.2, NfWord w
  | .args, a => ∀ x ∈ a, NfArg x
  | .simple, a | .function, a | .command, a => NfPipeable a
  | .ifArms, a | .ifCommand, a => a.conditionals ≠ [] ∧
      (∀ p ∈ a.conditionals, NfCommands p.guard.commands ∧ NfCommands p.body.commands) ∧
      ∀ g ∈ a.elseBranch, NfCommands g.commands
  | .loopCommand, a => NfCommands a.2.guard.commands ∧ NfCommands a.2.body.commands
  | .forWords _, a => ∀ x ∈ a.1, ∀ w ∈ x.2.1, NfWord w
  | .forCommand, a => a.var ≠ [] ∧ (∀ x ∈ a.words, ∀ w ∈ x.2.1, NfWord w) ∧ NfCommands a.body.commands
  | .arms, a => ∀ x ∈ a.1, x.patterns.patternAlternatives ≠ [] ∧
      (∀ w ∈ x.patterns.patternAlternatives, NfWord w) ∧ ∀ c ∈ x.body.commands, NfCommand c
  | .caseCommand, a => NfWord a.word ∧ ∀ x ∈ a.arms, x.patterns.patternAlternatives ≠ [] ∧
      (∀ w ∈ x.patterns.patternAlternatives, NfWord w) ∧ ∀ c ∈ x.body.commands, NfCommand c
  | .compound _, a => NfCompound a
  | .fnStart _, a => ∀ c ∈ a, NfCompound c ∨ c = ⟨.Subshell [], []⟩
  | .pipelineCmds, a => a ≠ [] ∧ ∀ x ∈ a, NfPipeable x.2
  | .pipeline, a => NfListable a
  | .andOrRest, a => ∀ x ∈ a, ∀ c, x.2 = .And c ∨ x.2 = .Or c → NfListable c
  | .andOr, a => NfListable a.first ∧ ∀ c, .And c ∈ a.rest ∨ .Or c ∈ a.rest → NfListable c
  | .complete _, a => NfCommand a
  | .top, a => ∀ c ∈ a, NfCommand c

theorem tokNe_part {l r : List Token} (h : Part r l) (hl : TokNe l) : TokNe r := fun t ht => hl t (h.2 t ht)

theorem tokNe_cons {t : Token} {l : List Token} (h : TokNe (t :: l)) : TokNe l := tokNe_part .cons h

grind_pattern tokNe_part => Part r l, TokNe l, TokNe r

theorem part_cons {t : Token} {l : List Token} : Part l (t :: l) := .cons

grind_pattern part_cons => t :: l

/-- The text of the tokens read later. -/
macro "tk" : tactic => `(tactic|
  (intro t ht
   grind (gen := 20) (ematch := 20) [→ Skip.part, → Keyword.part, → Kw.part, → OptLine.part, → Lines.part, → Parens.part, → SepAfter.part, → Reads.part, Gram.Part, TokNe]))

theorem wordOf_k {ws : List (WordKind TCommand)} (h : ∀ w ∈ ws, KPart w) : ∀ k ∈ wordOf ws, KWord k := by
  match ws with
  | [] => simp [wordOf]
  | [w] => simp only [wordOf, Option.mem_def, Option.some.injEq]; rintro _ rfl; exact .single (h w (by simp))
  | w :: v :: ws =>
    simp only [wordOf, Option.mem_def, Option.some.injEq]
    rintro _ rfl
    exact .concat (by simp) h

theorem gather_k {ps : List (Str ⊕ SimpleWordKind TCommand)} {s : Str} (h : ∀ w, .inr w ∈ ps → KSimple true w) :
    ∀ w ∈ gather s ps, KSimple true w := by
  have text : ∀ s : Str, ∀ w ∈ textOf (C := TCommand) s, KSimple true w := by
    intro s w hw
    unfold textOf at hw
    split at hw
    · simp at hw
    · simp at hw; subst hw; exact .literal ‹_›
  induction ps generalizing s with
  | nil => exact text s
  | cons p ps ih =>
    cases p with
    | inl t => exact ih fun w hw => h w (by simp [hw])
    | inr w =>
      intro x hx
      simp only [gather, List.mem_append, List.mem_cons] at hx
      rcases hx with hx | rfl | hx
      · exact text s x hx
      · exact h x (by simp)
      · exact ih (fun w hw => h w (by simp [hw])) x hx

theorem hereWord_k {ps : List (SimpleWordKind TCommand)} (h : ∀ w ∈ ps, KSimple true w) : KBody (hereWord ps) := by
  match ps with
  | [] => exact .text
  | [w] => exact .single (h w (by simp))
  | w :: v :: ws => exact .concat (by simp) h

theorem untab_ne (w : Str) : TokNe (untab w) := by
  intro t ht
  simp only [untab] at ht
  split at ht
  · simp at ht
  · simp at ht; subst ht; assumption

theorem stripLine_ne {c : List Token} (h : TokNe c) : TokNe (stripLine c) := by
  induction c using stripLine.induct with
  | case1 => simpa [stripLine] using h
  | case2 w => simp only [stripLine]; exact untab_ne w
  | case3 w t r ih =>
    simp only [stripLine]
    intro x hx
    simp only [List.mem_append, List.mem_cons] at hx
    rcases hx with hx | rfl | hx
    · exact untab_ne w x hx
    · exact h _ (by simp)
    · exact ih (fun y hy => h y (by simp [hy])) x hx
  | case4 t r _ _ ih =>
    rw [stripLine.eq_4 _ _ (by assumption) (by assumption)]
    intro x hx
    rcases List.mem_cons.1 hx with rfl | hx
    · exact h _ (by simp)
    · exact ih (tokNe_cons h) x hx

theorem here_ne {s d} {l body r : List Token} (h : HereLines s d l body r) (hl : TokNe l) : TokNe body := by
  have line : ∀ c, TokNe c → TokNe (lineOf s c) := by
    intro c hc
    unfold lineOf
    split
    · exact stripLine_ne hc
    · exact hc
  induction h with
  | delim => intro t ht; simp at ht
  | line h1 h2 h3 ih =>
    intro t ht
    simp only [List.mem_append, List.mem_cons] at ht
    rcases ht with ht | rfl | ht
    · exact line _ (fun t ht => hl t (by simp [ht])) t ht
    · exact hl _ (by simp)
    · exact ih (fun t ht => hl t (by simp [ht])) t ht
  | lastDelim => intro t ht; simp at ht
  | lastLine h1 h2 => exact line _ hl

theorem paramName_nf {t : Token} {q : DefaultParameter} (h : ParamName t q) (ht : t.asStr ≠ []) : NfParam q := by
  cases h with
  | special h =>
    simp only [specialParams, List.mem_cons, Prod.mk.injEq, List.not_mem_nil, or_false] at h
    rcases h with ⟨-, rfl⟩ | ⟨-, rfl⟩ | ⟨-, rfl⟩ | ⟨-, rfl⟩ | ⟨-, rfl⟩ | ⟨-, rfl⟩ | ⟨-, rfl⟩ <;> trivial
  | var => exact ht

theorem paramIn_nf {t : Token} {q : DefaultParameter} (h : ParamIn t q) (ht : t.asStr ≠ []) : NfParam q := by
  cases h with
  | name h => exact paramName_nf h ht
  | number h1 h2 _ => simp only [NfParam]; omega

theorem body_of_here {t : Token} {s d} {l l1 l2 l3 u saved body r : List Token} (hT : TokNe (t :: l)) (h1 : Skip l l1) (h2 : DelimToks l1 u l2)
    (h3 : RestOfLine l2 saved l3) (h4 : HereLines s d l3 body r) : TokNe body := by
  refine here_ne h4 ?_
  have g1 := tokNe_part h1.part (tokNe_cons hT)
  rw [h2.append, h3.append] at g1
  exact fun x hx => g1 x (by simp [hx])


theorem unescape_ne {u : List Token} (h : TokNe u) : TokNe (Gram.unescape u) := by
  have key : ∀ (l : List PTok), ∀ x ∈ Spec.unescape l, x ∈ l := by
    intro l
    induction l using Spec.unescape.induct with
    | case1 => simp [Spec.unescape]
    | case2 => simp [Spec.unescape]
    | case3 x y r h1 h2 ih =>
      intro z hz
      simp only [Spec.unescape, h1, if_true, h2, List.mem_cons] at hz
      rcases hz with rfl | hz
      · simp
      · simp [ih z hz]
    | case4 x y r h1 h2 ih =>
      intro z hz
      simp only [Spec.unescape, h1, if_true, h2, if_false, List.mem_cons] at hz
      rcases hz with rfl | rfl | hz
      · simp
      · simp
      · simp [ih z hz]
    | case5 x y r h1 ih =>
      intro z hz
      simp only [Spec.unescape, h1, if_false, List.mem_cons] at hz
      rcases hz with rfl | hz
      · simp
      · have := ih z hz; simp at this; simp [this]
  intro t ht
  obtain ⟨x, hx, rfl⟩ := List.mem_map.1 ht
  have := key _ x hx
  obtain ⟨y, hy, rfl⟩ := List.mem_map.1 this
  exact h y hy

/-- After what is no redirection and no word there is none. -/
theorem no_second {B : Builder} {b b' b'' : B.State} {l l' r r' : List Token} {a} (hs : Skip l l')
    (h : Reads .redirect b l' none r b') (h' : Reads .redirect b' r a r' b'') : a = none := by
  have hb := hs.noBlank
  suffices Reads .redirect b' r none r b' from (C31_unambiguous .redirect trivial _ _ h' this).1
  cases h with
  | noRedirect h1 h2 =>
    refine .noRedirect ?_ h2
    generalize hk : (none : Option (ComplexWordKind B.Command)) = k at h1
    generalize hd : (none : Option Token) = d at h1
    cases h1 with
    | noWord h => exact .noWord (.refl ⟨by simp, by simp⟩)
    | @someWord _ _ _ l2 ws _ _ h3 h4 h5 =>
      obtain rfl := h3.of_noBlank hb
      have hws : ws = [] := by
        match ws, hk with
        | [], _ => rfl
        | [_], h => cases h
        | _ :: _ :: _, h => cases h
      subst hws
      generalize hw : ([] : List (WordKind B.Command)) = ws at h5
      cases h5 with
      | endWord h => exact .someWord (ws := []) (.refl hb) h4 (.endWord h)
      | endCurly => cases hd
      | endEscaped _ => exact absurd rfl (hb.2 _)
      | endBackslash _ => exact .someWord (ws := []) (.refl ⟨by simp, by simp⟩) (by simp) (.endWord (by intro t r h; simp at h))
      | consPiece => cases hw

/-- After assignments without a command word there is no redirection and no word. -/
def NoCmd {B : Builder} : (n : NT) → n.Res B → List Token → B.State → Prop
  | .assigns, (_, e), r, b => e = none → ∀ a r' b', Reads .redirect b r a r' b' → a = none
  | _, _, _, _ => True

theorem reads_noCmd {B : Builder} {n : NT} {b b' : B.State} {l r : List Token} {a} (h : Reads n b l a r b') : NoCmd n a r b' := by
  induction h with
  | assignEmpty h1 h2 ih => exact ih
  | assign h1 h2 h3 h4 ih1 ih2 => exact ih2
  | assignsRedirect h1 h2 h3 h4 ih1 ih2 => exact ih2
  | assignsWord => intro h; cases h
  | assignsEnd h1 h2 h3 => intro _ a r' b' h; exact no_second h1 h3 h
  | _ => trivial

/-- If there is no command word there are no arguments. -/
theorem no_args {B : Builder} {b b' b'' : B.State} {l l' r : List Token} {vs as}
    (h : Reads .assigns b l (vs, none) l' b') (h' : Reads .args b' l' as r b'') : as = [] := by
  have := reads_noCmd h rfl
  cases h' with
  | argsRedirect h => cases this _ _ _ h
  | argsWord h => cases this _ _ _ h
  | argsEnd => rfl

/-- The builder's methods. -/
theorem calls_eq {c : Call DefaultBuilder.toBTypes} {b b' : DefaultBuilder.State} {a v : c.Ret}
    (h : Gram.Calls (B := DefaultBuilder) c b a b') (e : stringCore.call c = .ok v) : a = v := by
  have h1 : stringCore.call c = .ok a := congrArg Prod.fst h
  rw [e] at h1
  injection h1 with h1
  exact h1.symm

theorem pipeline_nf {bang : Bool} {cs : List (List Nl × TPipeable)} {b b' a} (g1 : cs ≠ []) (g2 : ∀ x ∈ cs, NfPipeable x.2)
    (h : Gram.Calls (B := DefaultBuilder) (.pipeline bang cs) b a b') : NfListable a := by
  match bang, cs with
  | _, [] => exact absurd rfl g1
  | false, [c] => obtain rfl := calls_eq h rfl; exact .single (g2 c (by simp))
  | true, [c] => obtain rfl := calls_eq h rfl; exact .pipe (by simp) (by simp) (by simpa using g2)
  | bang, c :: d :: cs =>
    have e : stringCore.call (.pipeline bang (c :: d :: cs)) = .ok (.Pipe bang ((c :: d :: cs).map (·.2))) := by cases bang <;> rfl
    obtain rfl := calls_eq h e
    refine .pipe (by simp) (by simp) fun x hx => ?_
    obtain ⟨y, hy, rfl⟩ := List.mem_map.1 hx
    exact g2 y hy

set_option maxHeartbeats 1000000 in
theorem reads_nf {n : NT} {b l a r b'} (h : Reads (B := DefaultBuilder) n b l a r b') : TokNe l → NfRes n a := by
  induction h with
  | literal h1 => exact fun hT => .simple (.literal (hT _ (by simp)))
  | name => exact fun hT => .simple (.literal (hT (.Name _) (by simp)))
  | text => exact fun hT => .simple (.literal (hT (.Literal _) (by simp)))
  | special h1 =>
    intro _
    simp only [specialTokens, List.mem_cons, Prod.mk.injEq, List.not_mem_nil, or_false] at h1
    rcases h1 with ⟨-, rfl⟩ | ⟨-, rfl⟩ | ⟨-, rfl⟩ | ⟨-, rfl⟩ | ⟨-, rfl⟩ | ⟨-, rfl⟩ <;> exact .simple (.pattern (by simp))
  | escaped h1 => exact fun hT => .simple (.escaped (hT _ (by simp)))
  | singleQuoted h1 => exact fun _ => .single
  | doubleQuoted h1 ih => exact fun hT => .double (ih (tokNe_cons hT) (.inr rfl))
  | pieceBacktick h1 ih => exact fun hT => .simple (ih hT _)
  | pieceParam h1 ih => exact fun hT => .simple (ih hT _)
  | endWord h1 => intro _ w hw; simp at hw
  | endCurly => intro _ w hw; simp at hw
  | endEscaped h1 => intro _ w hw; simp at hw
  | endBackslash => intro _ w hw; simp at hw
  | consPiece h1 h2 h3 ih1 ih2 =>
    intro hT w hw
    rcases List.mem_cons.1 hw with rfl | hw
    · exact ih1 hT
    · exact ih2 (by tk) w hw
  | noWord h1 => intro _ w hw; simp at hw
  | someWord h1 h2 h3 ih => exact fun hT => wordOf_k (ih (by tk))
  | wordPSome h1 h2 ih =>
    intro hT w hw
    cases hw
    obtain rfl := calls_eq h2 rfl
    exact word_nf (ih hT _ rfl)
  | wordPNone h1 ih => intro _ w hw; simp at hw
  | word h1 h2 ih => exact ih
  | wordsNil h1 ih => intro _ w hw; simp at hw
  | wordsCons h1 h2 ih1 ih2 =>
    intro hT w hw
    rcases List.mem_cons.1 hw with rfl | hw
    · exact ih1 hT _ rfl
    · exact ih2 (by tk) w hw
  | interpEnd => intro _ _ w hw; simp at hw
  | interpEof => intro _ _ w hw; simp at hw
  | interpParam h1 h2 h3 ih1 ih2 =>
    intro hT hd w hw
    rcases List.mem_cons.1 hw with hw | hw
    · cases hw; exact ih1 hT _
    · exact ih2 (by tk) hd w hw
  | interpBacktick h1 h2 h3 ih1 ih2 =>
    intro hT hd w hw
    rcases List.mem_cons.1 hw with hw | hw
    · cases hw; exact ih1 hT _
    · exact ih2 (by tk) hd w hw
  | @interpEscaped _ d t _ _ _ _ h1 h2 h3 ih =>
    intro hT hd w hw
    rcases List.mem_cons.1 hw with hw | hw
    · cases hw
      have : t ∈ quotable := by
        rcases h2 with h2 | h2
        · exact h2
        · rcases hd with hd | hd <;> subst hd <;> cases h2
          simp [quotable]
      simp only [quotable, List.mem_cons, List.not_mem_nil, or_false] at this
      rcases this with rfl | rfl | rfl | rfl | rfl <;> exact .escapedQuoted (by decide)
    · exact ih (by tk) hd w hw
  | interpBackslash h1 h2 h3 h4 ih =>
    intro hT hd w hw
    rcases List.mem_cons.1 hw with hw | hw
    · cases hw
    · exact ih (by tk) hd w hw
  | interpText h1 h2 h3 h4 ih =>
    intro hT hd w hw
    rcases List.mem_cons.1 hw with hw | hw
    · cases hw
    · exact ih (by tk) hd w hw
  | interp h1 ih => exact fun hT hd => gather_k (ih hT hd)
  | @positional _ p _ => exact fun _ q => .param (by show p.asNum < 2 ^ 32; cases p <;> decide)
  | parameter h1 => exact fun hT q => .param (paramName_nf h1 (hT _ (by simp)))
  | loneDollar h1 => exact fun hT q => .literal (by decide)
  | arithmetic => exact fun _ q => .subst .arith
  | noArithmetic => exact fun _ q => .subst .arith
  | commandSubst h1 h2 ih => exact fun hT q => .subst (.command (ih (by tk)).2)
  | braced h1 h2 ih => exact fun hT q => ih (by tk) (paramIn_nf h1 (hT _ (by simp))) q
  | curlyEnd => exact fun _ hp q => .param hp
  | curlyColonEnd => exact fun _ hp q => .param hp
  | curlyLen h1 h2 => exact fun hT hp q => .subst (.len (paramIn_nf h1 (hT _ (by simp))))
  | curlyLenSpecial h1 =>
    intro _ _ q
    simp only [List.mem_cons, Prod.mk.injEq, List.not_mem_nil, or_false] at h1
    rcases h1 with ⟨-, rfl⟩ | ⟨-, rfl⟩ | ⟨-, rfl⟩ <;> exact .subst (.len trivial)
  | curlyOp h1 h2 h3 ih =>
    intro hT hp q
    have := ih (by tk)
    simp only [substOps, List.mem_cons, Prod.mk.injEq, List.not_mem_nil, or_false] at h1
    rcases h1 with ⟨-, rfl⟩ | ⟨-, rfl⟩ | ⟨-, rfl⟩ | ⟨-, rfl⟩
    · exact .subst (.default hp this)
    · exact .subst (.assign hp this)
    · exact .subst (.error hp this)
    · exact .subst (.alternative hp this)
  | curlyColonOp h1 h2 ih =>
    intro hT hp q
    have := ih (by tk)
    simp only [substOps, List.mem_cons, Prod.mk.injEq, List.not_mem_nil, or_false] at h1
    rcases h1 with ⟨-, rfl⟩ | ⟨-, rfl⟩ | ⟨-, rfl⟩ | ⟨-, rfl⟩
    · exact .subst (.default hp this)
    · exact .subst (.assign hp this)
    · exact .subst (.error hp this)
    · exact .subst (.alternative hp this)
  | curlyPercent h1 h2 ih => exact fun hT hp q => .subst (.smallestSuffix hp (ih (by tk)))
  | curlyPercent2 h2 ih => exact fun hT hp q => .subst (.largestSuffix hp (ih (by tk)))
  | curlyPound h1 h2 h3 ih => exact fun hT hp q => .subst (.smallestPrefix hp (ih (by tk)))
  | curlyPound2 h2 ih => exact fun hT hp q => .subst (.largestPrefix hp (ih (by tk)))
  | substEnd => intro _ w hw; simp at hw
  | substDelim h1 h2 ih =>
    intro hT w hw
    rcases List.mem_cons.1 hw with rfl | hw
    · exact .simple (.literal (hT _ (by simp)))
    · exact ih (by tk) w hw
  | substPound h2 ih =>
    intro hT w hw
    rcases List.mem_cons.1 hw with rfl | hw
    · exact .simple (.literal (by decide))
    · exact ih (by tk) w hw
  | substEscaped h2 ih =>
    intro hT w hw
    rcases List.mem_cons.1 hw with rfl | hw
    · exact .simple (.escaped (by decide))
    · exact ih (by tk) w hw
  | substDropped h2 ih => exact fun hT => ih (by tk)
  | substPiece h1 h2 h3 h4 ih1 ih2 =>
    intro hT w hw
    rcases List.mem_cons.1 hw with rfl | hw
    · exact ih1 hT
    · exact ih2 (by tk) w hw
  | substWord h ih => exact fun hT => wordOf_k (ih hT)
  | backtick h1 h2 ih => exact fun hT q => .commandSubst (ih (unescape_ne fun t ht => hT t (by simp [ht])))
  | subshell h1 h2 ih =>
    intro hT
    refine ⟨fun e hg => ?_, ih (by tk)⟩
    subst e; cases h2 hg
  | groupEnd h1 h2 => intro _ c hc; simp at hc
  | groupCons h1 h2 h3 h4 h5 ih1 ih2 =>
    intro hT c hc
    rcases List.mem_cons.1 hc with rfl | hc
    · exact ih1 (by tk)
    · exact ih2 (by tk) c hc
  | brace h1 h2 h3 h4 h5 h6 ih => exact fun hT => .mk h4 (ih (by tk))
  | doGroup h1 h2 h3 h4 ih => exact fun hT => .mk h3 (ih (by tk))
  | redirPath h1 h2 h3 h4 h5 ih =>
    intro hT hfd
    obtain rfl := calls_eq h4 rfl
    obtain rfl := calls_eq h5 rfl
    have hw := word_nf (ih (by tk) _ rfl)
    simp only [pathOps, List.mem_cons, Prod.mk.injEq, List.not_mem_nil, or_false] at h1
    rcases h1 with ⟨-, rfl⟩ | ⟨-, rfl⟩ | ⟨-, rfl⟩ | ⟨-, rfl⟩ | ⟨-, rfl⟩
    · exact .read hfd hw
    · exact .write hfd hw
    · exact .append hfd hw
    · exact .clobber hfd hw
    · exact .readWrite hfd hw
  | redirDupDash h1 h2 h3 h4 h5 =>
    intro hT hfd
    obtain rfl := calls_eq h4 rfl
    obtain rfl := calls_eq h5 rfl
    have hw : NfWord (stringCore.word (.Single (.Simple (.Literal Token.Dash.asStr)))) :=
      word_nf (.single (.simple (.literal (by decide))))
    simp only [dupOps, List.mem_cons, Prod.mk.injEq, List.not_mem_nil, or_false] at h1
    rcases h1 with ⟨-, rfl⟩ | ⟨-, rfl⟩
    · exact .dupRead hfd hw
    · exact .dupWrite hfd hw
  | redirDup h1 h2 h3 h4 h5 h6 h7 ih =>
    intro hT hfd
    obtain rfl := calls_eq h6 rfl
    obtain rfl := calls_eq h7 rfl
    have hw := word_nf (ih (by tk) _ rfl)
    simp only [dupOps, List.mem_cons, Prod.mk.injEq, List.not_mem_nil, or_false] at h1
    rcases h1 with ⟨-, rfl⟩ | ⟨-, rfl⟩
    · exact .dupRead hfd hw
    · exact .dupWrite hfd hw
  | redirHeredoc h ih => exact ih
  | heredocQuoted h1 h2 h3 h4 h5 h6 h7 h8 h9 =>
    intro hT hfd
    obtain rfl := calls_eq h8 rfl
    obtain rfl := calls_eq h9 rfl
    exact .heredoc hfd (body_nf .text)
  | heredoc h1 h2 h3 h4 h5 h6 h7 h8 h9 h10 ih =>
    intro hT hfd
    obtain rfl := calls_eq h9 rfl
    obtain rfl := calls_eq h10 rfl
    exact .heredoc hfd (body_nf (hereWord_k (ih (body_of_here hT h2 h3 h6 h7) (.inl rfl))))
  | redirect h1 h2 h3 ih1 ih2 =>
    intro hT
    refine ⟨?_, by simp⟩
    rintro _ ⟨⟩
    exact ih2 (by tk) (by intro n h; cases h)
  | redirectFd h1 h2 h3 h4 ih1 ih2 =>
    intro hT
    refine ⟨?_, by simp⟩
    rintro _ ⟨⟩
    refine ih2 (by tk) ?_
    rintro n ⟨⟩
    obtain ⟨s, -, -, h, -⟩ := h2
    omega
  | redirectWord h1 h2 h3 ih =>
    intro hT
    obtain rfl := calls_eq h3 rfl
    refine ⟨by simp, ?_⟩
    rintro _ ⟨⟩
    exact word_nf (ih hT _ rfl)
  | noRedirect => exact fun _ => ⟨by simp, by simp⟩
  | redirectsNil => intro _ r hr; simp at hr
  | redirectsCons h1 h2 h3 ih1 ih2 =>
    intro hT r hr
    rcases List.mem_cons.1 hr with rfl | hr
    · exact (ih1 (by tk)).1 _ rfl
    · exact ih2 (by tk) r hr
  | assignEmpty h1 h2 ih =>
    intro hT
    have hT' := tokNe_part h1.part hT
    have h3 := ih (by tk)
    refine ⟨fun e he => ?_, h3.2⟩
    rcases List.mem_cons.1 he with rfl | he
    · exact .envVar (hT' (.Name _) (by simp)) (by simp)
    · exact h3.1 e he
  | assign h1 h2 h3 h4 ih1 ih2 =>
    intro hT
    have hT' := tokNe_part h1.part hT
    have h5 := ih2 (by tk)
    refine ⟨fun e he => ?_, h5.2⟩
    rcases List.mem_cons.1 he with rfl | he
    · exact .envVar (hT' (.Name _) (by simp)) (ih1 (by tk))
    · exact h5.1 e he
  | assignsRedirect h1 h2 h3 h4 ih1 ih2 =>
    intro hT
    have h5 := ih2 (by tk)
    refine ⟨fun e he => ?_, h5.2⟩
    rcases List.mem_cons.1 he with rfl | he
    · exact .redirect ((ih1 (by tk)).1 _ rfl)
    · exact h5.1 e he
  | assignsWord h1 h2 h3 ih =>
    intro hT
    refine ⟨by simp, ?_⟩
    rintro _ ⟨⟩
    exact (ih (by tk)).2 _ rfl
  | assignsEnd => exact fun _ => ⟨by simp, by simp⟩
  | argsRedirect h1 h2 ih1 ih2 =>
    intro hT x hx
    rcases List.mem_cons.1 hx with rfl | hx
    · exact .redirect ((ih1 hT).1 _ rfl)
    · exact ih2 (by tk) x hx
  | argsWord h1 h2 ih1 ih2 =>
    intro hT x hx
    rcases List.mem_cons.1 hx with rfl | hx
    · exact .word ((ih1 hT).2 _ rfl)
    · exact ih2 (by tk) x hx
  | argsEnd => intro _ x hx; simp at hx
  | @simple _ _ vs e _ _ as _ _ _ _ h1 h2 h3 h4 ih1 ih2 =>
    intro hT
    obtain rfl := calls_eq h4 rfl
    obtain ⟨g1, g2⟩ := ih1 hT
    have g3 := ih2 (by tk)
    have hvs : vs.map stringCore.mapEnvVar = vs := by
      rw [List.map_congr_left (g := id)]
      · simp
      · intro x _; cases x <;> rfl
    rw [hvs]
    refine .simple ?_ g1 ?_ ?_
    · cases e with
      | some w => simp
      | none => have := no_args h1 h2; simp_all
    · intro x hx
      rcases List.mem_append.1 hx with hx | hx
      · obtain ⟨w, hw, rfl⟩ := List.mem_map.1 hx
        exact .word (g2 w (by simpa using hw))
      · exact g3 x hx
    · cases e with
      | some w => intro x hx; simp at hx; exact ⟨w, hx.symm⟩
      | none => have := no_args h1 h2; subst this; intro x hx; simp at hx
  | ifElif h1 h2 h3 h4 h5 h6 h7 ih1 ih2 ih3 =>
    intro hT
    obtain ⟨g1, g2, g3⟩ := ih3 (by tk)
    refine ⟨by simp, fun p hp => ?_, g3⟩
    rcases List.mem_cons.1 hp with rfl | hp
    · exact ⟨.mk h2 (ih1 hT), .mk h5 (ih2 (by tk))⟩
    · exact g2 p hp
  | ifElse h1 h2 h3 h4 h5 h6 h7 h8 h9 ih1 ih2 ih3 =>
    intro hT
    refine ⟨by simp, fun p hp => ?_, ?_⟩
    · obtain rfl := List.mem_singleton.1 hp
      exact ⟨.mk h2 (ih1 hT), .mk h5 (ih2 (by tk))⟩
    · rintro _ ⟨⟩
      exact .mk h8 (ih3 (by tk))
  | ifFi h1 h2 h3 h4 h5 h6 ih1 ih2 =>
    intro hT
    refine ⟨by simp, fun p hp => ?_, by simp⟩
    obtain rfl := List.mem_singleton.1 hp
    exact ⟨.mk h2 (ih1 hT), .mk h5 (ih2 (by tk))⟩
  | ifCommand h1 h2 ih => exact fun hT => ih (by tk)
  | loopCommand h1 h2 h3 h4 ih1 ih2 => exact fun hT => ⟨.mk h3 (ih1 (by tk)), ih2 (by tk)⟩
  | forIn h1 h2 h3 h4 h5 ih =>
    intro hT
    rintro _ ⟨⟩
    exact ih (by tk)
  | forSemi => exact fun _ => by simp [NfRes]
  | forDo => exact fun _ => by simp [NfRes]
  | forCommand h1 h2 h3 h4 h5 h6 ih1 ih2 =>
    intro hT
    have hT' := tokNe_part h2.part (tokNe_part h1.part hT)
    exact ⟨hT' (.Name _) (by simp), ih1 (by tk), ih2 (by tk)⟩
  | patternLast h ih =>
    intro hT
    refine ⟨by simp, fun w hw => ?_⟩
    obtain rfl := List.mem_singleton.1 hw
    exact ih hT _ rfl
  | patternCons h1 h2 ih1 ih2 =>
    intro hT
    refine ⟨by simp, fun w hw => ?_⟩
    rcases List.mem_cons.1 hw with rfl | hw
    · exact ih1 hT _ rfl
    · exact (ih2 (by tk)).2 w hw
  | armsEnd => intro _ x hx; simp at hx
  | armsCons h1 h2 h3 h4 h5 h6 h7 h8 ih1 ih2 ih3 =>
    intro hT x hx
    rcases List.mem_cons.1 hx with rfl | hx
    · obtain ⟨g1, g2⟩ := ih1 (by rcases h3 with rfl | ⟨rfl, -⟩ <;> tk)
      exact ⟨g1, g2, ih2 (by rcases h3 with rfl | ⟨rfl, -⟩ <;> tk)⟩
    · exact ih3 (by rcases h3 with rfl | ⟨rfl, -⟩ <;> tk) x hx
  | armsLast h1 h2 h3 h4 h5 h6 h7 ih1 ih2 =>
    intro hT x hx
    obtain rfl := List.mem_singleton.1 hx
    obtain ⟨g1, g2⟩ := ih1 (by rcases h3 with rfl | ⟨rfl, -⟩ <;> tk)
    exact ⟨g1, g2, ih2 (by rcases h3 with rfl | ⟨rfl, -⟩ <;> tk)⟩
  | caseCommand h1 h2 h3 h4 h5 h6 h7 h8 ih1 ih2 => exact fun hT => ⟨ih1 (by tk) _ rfl, ih2 (by tk)⟩
  | compoundIf h1 h2 h3 ih1 ih2 =>
    intro hT
    obtain rfl := calls_eq h3 rfl
    obtain ⟨g1, g2, g3⟩ := ih1 hT
    refine .mk (.ifThen (by simpa using g1) ?_ ?_ ?_) (ih2 (by tk))
    · intro p hp
      obtain ⟨q, hq, rfl⟩ := List.mem_map.1 hp
      exact (g2 q hq).1
    · intro p hp
      obtain ⟨q, hq, rfl⟩ := List.mem_map.1 hp
      exact (g2 q hq).2
    · intro cs hcs
      obtain ⟨g, hg, rfl⟩ := Option.map_eq_some_iff.1 hcs
      exact g3 g hg
  | @compoundLoop _ _ _ k _ _ _ _ _ _ _ _ h1 h2 h3 h4 ih1 ih2 =>
    intro hT
    obtain ⟨g1, g2⟩ := ih1 hT
    cases k with
    | While => obtain rfl := calls_eq h4 rfl; exact .mk (.whileLoop g1 g2) (ih2 (by tk))
    | Until => obtain rfl := calls_eq h4 rfl; exact .mk (.untilLoop g1 g2) (ih2 (by tk))
  | compoundFor h1 h2 h3 ih1 ih2 =>
    intro hT
    obtain rfl := calls_eq h3 rfl
    obtain ⟨g1, g2, g3⟩ := ih1 hT
    refine .mk (.forLoop g1 ?_ g3) (ih2 (by tk))
    intro l hl
    obtain ⟨x, hx, rfl⟩ := Option.map_eq_some_iff.1 hl
    exact g2 x hx
  | compoundCase h1 h2 h3 ih1 ih2 =>
    intro hT
    obtain rfl := calls_eq h3 rfl
    obtain ⟨g1, g2⟩ := ih1 hT
    refine .mk (.case g1 ?_ ?_ ?_) (ih2 (by tk)) <;> intro x hx <;> obtain ⟨y, hy, rfl⟩ := List.mem_map.1 hx
    · exact (g2 y hy).1
    · exact (g2 y hy).2.1
    · exact (g2 y hy).2.2
  | compoundBrace h1 h2 h3 ih1 ih2 =>
    intro hT
    obtain rfl := calls_eq h3 rfl
    exact .mk (.brace (ih1 hT)) (ih2 (by tk))
  | compoundSubshell h1 h2 h3 ih1 ih2 =>
    intro hT
    obtain rfl := calls_eq h3 rfl
    obtain ⟨g1, g2⟩ := ih1 hT
    exact .mk (.subshell (.mk (g1 rfl) g2)) (ih2 (by tk))
  | fnParens => exact fun _ => by simp [NfRes]
  | fnNewline => exact fun _ => by simp [NfRes]
  | fnWsParens => exact fun _ => by simp [NfRes]
  | fnWs => exact fun _ => by simp [NfRes]
  | fnEmpty => exact fun _ => by simp [NfRes]
  | @fnSubshell _ _ _ _ g _ _ _ _ h1 h2 h3 h4 ih =>
    intro hT
    obtain rfl := calls_eq h4 rfl
    rintro _ ⟨⟩
    obtain ⟨-, g1⟩ := ih (by tk)
    by_cases hg : g.commands = []
    · exact .inr (by rw [hg])
    · exact .inl (.mk (.subshell (.mk hg g1)) (by simp))
  | function h1 h2 h3 h4 h5 h6 h7 ih1 ih2 =>
    intro hT
    obtain rfl := calls_eq h7 rfl
    have hl1 : TokNe _ := h1.elim (fun h1 => tokNe_part h1.2.part hT) (fun h1 => h1.2.1 ▸ hT)
    have hT' := tokNe_part h2.part hl1
    exact .function (hT' (.Name _) (by simp)) (ih2 (by tk))
  | functionSubshell h1 h2 h3 h4 ih =>
    intro hT
    obtain rfl := calls_eq h4 rfl
    have hT' := tokNe_part h2.part (tokNe_part h1.part hT)
    rcases ih (by tk) _ rfl with h | rfl
    · exact .function (hT' (.Name _) (by simp)) h
    · exact .emptyFunction (hT' (.Name _) (by simp))
  | commandCompound h1 h2 h3 h4 ih =>
    intro hT
    obtain rfl := calls_eq h4 rfl
    exact .compound (ih (by tk))
  | commandFunction h1 h2 h3 h4 ih => exact fun hT => ih (by tk)
  | commandSimple h1 h2 h3 h4 ih => exact fun hT => ih (by tk)
  | pipeLast h1 h2 h3 ih =>
    intro hT
    refine ⟨by simp, fun w hw => ?_⟩
    obtain rfl := List.mem_singleton.1 hw
    exact ih hT
  | pipeCons h1 h2 h3 h4 ih1 ih2 =>
    intro hT
    refine ⟨by simp, fun w hw => ?_⟩
    rcases List.mem_cons.1 hw with rfl | hw
    · exact ih1 hT
    · exact (ih2 (by tk)).2 w hw
  | @pipeline _ _ _ bang _ cs _ _ _ _ h1 h2 h3 h4 ih =>
    intro hT
    have hl := tokNe_part h1.part hT
    obtain ⟨g1, g2⟩ := ih (by rcases h2 with ⟨-, rfl⟩ | ⟨-, rfl, -⟩ <;> tk)
    exact pipeline_nf g1 g2 h4
  | andOrEnd => intro _ x hx; simp at hx
  | andOrAnd h1 h2 h3 h4 ih1 ih2 =>
    intro hT x hx
    rcases List.mem_cons.1 hx with rfl | hx
    · rintro c (⟨⟨⟩⟩ | ⟨⟨⟩⟩); exact ih1 (by tk)
    · exact ih2 (by tk) x hx
  | andOrOr h1 h2 h3 h4 ih1 ih2 =>
    intro hT x hx
    rcases List.mem_cons.1 hx with rfl | hx
    · rintro c (⟨⟨⟩⟩ | ⟨⟨⟩⟩); exact ih1 (by tk)
    · exact ih2 (by tk) x hx
  | andOr h1 h2 h3 ih1 ih2 =>
    intro hT
    obtain rfl := calls_eq h3 rfl
    refine ⟨ih1 hT, fun c hc => ?_⟩
    have := ih2 (by tk)
    rcases hc with hc | hc <;> obtain ⟨y, hy, e⟩ := List.mem_map.1 hc
    · exact this y hy c (.inl e)
    · exact this y hy c (.inr e)
  | @complete _ _ _ _ _ _ s _ _ _ _ h1 h2 h3 ih =>
    intro hT
    obtain ⟨g1, g2⟩ := ih hT
    cases s <;> obtain rfl := calls_eq h3 rfl
    all_goals first | exact .job g1 g2 | exact .list g1 g2
  | topCommand h1 h2 h3 ih =>
    intro hT
    rintro _ ⟨⟩
    exact ih (by tk)
  | topNone => exact fun _ => by simp [NfRes]
  | topComments => exact fun _ => by simp [NfRes]

end Conch
