import Verif.LayoutGroup
/-!
# Reading compound commands and functions, however they are written (C47)
-/
namespace Conch
open Spec Gram

section
variable {cc : CharClass} (hs : cc.Sane) (hl : Latin cc)
include hs hl

/-! ## Groups in brackets, loops and `if` -/

omit hl in
theorem compW_brace {cs : Syn .commands} {io : Syn .redirs} {t t' E : Str} (hn : cs.noCommands = false)
    (ih : CommandsW cc false cs ('}' :: t') t) (hd : Delim cc t) (hio : RedirsW cc io E t') : CompW cc (.brace cs io) E ('{' :: t) := by
  refine ⟨⟨'{', _, rfl, by decide⟩, fun rest hr => ?_⟩
  obtain ⟨i1, i2⟩ := hio rest hr
  have hcl : lex cc ('}' :: t') = .CurlyClose :: lex cc t' := lex_close hs _
  have hop : lex cc ('{' :: t) = .CurlyOpen :: lex cc t := lex_end hs .CurlyOpen _ (by decide) (by decide)
  obtain ⟨ms, h1⟩ := ih.2 braceDelim ⟨by simp [braceDelim], by simp [braceDelim], by simp [braceDelim]⟩
    ⟨by rw [hcl]; simp [Gram.NoBlank], by rw [hcl]; intro r; simp,
      by rw [hcl]; exact .inl (.inr (.inr ⟨.CurlyClose, by simp [braceDelim], _, rfl, i2.ends hs⟩))⟩
    (by simp) (by simp)
  have he : Gram.EndsWord (lex cc t) := WordEnd.ends hs (.inr hd)
  rw [hop]
  refine ⟨.Brace, .brace he, ?_, ⟨by simp [Gram.NoBlank], ⟨_, _, rfl, by simp⟩, ?_⟩, by simp⟩
  · rw [hcl] at h1
    exact .compoundBrace (.brace (.refl (by simp [Gram.NoBlank])) he h1 (ast_ne hn)
      (.refl (by simp [Gram.NoBlank])) (i2.ends hs)) i1 rfl
  · rintro x hx r ⟨e | e, -⟩ <;> cases e

omit hl in
theorem compW_subshell {cs : Syn .commands} {io : Syn .redirs} {t t' E : Str} (hn : cs.noCommands = false)
    (ih : CommandsW cc true cs (')' :: t') t) (hio : RedirsW cc io E t') : CompW cc (.subshell cs io) E ('(' :: t) := by
  refine ⟨⟨'(', _, rfl, by decide⟩, fun rest hr => ?_⟩
  obtain ⟨i1, i2⟩ := hio rest hr
  have hcl := lex_rpar hs t'
  have hop := lex_lpar hs t
  obtain ⟨ms, h1⟩ := ih.2 parenDelim ⟨by simp [parenDelim], by simp [parenDelim], by simp [parenDelim]⟩
    ⟨by rw [hcl]; simp [Gram.NoBlank], by rw [hcl]; intro r; simp,
      by rw [hcl]; exact .inl (.inl ⟨.ParenClose, by simp [parenDelim], _, rfl⟩)⟩
    (by simp) (fun _ => .inr (.inl rfl))
  rw [hop]
  refine ⟨.Subshell, .subshell, ?_, ⟨by simp [Gram.NoBlank], ⟨_, _, rfl, by simp⟩, ?_⟩, by simp⟩
  · rw [hcl] at h1
    exact .compoundSubshell (.subshell h1 (fun e => absurd e (ast_ne hn))) i1 rfl
  · rintro x hx r ⟨e | e, -⟩ <;> cases e

theorem compW_loop {k : LoopKind} {g b : Syn .commands} {io : Syn .redirs} {t t' t'' E : Str} (hg : g.noCommands = false)
    (hb : b.noCommands = false) (ihg : CommandsW cc false g (DO ++ t') t) (hd : Delim cc t) (ihb : CommandsW cc false b (DONE ++ t'') t')
    (hd' : Delim cc t') (hio : RedirsW cc io E t'') : CompW cc (.loop k g b io) E (loopName k ++ t) := by
  have hlet : Letters (loopName k) ∧ loopName k ∉ inner ∧ loopName k = loopWord k := by cases k <;> decide
  refine ⟨letters_head hlet.1, fun rest hr => ?_⟩
  obtain ⟨i1, i2⟩ := hio rest hr
  obtain ⟨ms, b1⟩ := do_groupW hs hl hb ihb hd' i2
  obtain ⟨ms', g1⟩ := commandsW_kw hs hl ihg (cfg := wordDelim [DO]) (w := DO) (groups_words (by decide)) (by simp [wordDelim]) (by decide)
    (.inr hd')
  have hR : WordEnd cc t := .inr hd
  rw [hlet.2.2]
  have hw := hlet.1
  have hi := hlet.2.1
  rw [hlet.2.2] at hw hi
  have hread : RD .loopCommand (lex cc (loopWord k ++ t)) (k, ⟨⟨g.ast, ms'⟩, ⟨b.ast, ms⟩⟩) (lex cc t'') :=
    .loopCommand (kw_readW hs hl hw hR) g1 (ast_ne hg) b1
  obtain ⟨s1, s2⟩ := start_kwW hs hl hw hi hR
  have hkw := keywordW hs hl hw hR
  cases k with
  | While => exact ⟨.While, .whileKw hkw, .compoundLoop (.inl rfl) hread i1 rfl, s1, s2⟩
  | Until => exact ⟨.Until, .untilKw hkw, .compoundLoop (.inr rfl) hread i1 rfl, s1, s2⟩

theorem compW_if {f : Syn .ifs} {io : Syn .redirs} {t t' E : Str} (ih : IfsW cc f (FI ++ t') t) (hd : Delim cc t) (hio : RedirsW cc io E t') :
    CompW cc (.if_ f io) E (IF ++ t) := by
  refine ⟨letters_head (by decide), fun rest hr => ?_⟩
  obtain ⟨i1, i2⟩ := hio rest hr
  obtain ⟨fr, h2, h3⟩ := ih _ rfl i2
  have hR : WordEnd cc t := .inr hd
  obtain ⟨s1, s2⟩ := start_kwW hs hl (w := IF) (by decide) (by decide) hR
  refine ⟨.If, .ifKw (keywordW hs hl (by decide) hR), .compoundIf (.ifCommand (kw_readW hs hl (by decide) hR) h2) i1 ?_, s1, s2⟩
  rw [ast_if, ← h3]
  rfl

theorem ifsW_fi {g b : Syn .commands} {t t' E : Str} (hg : g.noCommands = false) (hb : b.noCommands = false)
    (ihg : CommandsW cc false g (THEN ++ t') t) (ihb : CommandsW cc false b E t') (hd : Delim cc t') : IfsW cc (.fi g b) E t := by
  rintro R rfl hR
  obtain ⟨mb, b1⟩ := commandsW_kw hs hl ihb (cfg := wordDelim [ELIF, ELSE, FI]) (w := FI) (groups_words (by decide)) (by simp [wordDelim]) (by decide) hR
  have hR' : WordEnd cc t' := .inr hd
  obtain ⟨mg, g1⟩ := commandsW_kw hs hl ihg (cfg := wordDelim [THEN]) (w := THEN) (groups_words (by decide)) (by simp [wordDelim]) (by decide) hR'
  exact ⟨⟨[⟨⟨g.ast, mg⟩, ⟨b.ast, mb⟩⟩], none⟩, .ifFi g1 (ast_ne hg) (kw_readW hs hl (by decide) hR') b1
    (ast_ne hb) (kw_readW hs hl (by decide) hR), rfl⟩

theorem ifsW_else {g b e : Syn .commands} {t t' t'' E : Str} (hg : g.noCommands = false) (hb : b.noCommands = false) (he : e.noCommands = false)
    (ihg : CommandsW cc false g (THEN ++ t') t) (ihb : CommandsW cc false b (ELSE ++ t'') t') (hd : Delim cc t')
    (ihe : CommandsW cc false e E t'') (hd' : Delim cc t'') : IfsW cc (.else_ g b e) E t := by
  rintro R rfl hR
  obtain ⟨me, e1⟩ := commandsW_kw hs hl ihe (cfg := wordDelim [FI]) (w := FI) (groups_words (by decide)) (by simp [wordDelim]) (by decide) hR
  have hR2 : WordEnd cc t'' := .inr hd'
  obtain ⟨mb, b1⟩ := commandsW_kw hs hl ihb (cfg := wordDelim [ELIF, ELSE, FI]) (w := ELSE) (groups_words (by decide)) (by simp [wordDelim]) (by decide) hR2
  have hR1 : WordEnd cc t' := .inr hd
  obtain ⟨mg, g1⟩ := commandsW_kw hs hl ihg (cfg := wordDelim [THEN]) (w := THEN) (groups_words (by decide)) (by simp [wordDelim]) (by decide) hR1
  exact ⟨⟨[⟨⟨g.ast, mg⟩, ⟨b.ast, mb⟩⟩], some ⟨_, me⟩⟩, .ifElse g1 (ast_ne hg) (kw_readW hs hl (by decide) hR1) b1
    (ast_ne hb) (kw_readW hs hl (by decide) hR2) e1 (ast_ne he) (kw_readW hs hl (by decide) hR), rfl⟩

theorem ifsW_elif {g b : Syn .commands} {f : Syn .ifs} {t t' t'' E : Str} (hg : g.noCommands = false) (hb : b.noCommands = false)
    (ihg : CommandsW cc false g (THEN ++ t') t) (ihb : CommandsW cc false b (ELIF ++ t'') t') (hd : Delim cc t') (ihf : IfsW cc f E t'')
    (hd' : Delim cc t'') : IfsW cc (.elif g b f) E t := by
  rintro R rfl hR
  obtain ⟨fr, f2, f3⟩ := ihf R rfl hR
  have hR2 : WordEnd cc t'' := .inr hd'
  obtain ⟨mb, b1⟩ := commandsW_kw hs hl ihb (cfg := wordDelim [ELIF, ELSE, FI]) (w := ELIF) (groups_words (by decide)) (by simp [wordDelim]) (by decide) hR2
  have hR1 : WordEnd cc t' := .inr hd
  obtain ⟨mg, g1⟩ := commandsW_kw hs hl ihg (cfg := wordDelim [THEN]) (w := THEN) (groups_words (by decide)) (by simp [wordDelim]) (by decide) hR1
  refine ⟨⟨⟨⟨g.ast, mg⟩, ⟨b.ast, mb⟩⟩ :: fr.conditionals, fr.elseBranch⟩, .ifElif g1 (ast_ne hg) (kw_readW hs hl (by decide) hR1) b1
    (ast_ne hb) (kw_readW hs hl (by decide) hR2) f2, ?_⟩
  rw [ast_elif, ← f3]
  rfl

/-! ## `for` -/

/-- A name after a gap. -/
theorem nameW {g x R : Str} (hg : Gap cc g) (hx : Shape cc (.Name x)) (hR : NotPlain cc R) :
    lex cc (x ++ R) = .Name x :: lex cc R ∧ Skip (lex cc (g ++ (x ++ R))) (.Name x :: lex cc R) := by
  have := hl
  have h := lex_name' hs hx (hR.nameStop hs)
  refine ⟨h, ?_⟩
  rw [← h]
  exact gap_skip hs hg (by rw [NB, h]; exact name_nb _ _)

/-- The common part of the `for` commands: what comes after the variable is `M`, and `do` is before `t'`. -/
theorem compW_for {x : Str} {b : Syn .commands} {io : Syn .redirs} {g M t' t'' E rest : Str} (hx : Shape cc (.Name x)) (hb : b.noCommands = false)
    (hg : Gap cc g) (hgn : g ≠ []) (hM : NotPlain cc M)
    (ihb : CommandsW cc false b (DONE ++ t'') t') (hd : Delim cc t') (hio : RedirsW cc io E t'') (hr : After cc E rest)
    {c post l3 l4 ws pre a}
    (h1 : OptLine (lex cc M) c l3) (h2 : Gram.Lines l3 post l4)
    (h3 : RD (.forWords post) l4 (ws, pre) (lex cc (DO ++ t')))
    (ha : ∀ ms, Gram.Calls (B := DefaultBuilder) (.forCommand ⟨x, c, ws, pre, ⟨b.ast, ms⟩⟩ io.ast) () a ()) :
    ∃ kw, CompoundStart (lex cc (FOR ++ (g ++ (x ++ M))))  kw ∧
      RD (.compound kw) (lex cc (FOR ++ (g ++ (x ++ M)))) a (lex cc rest) ∧
      CmdStart (lex cc (FOR ++ (g ++ (x ++ M)))) ∧
      ∀ l, lex cc (FOR ++ (g ++ (x ++ M))) ≠ .Bang :: l := by
  obtain ⟨i1, i2⟩ := hio rest hr
  obtain ⟨ms, b1⟩ := do_groupW hs hl hb ihb hd i2
  obtain ⟨-, hn⟩ := nameW hs hl hg hx hM
  have hR : WordEnd cc (g ++ (x ++ M)) := gap_tail hg fun e => absurd e hgn
  obtain ⟨s1, s2⟩ := start_kwW hs hl (w := FOR) (by decide) (by decide) hR
  exact ⟨.For, .forKw (keywordW hs hl (by decide) hR),
    .compoundFor (.forCommand (kw_readW hs hl (by decide) hR) hn h1 h2 h3 b1) i1 (ha ms), s1, s2⟩

theorem compW_forInSemi {x : Str} {ws : Syn .words} {b : Syn .commands} {io : Syn .redirs} {g l t g' l' t' t'' E : Str}
    (hx : Shape cc (.Name x)) (hb : b.noCommands = false) (hg : Gap cc g) (hgn : g ≠ []) (hlay : Layout cc l) (hld : Delim cc l)
    (ihw : WordsW cc ws (g' ++ ';' :: (l' ++ (DO ++ t'))) t) (hg' : Gap cc g') (hlay' : Layout cc l')
    (ihb : CommandsW cc false b (DONE ++ t'') t') (hd : Delim cc t') (hio : RedirsW cc io E t'') :
    CompW cc (.forIn x ws b io) E (FOR ++ (g ++ (x ++ (l ++ (IN ++ t))))) := by
  refine ⟨letters_head (by decide), fun rest hr => ?_⟩
  have hR1 : WordEnd cc t' := .inr hd
  have hdn := kw_nb hs hl (w := DO) (by decide) hR1
  have hdl := kw_noLine hs hl (w := DO) (by decide) hR1
  have hsemi := lex_semi' hs (rest := l' ++ (DO ++ t')) (layout_char hs hlay' (by decide) (kw_head (by decide) _ (by decide)))
  obtain ⟨w1, w2⟩ := ihw (';' :: (l' ++ (DO ++ t'))) (After.gap hg' (.refl (stopAt_char (by decide)) (by simp)))
  obtain ⟨ns, k1⟩ := layout_lines hs hlay' hdn hdl
  obtain ⟨n, k, ms, k2, k3⟩ := lines_opt k1
  obtain ⟨ns', j1⟩ := layout_lines hs hlay (kw_nb hs hl (w := IN) (by decide) w2) (kw_noLine hs hl (w := IN) (by decide) w2)
  obtain ⟨n', k', ms', j2, j3⟩ := lines_opt j1
  rw [hsemi] at w1
  exact compW_for hs hl (c := n') (post := ms') (ws := some (ms', ws.ast, n)) (pre := ms) hx hb hg hgn (tail_append hld).notPlain ihb hd hio hr
    j2 j3 (.forIn (kw_readW hs hl (by decide) w2) w1 (.inl rfl) k2 k3) (fun _ => rfl)

theorem compW_forInLine {x : Str} {ws : Syn .words} {b : Syn .commands} {io : Syn .redirs} {g l t g' l' t' t'' E : Str}
    (hx : Shape cc (.Name x)) (hb : b.noCommands = false) (hg : Gap cc g) (hgn : g ≠ []) (hlay : Layout cc l) (hld : Delim cc l)
    (ihw : WordsW cc ws (g' ++ (l' ++ (DO ++ t'))) t) (hg' : Gap cc g') (hlay' : Layout cc l') (hnew : NewLine g' l')
    (ihb : CommandsW cc false b (DONE ++ t'') t') (hd : Delim cc t') (hio : RedirsW cc io E t'') :
    CompW cc (.forIn x ws b io) E (FOR ++ (g ++ (x ++ (l ++ (IN ++ t))))) := by
  refine ⟨letters_head (by decide), fun rest hr => ?_⟩
  have hR1 : WordEnd cc t' := .inr hd
  have hdn := kw_nb hs hl (w := DO) (by decide) hR1
  have hdl := kw_noLine hs hl (w := DO) (by decide) hR1
  have hnew' : NewLine g' (l' ++ (DO ++ t')) := by
    cases l' with
    | nil => rcases hnew with h | ⟨h, -⟩ <;> cases h
    | cons => exact hnew
  obtain ⟨w1, w2⟩ := ihw (l' ++ (DO ++ t')) (newLine_after hg' hnew')
  obtain ⟨ns, k1⟩ := layout_lines hs hlay' hdn hdl
  have hlx := newLine_lex hs hnew'
  obtain ⟨n, k, ms, k2, k3⟩ := lines_line k1 hlx
  obtain ⟨ns', j1⟩ := layout_lines hs hlay (kw_nb hs hl (w := IN) (by decide) w2) (kw_noLine hs hl (w := IN) (by decide) w2)
  obtain ⟨n', k', ms', j2, j3⟩ := lines_opt j1
  refine compW_for hs hl (c := n') (post := ms') (ws := some (ms', ws.ast, some n)) (pre := ms) hx hb hg hgn (tail_append hld).notPlain ihb hd hio hr
    j2 j3 (.forIn (kw_readW hs hl (by decide) w2) w1 (.inr ⟨rfl, ?_, rfl⟩) (.some k2) k3) (fun _ => rfl)
  intro l'; rcases hlx with ⟨y, hy⟩ | ⟨y, hy⟩ <;> (rw [hy]; simp)

theorem compW_forSemi {x : Str} {b : Syn .commands} {io : Syn .redirs} {g g' l t t' E : Str}
    (hx : Shape cc (.Name x)) (hb : b.noCommands = false) (hg : Gap cc g) (hgn : g ≠ []) (hg' : Gap cc g') (hlay : Layout cc l)
    (ihb : CommandsW cc false b (DONE ++ t') t) (hd : Delim cc t) (hio : RedirsW cc io E t') :
    CompW cc (.forArgs x b io) E (FOR ++ (g ++ (x ++ (g' ++ ';' :: (l ++ (DO ++ t)))))) := by
  refine ⟨letters_head (by decide), fun rest hr => ?_⟩
  have hR1 : WordEnd cc t := .inr hd
  have hsemi := lex_semi' hs (rest := l ++ (DO ++ t)) (layout_char hs hlay (by decide) (kw_head (by decide) _ (by decide)))
  have hsnb : NB cc (';' :: (l ++ (DO ++ t))) := by rw [NB, hsemi]; simp [Gram.NoBlank]
  have hsl : Gram.NoLineStart (lex cc (';' :: (l ++ (DO ++ t)))) := by rw [hsemi]; intro r; simp
  obtain ⟨ns, k1⟩ := layout_lines hs hlay (kw_nb hs hl (w := DO) (by decide) hR1) (kw_noLine hs hl (w := DO) (by decide) hR1)
  exact compW_for hs hl (c := none) (post := []) (ws := none) (pre := ns) hx hb hg hgn (gap_tail hg' fun _ => tail_op (by decide)).notPlain
    ihb hd hio hr (.none (gap_skip hs hg' hsnb) hsl) (.nil (.refl hsnb) hsl)
    (.forSemi (by rw [hsemi]; exact .refl (by simp [Gram.NoBlank])) k1) (fun _ => rfl)

theorem compW_forLine {x : Str} {b : Syn .commands} {io : Syn .redirs} {g l t t' E : Str}
    (hx : Shape cc (.Name x)) (hb : b.noCommands = false) (hg : Gap cc g) (hgn : g ≠ []) (hlay : Layout cc l) (hld : Delim cc l)
    (ihb : CommandsW cc false b (DONE ++ t') t) (hd : Delim cc t) (hio : RedirsW cc io E t') :
    CompW cc (.forArgs x b io) E (FOR ++ (g ++ (x ++ (l ++ (DO ++ t))))) := by
  refine ⟨letters_head (by decide), fun rest hr => ?_⟩
  have hR1 : WordEnd cc t := .inr hd
  have hdn := kw_nb hs hl (w := DO) (by decide) hR1
  obtain ⟨ns, k1⟩ := layout_lines hs hlay hdn (kw_noLine hs hl (w := DO) (by decide) hR1)
  obtain ⟨n, k, ms, k2, k3⟩ := lines_opt k1
  exact compW_for hs hl (c := n) (post := ms) (ws := none) (pre := ms) hx hb hg hgn (tail_append hld).notPlain ihb hd hio hr
    k2 k3 (.forDo (.refl hdn) (keywordW hs hl (by decide) hR1)) (fun _ => rfl)

/-! ## `case` -/

omit hl in
/-- A pattern at the start of an arm. -/
theorem patW_start {w : Syn .parts} {t R : Str} (hwr : Writes cc false w R t) (hw : w.IsWord) (ho : w.Ok cc true) (hR : WordEnd cc R) :
    Gram.NoLineStart (lex cc t) ∧ (∀ l, lex cc t ≠ .ParenOpen :: l) ∧
      ∀ r, Gram.Keyword ESAC (lex cc t) r → w = .lit ESAC .nil := by
  obtain ⟨c, x, rfl, hc, -⟩ := word_char hs hwr hw.1 ho
  have hcat := C01_concat_tokens cc (c :: x)
  have key : ∀ k d l, k.asStr = [d] → lex cc (c :: x) = k :: l → c = d := by
    intro k d l hk e
    rw [e, concatTokens_cons, hk] at hcat
    injection hcat with h _
    exact h.symm
  refine ⟨fun r => ⟨?_, firstW_not hs hwr ho hR.notPlain hw.1 (k := .Pound) rfl (by decide) hw.2 r⟩, ?_, ?_⟩
  · intro e
    have := key _ _ _ rfl e
    subst this
    exact hc (by decide)
  · intro l e
    have := key _ _ _ rfl e
    subst this
    exact hc (by decide)
  · rintro r ⟨h, h'⟩
    obtain ⟨t, l, h1, h2⟩ := partsW_first hs hwr ho hR.notPlain hw.1
    have ht : (t = .Name ESAC ∨ t = .Literal ESAC) ∧ l = r := by
      rw [h1] at h
      rcases h with h | h <;> cases h
      · exact ⟨.inl rfl, rfl⟩
      · exact ⟨.inr rfl, rfl⟩
    obtain ⟨ht, rfl⟩ := ht
    rcases h2 with ⟨s, r, rfl, -⟩ | ⟨-, h2⟩
    · obtain ⟨u, hu, h3⟩ := litW_only hs hwr ho hR h1
      rcases h3 with ⟨rfl, hr, -⟩ | ⟨t', l', rfl, h4, -⟩
      · have hcat := C01_concat_tokens cc s
        rw [hu] at hcat
        have : s = ESAC := by rw [← hcat]; rcases ht with rfl | rfl <;> simp [concatTokens, Token.asStr]
        subst this
        cases r with
        | nil => rfl
        | _ => cases hr
      · have := h' _ _ rfl
        rw [h4] at this; cases this
    · exfalso
      rcases ht with rfl | rfl <;> exact absurd h2 (by decide)

omit hl in
theorem patsW_last {w : Syn .parts} {g t g' E : Str} (hw : w.IsWord) (ho : w.Ok cc true) (hg : Gap cc g) (hwr : Writes cc false w (g' ++ E) t)
    (hp : PartsW cc w (g' ++ E) t) (hg' : Gap cc g') : PatsW cc (.patLast w) E (g ++ t) := by
  have hht : Head t := by
    obtain ⟨c, x, rfl, hc, -⟩ := word_char hs hwr hw.1 ho
    exact ⟨c, x, rfl, fun h => hc (semi_delim c h)⟩
  refine ⟨layout_head_append hs (.gap hg) hht, g, t, rfl, hg, ?_⟩
  rintro R rfl
  have hcl := lex_rpar hs R
  have hR : WordEnd cc (g' ++ ')' :: R) := gap_tail hg' fun _ => tail_op (by decide)
  have hsk : Skip (lex cc (g' ++ ')' :: R)) (lex cc (')' :: R)) := gap_skip hs hg' (by rw [NB, hcl]; simp [Gram.NoBlank])
  have hrd := wordW_read hs hwr hw ho hp hR hsk
  rw [hcl] at hrd
  obtain ⟨s1, s2, s3⟩ := patW_start hs hwr hw ho hR
  refine ⟨.patternLast hrd, wordW_nb hs hwr hw.1 ho, s1, s2, fun he r hk => ?_⟩
  obtain rfl := s3 r hk
  exact absurd he (by decide)

omit hl in
theorem patsW_cons {w : Syn .parts} {ps : Syn .pats} {g t g' t' E : Str} (hw : w.IsWord) (ho : w.Ok cc true) (hg : Gap cc g)
    (hwr : Writes cc false w (g' ++ '|' :: t') t) (hp : PartsW cc w (g' ++ '|' :: t') t) (hg' : Gap cc g') (ih : PatsW cc ps E t') :
    PatsW cc (.patCons w ps) E (g ++ t) := by
  have hht : Head t := by
    obtain ⟨c, x, rfl, hc, -⟩ := word_char hs hwr hw.1 ho
    exact ⟨c, x, rfl, fun h => hc (semi_delim c h)⟩
  refine ⟨layout_head_append hs (.gap hg) hht, g, t, rfl, hg, ?_⟩
  rintro R rfl
  obtain ⟨hh, g1, t1, rfl, hg1, ih⟩ := ih
  obtain ⟨h1, h2, -⟩ := ih R rfl
  have hcl := lex_pipe' hs (rest := g1 ++ t1) (hh.ne (by decide))
  have hR : WordEnd cc (g' ++ '|' :: (g1 ++ t1)) := gap_tail hg' fun _ => tail_op (by decide)
  have hsk : Skip (lex cc (g' ++ '|' :: (g1 ++ t1))) (lex cc ('|' :: (g1 ++ t1))) :=
    gap_skip hs hg' (by rw [NB, hcl]; simp [Gram.NoBlank])
  have hrd := wordW_read hs hwr hw ho hp hR hsk
  rw [hcl] at hrd
  obtain ⟨s1, s2, s3⟩ := patW_start hs hwr hw ho hR
  refine ⟨.patternCons hrd (patterns_same (Alike.of (gap_skip hs hg1 h2)) h1), wordW_nb hs hwr hw.1 ho, s1, s2, fun he r hk => ?_⟩
  obtain rfl := s3 r hk
  have he : (ESAC == "esac".toList) = false := he
  exact absurd he (by decide)

theorem armsW_nil {l E : Str} (hlay : Layout cc l) : ArmsW cc .armsNil E (l ++ E) := by
  rintro R rfl hR
  obtain ⟨ns, h⟩ := layout_lines hs hlay (kw_nb hs hl (w := ESAC) (by decide) hR) (kw_noLine hs hl (w := ESAC) (by decide) hR)
  exact ⟨[], ns, .armsEnd h (keywordW hs hl (by decide) hR), rfl⟩

/-- The start of an arm. -/
theorem arm_start {ps : Syn .pats} {l p t X : Str} (hlay : Layout cc l) (hp : p = ['('] ∨ p = [] ∧ ps.startsEsac = false)
    (ih : PatsW cc ps (')' :: X) t) :
    ∃ ns l1 l2, Gram.Lines (lex cc (l ++ (p ++ t))) ns l1 ∧ (∀ r, ¬ Gram.Keyword ESAC l1 r) ∧
      (l1 = .ParenOpen :: l2 ∨ l2 = l1 ∧ ∀ l', l1 ≠ .ParenOpen :: l') ∧ RD .patterns l2 ps.ast (lex cc X) := by
  have := hl
  obtain ⟨hh, g1, t1, rfl, hg1, ih⟩ := ih
  obtain ⟨h1, h2, h3, h4, h5⟩ := ih X rfl
  rcases hp with rfl | ⟨rfl, he⟩
  · have hop := lex_lpar hs (g1 ++ t1)
    obtain ⟨ns, h⟩ := layout_lines hs hlay (x := '(' :: (g1 ++ t1)) (by rw [NB, hop]; simp [Gram.NoBlank]) (by rw [hop]; intro r; simp)
    refine ⟨ns, _, lex cc (g1 ++ t1), h, ?_, .inl hop, patterns_same (Alike.of (gap_skip hs hg1 h2)) h1⟩
    rw [hop]; rintro r ⟨e | e, -⟩ <;> cases e
  · obtain ⟨ns, h⟩ := layout_lines hs (layout_gap hlay hg1) h2 h3
    have e : l ++ ([] ++ (g1 ++ t1)) = l ++ g1 ++ t1 := by simp
    rw [e]
    exact ⟨ns, _, _, h, h5 he, .inr ⟨rfl, h4⟩, h1⟩

omit hs hl in
theorem arms_optLine {B : Builder} {b b' : B.State} {l r : List Token} {a}
    (h : Reads (B := B) .arms b l a r b') :
    ∃ c l' bs ns, OptLine l c l' ∧ Reads (B := B) .arms b l' (bs, ns) r b' ∧
      bs.map (fun a => (a.patterns.patternAlternatives, a.body)) = a.1.map (fun a => (a.patterns.patternAlternatives, a.body)) := by
  cases h with
  | armsEnd h1 h2 =>
    obtain ⟨c, l', ms, h3, h4⟩ := lines_opt h1
    exact ⟨c, l', [], ms, h3, .armsEnd h4 h2, rfl⟩
  | armsCons h1 h2 h3 h4 h5 h6 h7 h8 =>
    obtain ⟨c, l', ms, h9, h10⟩ := lines_opt h1
    exact ⟨c, l', _, _, h9, .armsCons h10 h2 h3 h4 h5 h6 h7 h8, rfl⟩
  | armsLast h1 h2 h3 h4 h5 h6 h7 =>
    obtain ⟨c, l', ms, h9, h10⟩ := lines_opt h1
    exact ⟨c, l', _, _, h9, .armsLast h10 h2 h3 h4 h5 h6 h7, rfl⟩

omit hs hl in
theorem armAst_of {as bs : List (CaseArm SWord SCommand)}
    (h : bs.map (fun a => (a.patterns.patternAlternatives, a.body)) = as.map (fun a => (a.patterns.patternAlternatives, a.body))) :
    armAst bs = armAst as := by
  have := congrArg (List.map fun p : List SWord × CommandGroup SCommand => (⟨p.1, p.2.commands⟩ : PatternBodyPair SWord SCommand)) h
  rw [List.map_map, List.map_map] at this
  exact this

theorem armsW_cons {ps : Syn .pats} {cs : Syn .commands} {as : Syn .arms} {l p t t' t'' E : Str} (hlay : Layout cc l)
    (hp : p = ['('] ∨ p = [] ∧ ps.startsEsac = false) (ihp : PatsW cc ps (')' :: t') t) (ihc : CommandsW cc true cs (';' :: ';' :: t'') t')
    (ih : ArmsW cc as E t'') : ArmsW cc (.armsCons ps cs as) E (l ++ (p ++ t)) := by
  intro R hE hR
  obtain ⟨bs, ms, h1, h2⟩ := ih R hE hR
  have hds := lex_dsemi hs t''
  obtain ⟨mc, c1⟩ := ihc.2 armDelim
    ⟨by simp [armDelim], by simp [armDelim]; decide, by simp [armDelim]⟩
    ⟨by rw [hds]; simp [Gram.NoBlank], by rw [hds]; intro r; simp, by rw [hds]; exact .inl (.inl ⟨.DSemi, by simp [armDelim], _, rfl⟩)⟩
    (by simp) (fun _ => .inr (.inr ⟨_, rfl⟩))
  obtain ⟨n, k, mc', c2, c3⟩ := group_optLine c1 default_any
  obtain ⟨n', k', bs', ms', a1, a2, a3⟩ := arms_optLine h1
  obtain ⟨ns, l1, l2, p1, p2, p3, p4⟩ := arm_start hs hl hlay hp ihp
  rw [hds] at c3
  refine ⟨⟨⟨ns, ps.ast, n⟩, ⟨cs.ast, mc'⟩, n'⟩ :: bs', ms', .armsCons p1 p2 p3 p4 c2 c3 a1 a2, ?_⟩
  have := armAst_of a3
  rw [ast_armsCons, ← h2, ← this]
  rfl

theorem armsW_last {ps : Syn .pats} {cs : Syn .commands} {l p t t' E : Str} (hlay : Layout cc l)
    (hp : p = ['('] ∨ p = [] ∧ ps.startsEsac = false) (ihp : PatsW cc ps (')' :: t') t) (ihc : CommandsW cc false cs E t') :
    ArmsW cc (.armsCons ps cs .armsNil) E (l ++ (p ++ t)) := by
  rintro R rfl hR
  obtain ⟨mc, c1⟩ := commandsW_kw hs hl ihc (cfg := armDelim) (w := ESAC) ⟨by simp [armDelim], by simp [armDelim]; decide, by simp [armDelim]⟩
    (by simp [armDelim]) (by decide) hR
  obtain ⟨n, k, mc', c2, c3⟩ := group_optLine c1 default_any
  obtain ⟨ns, l1, l2, p1, p2, p3, p4⟩ := arm_start hs hl hlay hp ihp
  refine ⟨[⟨⟨ns, ps.ast, n⟩, ⟨cs.ast, mc'⟩, none⟩], [], .armsLast p1 p2 p3 p4 c2 c3 ?_, by rw [ast_armsCons]; rfl⟩
  rw [lex_kwW hs hl (by decide) hR]
  simp

theorem compW_case {w : Syn .parts} {as : Syn .arms} {io : Syn .redirs} {g t l t' t'' E : Str} (hw : w.IsWord) (ho : w.Ok cc true)
    (hg : Gap cc g) (hgn : g ≠ []) (hwr : Writes cc false w (l ++ (IN ++ t')) t) (hp : PartsW cc w (l ++ (IN ++ t')) t) (hlay : Layout cc l)
    (hld : Delim cc l) (ih : ArmsW cc as (ESAC ++ t'') t') (hd : Delim cc t') (hio : RedirsW cc io E t'') :
    CompW cc (.case_ w as io) E (CASE ++ (g ++ t)) := by
  refine ⟨letters_head (by decide), fun rest hr => ?_⟩
  obtain ⟨i1, i2⟩ := hio rest hr
  obtain ⟨bs, ms, h1, h2⟩ := ih _ rfl i2
  have hRi : WordEnd cc t' := .inr hd
  have hRw : WordEnd cc (l ++ (IN ++ t')) := tail_append hld
  have hRc : WordEnd cc (g ++ t) := gap_tail hg fun e => absurd e hgn
  obtain ⟨k, hk⟩ := skip_total (lex cc (l ++ (IN ++ t')))
  have hwrd := wordW_read hs hwr hw ho hp hRw hk
  obtain ⟨ns, j1⟩ := layout_lines hs hlay (kw_nb hs hl (w := IN) (by decide) hRi) (kw_noLine hs hl (w := IN) (by decide) hRi)
  obtain ⟨n', k', bs', ms', a1, a2, a3⟩ := arms_optLine h1
  obtain ⟨s1, s2⟩ := start_kwW hs hl (w := CASE) (by decide) (by decide) hRc
  have hen := kw_nb hs hl (w := ESAC) (by decide) i2
  refine ⟨.Case, .caseKw (keywordW hs hl (by decide) hRc), ?_, s1, s2⟩
  refine .compoundCase (f := ⟨wordAst w.ast, ns, n', bs', ms' ++ []⟩) (.caseCommand (kw_readW hs hl (by decide) hRc)
    (word_same (Alike.of (gap_skip hs hg (wordW_nb hs hwr hw.1 ho))) hwrd) (lines_same (Alike.of hk).symm j1) (kw_readW hs hl (by decide) hRi)
    a1 a2 (.nil (.refl hen) (kw_noLine hs hl (w := ESAC) (by decide) i2)) (kw_readW hs hl (by decide) i2)) i1 ?_
  have := armAst_of a3
  rw [ast_case, ← h2, ← this]
  rfl

/-! ## Functions -/

omit hl in
/-- The names of functions do not start anything else. -/
theorem fn_name {x : Str} {L : List Token} (hr : x ∉ reservedWords) :
    (∀ y ∈ reservedWords, ∀ r, ¬ Gram.Keyword y (.Name x :: L) r) ∧ (∀ kw, ¬ CompoundStart (.Name x :: L) kw) ∧
      ∀ r, ¬ Gram.Kw FUNCTION (.Name x :: L) r := by
  have := hs
  have hk : ∀ y ∈ reservedWords, ∀ r, ¬ Gram.Keyword y (.Name x :: L) r := by
    rintro y hy r ⟨e | e, -⟩ <;> cases e
    exact hr hy
  refine ⟨hk, ?_, ?_⟩
  · intro kw hc
    generalize hl0 : (Token.Name x :: L) = l0 at hc hk
    cases hc with
    | subshell => cases hl0
    | brace => cases hl0
    | forKw h' => exact hk _ (by decide) _ h'
    | caseKw h' => exact hk _ (by decide) _ h'
    | ifKw h' => exact hk _ (by decide) _ h'
    | whileKw h' => exact hk _ (by decide) _ h'
    | untilKw h' => exact hk _ (by decide) _ h'
  · rintro r ⟨l', h5, h6⟩
    have := h5.of_noBlank (name_nb _ _)
    subst this
    exact hk FUNCTION (by decide) _ h6

omit hl in
/-- Parentheses with a gap between them. -/
theorem parensW {g X : Str} (hg : Gap cc g) : Parens (lex cc ('(' :: (g ++ ')' :: X))) (lex cc X) := by
  have h := lex_rpar hs X
  refine ⟨_, lex_lpar hs _, ?_⟩
  rw [← h]
  exact gap_skip hs hg (by rw [NB, h]; simp [Gram.NoBlank])

omit hl in
theorem cmdW_function {x : Str} {c : Syn .comp} {w g l t E : Str} (hx : Shape cc (.Name x)) (hr : x ∉ reservedWords)
    (hw : ∀ c ∈ w, Blank cc c) (hg : Gap cc g) (hlay : Layout cc l) (h : CompW cc c E t) :
    CmdW cc (.function x c) E (x ++ (w ++ '(' :: (g ++ ')' :: (l ++ t)))) := by
  refine ⟨name_head hx hs, fun rest hrest => ?_⟩
  obtain ⟨kw, h1, h2, h3, h4⟩ := h.2 rest hrest
  have hpar := parensW hs (X := l ++ t) hg
  have hop := lex_lpar hs (g ++ ')' :: (l ++ t))
  obtain ⟨ns, hlines⟩ := layout_lines hs hlay h3.nb h3.noLine
  have hin : ∀ y ∈ inner, y ∈ reservedWords := by decide
  cases w with
  | nil =>
    rw [List.nil_append, lex_name' hs hx ((tail_op (c := '(') (by decide)).notPlain.nameStop hs)]
    obtain ⟨f1, f2, f3⟩ := fn_name hs (L := lex cc ('(' :: (g ++ ')' :: (l ++ t)))) hr
    refine ⟨.commandFunction (.refl (name_nb _ _)) f2 (by rw [hop]; exact .paren)
      (.function (found := false) (.inr ⟨rfl, rfl, f3⟩) (.refl (name_nb _ _)) (.fnParens hpar) hlines h1 h2 rfl),
      ⟨name_nb _ _, ⟨_, _, rfl, by simp⟩, fun y hy => f1 y (hin y hy)⟩, by simp⟩
  | cons d w =>
    have hbl : ¬ Blank cc '(' := fun h => (blank_not_op hs h).1 (by rw [opStart_iff]; decide)
    have hws : lex cc (d :: w ++ '(' :: (g ++ ')' :: (l ++ t))) = .Whitespace (d :: w) :: lex cc ('(' :: (g ++ ')' :: (l ++ t))) := by
      refine lex_cons hs (t := .Whitespace (d :: w)) ⟨by simp, hw⟩ (by simp) ?_
      intro c hc; cases hc; exact hbl
    rw [lex_name' hs hx (s := d :: w ++ '(' :: (g ++ ')' :: (l ++ t)))
      (NotPlain.nameStop hs (WordEnd.notPlain (.inr ⟨d, _, rfl, .inl (hw d (by simp))⟩))), hws]
    obtain ⟨f1, f2, f3⟩ := fn_name hs (L := .Whitespace (d :: w) :: lex cc ('(' :: (g ++ ')' :: (l ++ t)))) hr
    refine ⟨.commandFunction (.refl (name_nb _ _)) f2 (by rw [hop]; exact .wsParen)
      (.function (found := false) (.inr ⟨rfl, rfl, f3⟩) (.refl (name_nb _ _))
        (.fnWsParens (.refl (by rw [hop]; simp [Gram.NoBlank])) hpar) hlines h1 h2 rfl),
      ⟨name_nb _ _, ⟨_, _, rfl, by simp⟩, fun y hy => f1 y (hin y hy)⟩, by simp⟩

/-- A function declared with `function`. -/
theorem cmdW_fn {x : Str} {c : Syn .comp} {g M t E rest : Str} (hx : Shape cc (.Name x)) (hg : Gap cc g) (hgn : g ≠ [])
    (h : CompW cc c E t) (hrest : After cc E rest) (hM : WordEnd cc M)
    {R : List Token} {ns} (hlines : ∀ l', lex cc t = l' → Gram.Lines R ns l')
    (hst : RD (.fnStart true) (lex cc M) none R) :
    RD .command (lex cc (FUNCTION ++ (g ++ (x ++ M)))) (Syn.function x c).ast (lex cc rest) ∧
      CmdStart (lex cc (FUNCTION ++ (g ++ (x ++ M)))) ∧
      ∀ l', lex cc (FUNCTION ++ (g ++ (x ++ M))) ≠ .Bang :: l' := by
  obtain ⟨kw, h1, h2, h3, h4⟩ := h.2 rest hrest
  obtain ⟨-, hn⟩ := nameW hs hl hg hx hM.notPlain
  have hR : WordEnd cc (g ++ (x ++ M)) := gap_tail hg fun e => absurd e hgn
  obtain ⟨s1, s2⟩ := start_kwW hs hl (w := FUNCTION) (by decide) (by decide) hR
  refine ⟨.commandFunction (.refl s1.nb) ?_ (.keyword (keywordW hs hl (by decide) hR))
    (.function (found := true) (.inl ⟨rfl, kw_readW hs hl (by decide) hR⟩) hn hst (hlines _ rfl) h1 h2 rfl), s1, s2⟩
  rw [lex_kwW hs hl (by decide) hR]
  intro kw hc
  have hk : ∀ y ∈ [FOR, CASE, IF, WHILE, UNTIL], ∀ r, ¬ Gram.Keyword y (.Name FUNCTION :: lex cc (g ++ (x ++ M))) r := by
    rintro y hy r ⟨e | e, -⟩ <;> cases e
    exact absurd hy (by decide)
  generalize hl0 : (Token.Name FUNCTION :: lex cc (g ++ (x ++ M))) = l0 at hc hk
  cases hc with
  | subshell => cases hl0
  | brace => cases hl0
  | forKw h' => exact hk _ (by decide) _ h'
  | caseKw h' => exact hk _ (by decide) _ h'
  | ifKw h' => exact hk _ (by decide) _ h'
  | whileKw h' => exact hk _ (by decide) _ h'
  | untilKw h' => exact hk _ (by decide) _ h'

theorem cmdW_functionKw {x : Str} {c : Syn .comp} {g g' g'' l t E : Str} (hx : Shape cc (.Name x)) (hg : Gap cc g) (hgn : g ≠ [])
    (hg' : Gap cc g') (hg'' : Gap cc g'') (hlay : Layout cc l) (h : CompW cc c E t) :
    CmdW cc (.function x c) E (FUNCTION ++ (g ++ (x ++ (g' ++ '(' :: (g'' ++ ')' :: (l ++ t)))))) := by
  refine ⟨letters_head (by decide), fun rest hrest => ?_⟩
  obtain ⟨kw, -, -, h3, -⟩ := h.2 rest hrest
  obtain ⟨ns, hlines⟩ := layout_lines hs hlay h3.nb h3.noLine
  have hpar := parensW hs (X := l ++ t) hg''
  have hop := lex_lpar hs (g'' ++ ')' :: (l ++ t))
  have hcl := lex_rpar hs (l ++ t)
  refine cmdW_fn hs hl hx hg hgn h hrest (gap_tail hg' fun _ => tail_op (by decide)) (R := lex cc (l ++ t)) (ns := ns)
    (by rintro _ rfl; exact hlines) ?_
  by_cases hn : g' = []
  · subst hn
    exact .fnParens hpar
  · obtain ⟨v, L, h5, h6⟩ := gap_ws hs hg' hn (rest := '(' :: (g'' ++ ')' :: (l ++ t))) (by rw [NB, hop]; simp [Gram.NoBlank])
    rw [h5]
    rw [hop] at h6
    refine .fnEmpty h6 (.subshell ?_ (fun _ => rfl))
    rw [← hcl]
    refine .groupEnd (.nil (gap_skip hs hg'' (by rw [NB, hcl]; simp [Gram.NoBlank])) (by rw [hcl]; intro r; simp)) ?_
    rw [hcl]
    exact .inl (.inl ⟨.ParenClose, by simp [parenDelim], _, rfl⟩)

omit hl in
/-- A layout after its first blank. -/
theorem layout_skip {l x : Str} (hlay : Layout cc l) (hx : NB cc x) (hp : x.head? ≠ some '(') {d l0} (he : l = d :: l0) (hd : Blank cc d) :
    ∃ w L R, lex cc (l ++ x) = .Whitespace w :: L ∧ Skip L R ∧ (∀ r, R ≠ .ParenOpen :: r) := by
  subst he
  obtain ⟨w, L, e⟩ := first_blank hs hd (l0 ++ x)
  obtain ⟨R, hR⟩ := skip_total L
  refine ⟨w, L, R, e, hR, ?_⟩
  have hR' : Skip (lex cc (d :: l0 ++ x)) R := by rw [List.cons_append, e]; exact skip_append (bs := [.Whitespace w]) (.ws .nil) hR
  have key : ∀ {g y : Str}, Gap cc g → NB cc y → y.head? ≠ some '(' → d :: l0 ++ x = g ++ y → ∀ r, R ≠ .ParenOpen :: r := by
    intro g y hg hy hh e' r h'
    rw [e'] at hR'
    have h2 := Skip.unique hR' (gap_skip hs hg hy)
    rw [h'] at h2
    have hcat := C01_concat_tokens cc y
    rw [← h2, concatTokens_cons] at hcat
    rw [← hcat] at hh
    exact hh rfl
  generalize hl' : d :: l0 = l at *
  cases hlay with
  | gap hg => exact key hg hx hp rfl
  | @newline g l hg _ => exact key hg (y := '\n' :: (l ++ x)) (nb_newline _) (by simp) (by simp)
  | @comment g y l hg _ _ =>
    refine key hg (y := '#' :: (y ++ '\n' :: (l ++ x))) ?_ (by simp) (by simp)
    rw [NB, lex_comment hs]; simp [Gram.NoBlank]

theorem cmdW_functionBare {x : Str} {c : Syn .comp} {g l t E : Str} (hx : Shape cc (.Name x)) (hg : Gap cc g) (hgn : g ≠ [])
    (hlay : Layout cc l) (hd : Delim cc l) (h : CompW cc c E t) (hp : t.head? ≠ some '(') :
    CmdW cc (.function x c) E (FUNCTION ++ (g ++ (x ++ (l ++ t)))) := by
  refine ⟨letters_head (by decide), fun rest hrest => ?_⟩
  obtain ⟨kw, -, -, h3, -⟩ := h.2 rest hrest
  obtain ⟨ns, hlines⟩ := layout_lines hs hlay h3.nb h3.noLine
  obtain ⟨d, l0, he, hb⟩ := hd
  have hcase : Blank cc d ∨ d = '\n' := by
    rcases layout_head hlay he with h | h | rfl
    · exact .inl h
    · exact .inr h
    · rcases hb with h | h
      · exact .inl h
      · exact absurd h (by decide)
  rcases hcase with hb' | rfl
  · obtain ⟨w, L, R, h5, h6, h7⟩ := layout_skip hs hlay h3.nb hp he hb'
    refine cmdW_fn hs hl hx hg hgn h hrest (tail_append (s := l) ⟨d, l0, he, hb⟩) (R := R) (ns := ns) ?_ (by rw [h5]; exact .fnWs h6 h7)
    rintro _ rfl
    refine lines_same (Alike.symm (Alike.of ?_)) hlines
    rw [h5]
    exact skip_append (bs := [.Whitespace w]) (.ws .nil) h6
  · subst he
    have hnl : lex cc ('\n' :: l0 ++ t) = .Newline :: lex cc (l0 ++ t) := lex_newline _
    refine cmdW_fn hs hl hx hg hgn h hrest (tail_append (s := '\n' :: l0) ⟨'\n', l0, rfl, hb⟩) (R := .Newline :: lex cc (l0 ++ t)) (ns := ns) ?_
      (by rw [hnl]; exact .fnNewline)
    rintro _ rfl
    rw [← hnl]
    exact hlines

end
end Conch
