import Verif.RoundCmd
/-!
# Reading compound commands, pipelines and lists (C39)
-/
namespace Conch
open Spec Gram

section
variable {cc : CharClass}

/-! ## Claims -/

variable (cc)

def CompClaim (c : Syn .comp) : Prop :=
  ∀ rest, StopText rest → ∃ kw, CompoundStart (lex cc (c.text ++ rest)) kw ∧
    RD (.compound kw) (lex cc (c.text ++ rest)) c.ast (lex cc rest) ∧ CmdStart (lex cc (c.text ++ rest)) ∧
    ∀ l, lex cc (c.text ++ rest) ≠ .Bang :: l

def PipeClaim (p : Syn .pipe) : Prop :=
  ∀ rest, StopText rest → (∀ r, lex cc rest ≠ .Pipe :: r) → ∃ cs, RD .pipelineCmds (lex cc (p.text ++ rest)) cs (lex cc rest) ∧
    cs.map (·.2) = p.ast ∧ CmdStart (lex cc (p.text ++ rest)) ∧ ∀ l, lex cc (p.text ++ rest) ≠ .Bang :: l

def ListableClaim (l : Syn .listable) : Prop :=
  ∀ rest, StopText rest → (∀ r, lex cc rest ≠ .Pipe :: r) →
    RD .pipeline (lex cc (l.text ++ rest)) l.ast (lex cc rest) ∧ CmdStart (lex cc (l.text ++ rest))

/-- The end of a whole command. -/
def EndText (rest : Str) : Prop := (∃ r, rest = '\n' :: r) ∨ ∃ r, rest = '&' :: '\n' :: r

def RestClaim (r : Syn .rest) : Prop :=
  ∀ rest, EndText rest → ∃ cs, RD .andOrRest (lex cc (r.text ++ rest)) cs (lex cc rest) ∧ cs.map (·.2) = r.ast ∧
    StopText (r.text ++ rest) ∧ ∀ l, lex cc (r.text ++ rest) ≠ .Pipe :: l

def CommandClaim (c : Syn .command) : Prop :=
  ∀ rest, (∀ ns, RD (.complete ns) (lex cc (c.text ++ rest)) c.ast (lex cc rest)) ∧ CmdStart (lex cc (c.text ++ rest))

/-- The end of a group of commands. -/
structure Closer (cfg : Delims) (l : List Token) : Prop where
  nb : Gram.NoBlank l
  noLine : Gram.NoLineStart l
  delim : Gram.AtDelim cfg l ∨ l = []

def CommandsClaim (cs : Syn .commands) : Prop :=
  ∀ cfg rest, Groups cfg → Closer cfg (lex cc rest) →
    RD (.group cfg) (lex cc (cs.text ++ rest)) ⟨cs.ast, []⟩ (lex cc rest) ∧ NB cc (cs.text ++ rest) ∧
      Gram.NoLineStart (lex cc (cs.text ++ rest))

def IfsClaim (f : Syn .ifs) : Prop :=
  ∀ rest, NB cc rest → NB cc (f.text ++ (FI ++ ' ' :: rest)) ∧
    ∃ fr, RD .ifArms (wsp :: lex cc (f.text ++ (FI ++ ' ' :: rest))) fr (wsp :: lex cc rest) ∧
    (fr.conditionals.map (fun p => (⟨p.guard.commands, p.body.commands⟩ : GuardBodyPair SCommand)),
      fr.elseBranch.map (·.commands)) = f.ast

def PatsClaim (ps : Syn .pats) : Prop :=
  ∀ rest, NB cc rest → RD .patterns (lex cc (ps.text ++ ')' :: ' ' :: rest)) ps.ast (wsp :: lex cc rest) ∧
    NB cc (ps.text ++ ')' :: ' ' :: rest)

def ArmsClaim (as : Syn .arms) : Prop :=
  ∀ rest, NB cc rest → ∃ bs, RD .arms (lex cc (as.text ++ (ESAC ++ ' ' :: rest))) (bs, []) (lex cc (ESAC ++ ' ' :: rest)) ∧
    bs.map (fun a => (⟨a.patterns.patternAlternatives, a.body.commands⟩ : PatternBodyPair SWord SCommand)) = as.ast

def WordsClaim (ws : Syn .words) : Prop :=
  ∀ rest, RD .words (lex cc (ws.text ++ '\n' :: rest)) ws.ast (.Newline :: lex cc rest) ∧ NB cc (ws.text ++ '\n' :: rest)

variable {cc}

/-! ## Keywords -/

def Letters (w : Str) : Prop := w ≠ [] ∧ ∀ c ∈ w, c ∈ "abcdefghijklmnopqrstuvwxyz".toList

instance (w : Str) : Decidable (Letters w) := inferInstanceAs (Decidable (_ ∧ _))

theorem ends_wsp (l : List Token) : Gram.EndsWord (wsp :: l) := by rintro _ _ e; cases e; rfl
theorem ends_newline (l : List Token) : Gram.EndsWord (.Newline :: l) := by rintro _ _ e; cases e; rfl

theorem name_nb (x : Str) (l : List Token) : Gram.NoBlank (.Name x :: l) := by simp [Gram.NoBlank]

/-- A group ends at a reserved word. -/
theorem closer_word (hs : cc.Sane) (hl : Latin cc) {w : Str} (hw : Letters w) {ws : List Str} (hm : w ∈ ws) {rest : Str}
    (hb : NB cc rest) : Closer (wordDelim ws) (lex cc (w ++ ' ' :: rest)) := by
  rw [lex_kw hs hl w rest hw hb]
  refine ⟨name_nb _ _, by intro r; constructor <;> (intro e; cases e), .inl (.inr (.inl ⟨w, hm, _, .inl rfl, ends_wsp _⟩))⟩

theorem groups_words {ws : List Str} (h : ∀ x ∈ ws, x ∈ inner) : Groups (wordDelim ws) :=
  ⟨by simp [wordDelim], h, by simp [wordDelim]⟩

theorem kw_read (hs : cc.Sane) (hl : Latin cc) {w : Str} (hw : Letters w) {rest : Str} (hb : NB cc rest) :
    Gram.Kw w (lex cc (w ++ ' ' :: rest)) (wsp :: lex cc rest) := by
  rw [lex_kw hs hl w rest hw hb]
  exact ⟨_, .refl (name_nb _ _), .inl rfl, ends_wsp _⟩

/-- A command that starts with a reserved word. -/
theorem start_kw (hs : cc.Sane) (hl : Latin cc) {w : Str} (hw : Letters w) (hi : w ∉ inner) {rest : Str} (hb : NB cc rest) :
    CmdStart (lex cc (w ++ ' ' :: rest)) ∧ ∀ l, lex cc (w ++ ' ' :: rest) ≠ .Bang :: l := by
  rw [lex_kw hs hl w rest hw hb]
  refine ⟨⟨name_nb _ _, ⟨_, _, rfl, by simp⟩, ?_⟩, by simp⟩
  rintro x hx r ⟨e | e, -⟩ <;> cases e
  exact hi hx

/-! ## Groups -/

theorem commands_nil : CommandsClaim cc .cnil := by
  intro cfg rest hg hc
  exact ⟨.groupEnd (.nil (.refl hc.nb) hc.noLine) hc.delim, hc.nb, hc.noLine⟩

theorem commands_cons {c : Syn .command} {cs : Syn .commands} (h : CommandClaim cc c) (ih : CommandsClaim cc cs) :
    CommandsClaim cc (.ccons c cs) := by
  intro cfg rest hg hc
  obtain ⟨h1, h2, h3⟩ := ih cfg rest hg hc
  obtain ⟨h4, h5⟩ := h (cs.text ++ rest)
  have e : (Syn.ccons c cs).text ++ rest = c.text ++ (cs.text ++ rest) := by rw [text_ccons]; simp
  rw [NB, e]
  exact ⟨.groupCons h5.lines (h5.atDelim hg) h5.not_nil (h4 []) h1, h5.nb, h5.noLine⟩

theorem ast_ne {cs : Syn .commands} (h : cs.noCommands = false) : cs.ast ≠ [] := by
  cases cs with
  | cnil => cases h
  | ccons c cs => rw [ast_ccons]; simp

/-- `do ... done`. -/
theorem do_group (hs : cc.Sane) (hl : Latin cc) {b : Syn .commands} (hn : b.noCommands = false) (ih : CommandsClaim cc b)
    {rest : Str} (hb : NB cc rest) :
    RD .doGroup (lex cc (DO ++ ' ' :: (b.text ++ (DONE ++ ' ' :: rest)))) ⟨b.ast, []⟩ (wsp :: lex cc rest) ∧
      NB cc (b.text ++ (DONE ++ ' ' :: rest)) := by
  obtain ⟨h1, h2, -⟩ := ih (wordDelim [DONE]) (DONE ++ ' ' :: rest) (groups_words (by decide))
    (closer_word hs hl (by decide) (by simp) hb)
  exact ⟨.doGroup (kw_read hs hl (by decide) h2) (group_blank h1) (ast_ne hn) (kw_read hs hl (by decide) hb), h2⟩

section
variable (hs : cc.Sane) (hl : Latin cc)
include hs hl

/-! ## Compound commands -/

omit hl in
theorem comp_brace {cs : Syn .commands} {io : Syn .redirs} (hn : cs.noCommands = false) (ih : CommandsClaim cc cs)
    (hio : RedirsClaim cc io) : CompClaim cc (.brace cs io) := by
  intro rest hr
  obtain ⟨i1, i2⟩ := hio rest hr
  have hcl : lex cc ('}' :: ' ' :: (io.text ++ rest)) = .CurlyClose :: wsp :: lex cc (io.text ++ rest) := by
    rw [lex_close hs, lex_sp hs i2]
  obtain ⟨h1, h2, -⟩ := ih braceDelim ('}' :: ' ' :: (io.text ++ rest)) ⟨by simp [braceDelim], by simp [braceDelim], by simp [braceDelim]⟩
    ⟨by rw [hcl]; simp [Gram.NoBlank], by rw [hcl]; intro r; simp, by rw [hcl]; exact .inl (.inr (.inr ⟨.CurlyClose, by simp [braceDelim], _, rfl, ends_wsp _⟩))⟩
  have e : (Syn.brace cs io).text ++ rest = '{' :: ' ' :: (cs.text ++ '}' :: ' ' :: (io.text ++ rest)) := by
    rw [text_brace]; simp
  have e2 : lex cc ('{' :: ' ' :: (cs.text ++ '}' :: ' ' :: (io.text ++ rest))) =
      .CurlyOpen :: wsp :: lex cc (cs.text ++ '}' :: ' ' :: (io.text ++ rest)) := by
    rw [← lex_sp hs h2]
    exact lex_end hs .CurlyOpen _ (by decide) (by decide)
  rw [e, e2]
  refine ⟨.Brace, .brace (ends_wsp _), ?_, ⟨by simp [Gram.NoBlank], ⟨_, _, rfl, by simp⟩, ?_⟩, by simp⟩
  · rw [hcl] at h1
    exact .compoundBrace (.brace (.refl (by simp [Gram.NoBlank])) (ends_wsp _) (group_blank h1) (ast_ne hn)
      (.refl (by simp [Gram.NoBlank])) (ends_wsp _)) (redirects_blank i1) rfl
  · rintro x hx r ⟨e | e, -⟩ <;> cases e

omit hl in
theorem comp_subshell {cs : Syn .commands} {io : Syn .redirs} (hn : cs.noCommands = false) (ih : CommandsClaim cc cs)
    (hio : RedirsClaim cc io) : CompClaim cc (.subshell cs io) := by
  intro rest hr
  obtain ⟨i1, i2⟩ := hio rest hr
  have hcl : lex cc (')' :: ' ' :: (io.text ++ rest)) = .ParenClose :: wsp :: lex cc (io.text ++ rest) := by
    rw [← lex_sp hs i2]
    exact lex_end hs .ParenClose _ (by decide) (by decide)
  obtain ⟨h1, h2, -⟩ := ih parenDelim (')' :: ' ' :: (io.text ++ rest)) ⟨by simp [parenDelim], by simp [parenDelim], by simp [parenDelim]⟩
    ⟨by rw [hcl]; simp [Gram.NoBlank], by rw [hcl]; intro r; simp, by rw [hcl]; exact .inl (.inl ⟨.ParenClose, by simp [parenDelim], _, rfl⟩)⟩
  have e : (Syn.subshell cs io).text ++ rest = '(' :: ' ' :: (cs.text ++ ')' :: ' ' :: (io.text ++ rest)) := by
    rw [text_subshell]; simp
  have e2 : lex cc ('(' :: ' ' :: (cs.text ++ ')' :: ' ' :: (io.text ++ rest))) =
      .ParenOpen :: wsp :: lex cc (cs.text ++ ')' :: ' ' :: (io.text ++ rest)) := by
    rw [← lex_sp hs h2]
    exact lex_end hs .ParenOpen _ (by decide) (by decide)
  rw [e, e2]
  refine ⟨.Subshell, .subshell, ?_, ⟨by simp [Gram.NoBlank], ⟨_, _, rfl, by simp⟩, ?_⟩, by simp⟩
  · rw [hcl] at h1
    exact .compoundSubshell (.subshell (group_blank h1) (fun e => absurd e (ast_ne hn))) (redirects_blank i1) rfl
  · rintro x hx r ⟨e | e, -⟩ <;> cases e

theorem comp_loop {k : LoopKind} {g b : Syn .commands} {io : Syn .redirs} (hg : g.noCommands = false) (hb : b.noCommands = false)
    (ihg : CommandsClaim cc g) (ihb : CommandsClaim cc b)
    (hio : RedirsClaim cc io) : CompClaim cc (.loop k g b io) := by
  intro rest hr
  obtain ⟨i1, i2⟩ := hio rest hr
  obtain ⟨b1, b2⟩ := do_group hs hl hb ihb i2
  obtain ⟨g1, g2, -⟩ := ihg (wordDelim [DO]) (DO ++ ' ' :: (b.text ++ (DONE ++ ' ' :: (io.text ++ rest)))) (groups_words (by decide))
    (closer_word hs hl (by decide) (by simp) b2)
  have e : (Syn.loop k g b io).text ++ rest =
      loopWord k ++ ' ' :: (g.text ++ (DO ++ ' ' :: (b.text ++ (DONE ++ ' ' :: (io.text ++ rest))))) := by
    rw [text_loop]; cases k <;> simp [loopText, loopWord, WHILE, UNTIL, DO, DONE]
  have hlet : Letters (loopWord k) ∧ loopWord k ∉ inner := by cases k <;> decide
  have hread : RD .loopCommand (lex cc (loopWord k ++ ' ' :: (g.text ++ (DO ++ ' ' :: (b.text ++ (DONE ++ ' ' :: (io.text ++ rest)))))))
      (k, ⟨⟨g.ast, []⟩, ⟨b.ast, []⟩⟩) (wsp :: lex cc (io.text ++ rest)) :=
    .loopCommand (kw_read hs hl hlet.1 g2) (group_blank g1) (ast_ne hg) b1
  rw [e]
  obtain ⟨s1, s2⟩ := start_kw hs hl hlet.1 hlet.2 g2
  have hkw : Gram.Keyword (loopWord k) (lex cc (loopWord k ++ ' ' :: (g.text ++ (DO ++ ' ' :: (b.text ++ (DONE ++ ' ' :: (io.text ++ rest)))))))
      (wsp :: lex cc (g.text ++ (DO ++ ' ' :: (b.text ++ (DONE ++ ' ' :: (io.text ++ rest)))))) := by
    rw [lex_kw hs hl _ _ hlet.1 g2]
    exact ⟨.inl rfl, ends_wsp _⟩
  cases k with
  | While => exact ⟨.While, .whileKw hkw, .compoundLoop (.inl rfl) hread (redirects_blank i1) rfl, s1, s2⟩
  | Until => exact ⟨.Until, .untilKw hkw, .compoundLoop (.inr rfl) hread (redirects_blank i1) rfl, s1, s2⟩

theorem comp_if {f : Syn .ifs} {io : Syn .redirs} (ih : IfsClaim cc f)
    (hio : RedirsClaim cc io) : CompClaim cc (.if_ f io) := by
  intro rest hr
  obtain ⟨i1, i2⟩ := hio rest hr
  obtain ⟨h1, fr, h2, h3⟩ := ih _ i2
  have e : (Syn.if_ f io).text ++ rest = IF ++ ' ' :: (f.text ++ (FI ++ ' ' :: (io.text ++ rest))) := by
    rw [text_if]; simp [IF, FI]
  rw [e]
  obtain ⟨s1, s2⟩ := start_kw hs hl (w := IF) (by decide) (by decide) h1
  have hkw : Gram.Keyword IF (lex cc (IF ++ ' ' :: (f.text ++ (FI ++ ' ' :: (io.text ++ rest)))))
      (wsp :: lex cc (f.text ++ (FI ++ ' ' :: (io.text ++ rest)))) := by
    rw [lex_kw hs hl _ _ (by decide) h1]
    exact ⟨.inl rfl, ends_wsp _⟩
  refine ⟨.If, .ifKw hkw, .compoundIf (.ifCommand ⟨_, .refl s1.nb, hkw⟩ h2) (redirects_blank i1) ?_, s1, s2⟩
  rw [ast_if, ← h3]
  rfl

theorem ifs_fi {g b : Syn .commands} (hg : g.noCommands = false) (hb : b.noCommands = false)
    (ihg : CommandsClaim cc g) (ihb : CommandsClaim cc b) : IfsClaim cc (.fi g b) := by
  intro rest hr
  obtain ⟨b1, b2, -⟩ := ihb (wordDelim [ELIF, ELSE, FI]) (FI ++ ' ' :: rest) (groups_words (by decide))
    (closer_word hs hl (by decide) (by simp) hr)
  obtain ⟨g1, g2, -⟩ := ihg (wordDelim [THEN]) (THEN ++ ' ' :: (b.text ++ (FI ++ ' ' :: rest))) (groups_words (by decide))
    (closer_word hs hl (by decide) (by simp) b2)
  have e : (Syn.fi g b).text ++ (FI ++ ' ' :: rest) = g.text ++ (THEN ++ ' ' :: (b.text ++ (FI ++ ' ' :: rest))) := by
    rw [text_fi]; simp [THEN]
  rw [e]
  exact ⟨g2, ⟨[⟨⟨g.ast, []⟩, ⟨b.ast, []⟩⟩], none⟩, .ifFi (group_blank g1) (ast_ne hg) (kw_read hs hl (by decide) b2) (group_blank b1)
    (ast_ne hb) (kw_read hs hl (by decide) hr), rfl⟩

theorem ifs_else {g b e : Syn .commands} (hg : g.noCommands = false) (hb : b.noCommands = false) (he : e.noCommands = false)
    (ihg : CommandsClaim cc g) (ihb : CommandsClaim cc b) (ihe : CommandsClaim cc e) : IfsClaim cc (.else_ g b e) := by
  intro rest hr
  obtain ⟨e1, e2, -⟩ := ihe (wordDelim [FI]) (FI ++ ' ' :: rest) (groups_words (by decide))
    (closer_word hs hl (by decide) (by simp) hr)
  obtain ⟨b1, b2, -⟩ := ihb (wordDelim [ELIF, ELSE, FI]) (ELSE ++ ' ' :: (e.text ++ (FI ++ ' ' :: rest))) (groups_words (by decide))
    (closer_word hs hl (by decide) (by simp) e2)
  obtain ⟨g1, g2, -⟩ := ihg (wordDelim [THEN]) (THEN ++ ' ' :: (b.text ++ (ELSE ++ ' ' :: (e.text ++ (FI ++ ' ' :: rest))))) (groups_words (by decide))
    (closer_word hs hl (by decide) (by simp) b2)
  have e : (Syn.else_ g b e).text ++ (FI ++ ' ' :: rest) =
      g.text ++ (THEN ++ ' ' :: (b.text ++ (ELSE ++ ' ' :: (e.text ++ (FI ++ ' ' :: rest))))) := by
    rw [text_else]; simp [THEN, ELSE]
  rw [e]
  exact ⟨g2, ⟨[⟨⟨g.ast, []⟩, ⟨b.ast, []⟩⟩], some ⟨_, []⟩⟩, .ifElse (group_blank g1) (ast_ne hg) (kw_read hs hl (by decide) b2) (group_blank b1)
    (ast_ne hb) (kw_read hs hl (by decide) e2) (group_blank e1) (ast_ne he) (kw_read hs hl (by decide) hr), rfl⟩

theorem ifs_elif {g b : Syn .commands} {f : Syn .ifs} (hg : g.noCommands = false) (hb : b.noCommands = false)
    (ihg : CommandsClaim cc g) (ihb : CommandsClaim cc b) (ihf : IfsClaim cc f) : IfsClaim cc (.elif g b f) := by
  intro rest hr
  obtain ⟨f1, fr, f2, f3⟩ := ihf rest hr
  obtain ⟨b1, b2, -⟩ := ihb (wordDelim [ELIF, ELSE, FI]) (ELIF ++ ' ' :: (f.text ++ (FI ++ ' ' :: rest))) (groups_words (by decide))
    (closer_word hs hl (by decide) (by simp) f1)
  obtain ⟨g1, g2, -⟩ := ihg (wordDelim [THEN]) (THEN ++ ' ' :: (b.text ++ (ELIF ++ ' ' :: (f.text ++ (FI ++ ' ' :: rest))))) (groups_words (by decide))
    (closer_word hs hl (by decide) (by simp) b2)
  have e : (Syn.elif g b f).text ++ (FI ++ ' ' :: rest) =
      g.text ++ (THEN ++ ' ' :: (b.text ++ (ELIF ++ ' ' :: (f.text ++ (FI ++ ' ' :: rest))))) := by
    rw [text_elif]; simp [THEN, ELIF]
  rw [e]
  refine ⟨g2, ⟨⟨⟨g.ast, []⟩, ⟨b.ast, []⟩⟩ :: fr.conditionals, fr.elseBranch⟩, .ifElif (group_blank g1) (ast_ne hg) (kw_read hs hl (by decide) b2) (group_blank b1)
    (ast_ne hb) (kw_read hs hl (by decide) f1) f2, ?_⟩
  rw [ast_elif, ← f3]
  rfl

/-! ## `for` -/

omit hs hl in
theorem words_nil : WordsClaim cc .wnil := by
  intro rest
  have e : Syn.wnil.text ++ '\n' :: rest = '\n' :: rest := rfl
  have hnb : Gram.NoBlank (Token.Newline :: lex cc rest) := by simp [Gram.NoBlank]
  rw [NB, e, lex_newline]
  refine ⟨.wordsNil (.word (.wordPNone ?_) (.refl hnb)), hnb⟩
  exact Reads.someWord (ws := []) (.refl hnb) (by simp) (.endWord (ends_newline _))

omit hl in
theorem words_cons {w : Syn .parts} {ws : Syn .words} (hw : w.IsWord) (ho : w.Ok cc false) (hp : PartsClaim cc w)
    (ih : WordsClaim cc ws) : WordsClaim cc (.wcons w ws) := by
  intro rest
  obtain ⟨h1, h2⟩ := ih rest
  have e : (Syn.wcons w ws).text ++ '\n' :: rest = w.text ++ ' ' :: (ws.text ++ '\n' :: rest) := by rw [text_wcons]; simp
  rw [NB, e]
  exact ⟨.wordsCons (word_read hs hw ho hp h2) h1, word_nb hs hw.1 ho _⟩

theorem comp_forIn {x : Str} {ws : Syn .words} {b : Syn .commands} {io : Syn .redirs} (hx : Shape cc (.Name x))
    (hb : b.noCommands = false) (ihw : WordsClaim cc ws) (ihb : CommandsClaim cc b)
    (hio : RedirsClaim cc io) : CompClaim cc (.forIn x ws b io) := by
  intro rest hr
  obtain ⟨i1, i2⟩ := hio rest hr
  obtain ⟨b1, b2⟩ := do_group hs hl hb ihb i2
  obtain ⟨w1, w2⟩ := ihw (DO ++ ' ' :: (b.text ++ (DONE ++ ' ' :: (io.text ++ rest))))
  have e : (Syn.forIn x ws b io).text ++ rest =
      FOR ++ ' ' :: (x ++ ' ' :: (IN ++ ' ' :: (ws.text ++ '\n' :: (DO ++ ' ' :: (b.text ++ (DONE ++ ' ' :: (io.text ++ rest))))))) := by
    rw [text_forIn]; simp [FOR, IN, DO, DONE]
  rw [e]
  generalize hbody : DO ++ ' ' :: (b.text ++ (DONE ++ ' ' :: (io.text ++ rest))) = body at *
  have hin := lex_kw hs hl IN (ws.text ++ '\n' :: body) (by decide) w2
  have hinb : NB cc (IN ++ ' ' :: (ws.text ++ '\n' :: body)) := by rw [NB, hin]; exact name_nb _ _
  have hxx : lex cc (x ++ ' ' :: (IN ++ ' ' :: (ws.text ++ '\n' :: body))) =
      .Name x :: wsp :: lex cc (IN ++ ' ' :: (ws.text ++ '\n' :: body)) := by
    rw [lex_name hs hx ' ' _ (.inr hs.space), lex_sp hs hinb]
  have hxnb : NB cc (x ++ ' ' :: (IN ++ ' ' :: (ws.text ++ '\n' :: body))) := by rw [NB, hxx]; exact name_nb _ _
  obtain ⟨s1, s2⟩ := start_kw hs hl (w := FOR) (by decide) (by decide) hxnb
  have hkw : Gram.Keyword FOR (lex cc (FOR ++ ' ' :: (x ++ ' ' :: (IN ++ ' ' :: (ws.text ++ '\n' :: body)))))
      (wsp :: lex cc (x ++ ' ' :: (IN ++ ' ' :: (ws.text ++ '\n' :: body)))) := by
    rw [lex_kw hs hl _ _ (by decide) hxnb]
    exact ⟨.inl rfl, ends_wsp _⟩
  have hbnb : NB cc body ∧ Gram.NoLineStart (lex cc body) := by
    rw [← hbody, NB, lex_kw hs hl _ _ (by decide) b2]
    exact ⟨name_nb _ _, by intro r; simp⟩
  have hno : Gram.NoLineStart (lex cc (IN ++ ' ' :: (ws.text ++ '\n' :: body))) := by rw [hin]; intro r; simp
  refine ⟨.For, .forKw hkw, ?_, s1, s2⟩
  refine .compoundFor (f := ⟨x, none, some ([], ws.ast, some ⟨none⟩), [], ⟨b.ast, []⟩⟩) (.forCommand ⟨_, .refl s1.nb, hkw⟩
    (l2 := wsp :: lex cc (IN ++ ' ' :: (ws.text ++ '\n' :: body))) ?_ (.none (skip_blank (.refl hinb)) hno) (.nil (.refl hinb) hno)
    (.forIn (kw_read hs hl (by decide) w2) (words_blank w1) (.inr ⟨rfl, by simp, rfl⟩) (.some (.newline (bs := []) .nil)) (.nil (.refl hbnb.1) hbnb.2)) b1)
    (redirects_blank i1) rfl
  rw [hxx]
  exact skip_blank (.refl (name_nb _ _))

theorem comp_forArgs {x : Str} {b : Syn .commands} {io : Syn .redirs} (hx : Shape cc (.Name x))
    (hb : b.noCommands = false) (ihb : CommandsClaim cc b)
    (hio : RedirsClaim cc io) : CompClaim cc (.forArgs x b io) := by
  intro rest hr
  obtain ⟨i1, i2⟩ := hio rest hr
  obtain ⟨b1, b2⟩ := do_group hs hl hb ihb i2
  have e : (Syn.forArgs x b io).text ++ rest =
      FOR ++ ' ' :: (x ++ '\n' :: (DO ++ ' ' :: (b.text ++ (DONE ++ ' ' :: (io.text ++ rest))))) := by
    rw [text_forArgs]; simp [FOR, DO, DONE]
  rw [e]
  have hdo : Gram.Keyword DO (lex cc (DO ++ ' ' :: (b.text ++ (DONE ++ ' ' :: (io.text ++ rest)))))
      (wsp :: lex cc (b.text ++ (DONE ++ ' ' :: (io.text ++ rest)))) := by
    rw [lex_kw hs hl _ _ (by decide) b2]
    exact ⟨.inl rfl, ends_wsp _⟩
  generalize hbody : DO ++ ' ' :: (b.text ++ (DONE ++ ' ' :: (io.text ++ rest))) = body at *
  have hxx : lex cc (x ++ '\n' :: body) = .Name x :: .Newline :: lex cc body := by
    rw [lex_name hs hx '\n' _ (.inl (by rw [opStart_iff]; decide)), lex_newline]
  have hxnb : NB cc (x ++ '\n' :: body) := by rw [NB, hxx]; exact name_nb _ _
  obtain ⟨s1, s2⟩ := start_kw hs hl (w := FOR) (by decide) (by decide) hxnb
  have hkw : Gram.Keyword FOR (lex cc (FOR ++ ' ' :: (x ++ '\n' :: body))) (wsp :: lex cc (x ++ '\n' :: body)) := by
    rw [lex_kw hs hl _ _ (by decide) hxnb]
    exact ⟨.inl rfl, ends_wsp _⟩
  have hbnb : NB cc body ∧ Gram.NoLineStart (lex cc body) := by
    rw [← hbody, NB, lex_kw hs hl _ _ (by decide) b2]
    exact ⟨name_nb _ _, by intro r; simp⟩
  refine ⟨.For, .forKw hkw, ?_, s1, s2⟩
  refine .compoundFor (f := ⟨x, some ⟨none⟩, none, [], ⟨b.ast, []⟩⟩) (.forCommand ⟨_, .refl s1.nb, hkw⟩ (l2 := .Newline :: lex cc body) ?_
    (.some (.newline (bs := []) .nil)) (.nil (.refl hbnb.1) hbnb.2) (.forDo (.refl hbnb.1) hdo) b1)
    (redirects_blank i1) rfl
  rw [hxx]
  exact skip_blank (.refl (name_nb _ _))

/-! ## `case` -/

omit hl in
theorem lex_rparen {rest : Str} (hb : NB cc rest) : lex cc (')' :: ' ' :: rest) = .ParenClose :: wsp :: lex cc rest := by
  rw [← lex_sp hs hb]
  exact lex_end hs .ParenClose _ (by decide) (by decide)

omit hl in
theorem pats_last {w : Syn .parts} (hw : w.IsWord) (ho : w.Ok cc false) (hp : PartsClaim cc w) : PatsClaim cc (.patLast w) := by
  intro rest hr
  have hpr := lex_rparen hs hr
  have e : (Syn.patLast w).text ++ ')' :: ' ' :: rest = w.text ++ ' ' :: (')' :: ' ' :: rest) := by rw [text_patLast]; simp
  rw [NB, e]
  have hnb : NB cc (')' :: ' ' :: rest) := by rw [NB, hpr]; simp [Gram.NoBlank]
  have := word_read hs hw ho hp hnb
  rw [hpr] at this
  exact ⟨.patternLast this, word_nb hs hw.1 ho _⟩

omit hl in
theorem pats_cons {w : Syn .parts} {ps : Syn .pats} (hw : w.IsWord) (ho : w.Ok cc false) (hp : PartsClaim cc w) (ih : PatsClaim cc ps) :
    PatsClaim cc (.patCons w ps) := by
  intro rest hr
  obtain ⟨h1, h2⟩ := ih rest hr
  have hpr : lex cc ('|' :: ' ' :: (ps.text ++ ')' :: ' ' :: rest)) = .Pipe :: wsp :: lex cc (ps.text ++ ')' :: ' ' :: rest) := by
    rw [← lex_sp hs h2]
    exact lex_token hs .Pipe ' ' _ (by decide) (by decide)
  have e : (Syn.patCons w ps).text ++ ')' :: ' ' :: rest = w.text ++ ' ' :: ('|' :: ' ' :: (ps.text ++ ')' :: ' ' :: rest)) := by
    rw [text_patCons]; simp
  rw [NB, e]
  have hnb : NB cc ('|' :: ' ' :: (ps.text ++ ')' :: ' ' :: rest)) := by rw [NB, hpr]; simp [Gram.NoBlank]
  have := word_read hs hw ho hp hnb
  rw [hpr] at this
  exact ⟨.patternCons this (patterns_blank h1), word_nb hs hw.1 ho _⟩

theorem lex_esac {rest : Str} (hr : NB cc rest) : lex cc (ESAC ++ ' ' :: rest) = .Name ESAC :: wsp :: lex cc rest :=
  lex_kw hs hl _ _ (by decide) hr

theorem arms_nil : ArmsClaim cc .armsNil := by
  intro rest hr
  refine ⟨[], ?_, rfl⟩
  show RD .arms (lex cc (ESAC ++ ' ' :: rest)) _ _
  rw [lex_esac hs hl hr]
  exact .armsEnd (.nil (.refl (name_nb _ _)) (by intro r; simp)) ⟨.inl rfl, ends_wsp _⟩

omit hl in
theorem arms_cons {ps : Syn .pats} {cs : Syn .commands} {as : Syn .arms} (hp : PatsClaim cc ps) (hc : CommandsClaim cc cs)
    (ih : ArmsClaim cc as) : ArmsClaim cc (.armsCons ps cs as) := by
  intro rest hr
  obtain ⟨bs, h1, h2⟩ := ih rest hr
  have hds : lex cc (';' :: ';' :: '\n' :: (as.text ++ (ESAC ++ ' ' :: rest))) =
      .DSemi :: .Newline :: lex cc (as.text ++ (ESAC ++ ' ' :: rest)) := by
    rw [← lex_newline]
    exact lex_end hs .DSemi _ (by decide) (by decide)
  obtain ⟨c1, c2, c3⟩ := hc armDelim (';' :: ';' :: '\n' :: (as.text ++ (ESAC ++ ' ' :: rest)))
    ⟨by simp [armDelim], by simp [armDelim]; decide, by simp [armDelim]⟩
    ⟨by rw [hds]; simp [Gram.NoBlank], by rw [hds]; intro r; simp, by rw [hds]; exact .inl (.inl ⟨.DSemi, by simp [armDelim], _, rfl⟩)⟩
  obtain ⟨p1, p2⟩ := hp _ c2
  have e : (Syn.armsCons ps cs as).text ++ (ESAC ++ ' ' :: rest) =
      '(' :: ' ' :: (ps.text ++ ')' :: ' ' :: (cs.text ++ ';' :: ';' :: '\n' :: (as.text ++ (ESAC ++ ' ' :: rest)))) := by
    rw [text_armsCons]; simp
  have e2 : lex cc ('(' :: ' ' :: (ps.text ++ ')' :: ' ' :: (cs.text ++ ';' :: ';' :: '\n' :: (as.text ++ (ESAC ++ ' ' :: rest))))) =
      .ParenOpen :: wsp :: lex cc (ps.text ++ ')' :: ' ' :: (cs.text ++ ';' :: ';' :: '\n' :: (as.text ++ (ESAC ++ ' ' :: rest)))) := by
    rw [← lex_sp hs p2]
    exact lex_end hs .ParenOpen _ (by decide) (by decide)
  rw [e, e2]
  rw [hds] at c1
  refine ⟨⟨⟨[], ps.ast, none⟩, ⟨cs.ast, []⟩, some ⟨none⟩⟩ :: bs, ?_, ?_⟩
  · refine .armsCons (.nil (.refl (by simp [Gram.NoBlank])) (by intro r; simp)) ?_ (.inl rfl) (patterns_blank p1)
      (.none (skip_blank (.refl c2)) c3) c1 (.some (.newline (bs := []) .nil)) h1
    rintro r ⟨e | e, -⟩ <;> cases e
  · rw [ast_armsCons, ← h2]
    rfl

theorem comp_case {w : Syn .parts} {as : Syn .arms} {io : Syn .redirs} (hw : w.IsWord) (ho : w.Ok cc false) (hp : PartsClaim cc w)
    (ih : ArmsClaim cc as) (hio : RedirsClaim cc io) : CompClaim cc (.case_ w as io) := by
  intro rest hr
  obtain ⟨i1, i2⟩ := hio rest hr
  obtain ⟨bs, h1, h2⟩ := ih _ i2
  have hes := lex_esac hs hl i2
  have e : (Syn.case_ w as io).text ++ rest =
      CASE ++ ' ' :: (w.text ++ ' ' :: (IN ++ '\n' :: (as.text ++ (ESAC ++ ' ' :: (io.text ++ rest))))) := by
    rw [text_case]; simp [CASE, IN, ESAC]
  rw [e]
  have hin : lex cc (IN ++ '\n' :: (as.text ++ (ESAC ++ ' ' :: (io.text ++ rest)))) =
      .Name IN :: .Newline :: lex cc (as.text ++ (ESAC ++ ' ' :: (io.text ++ rest))) := by
    rw [lex_name hs (latin_name hl (by decide)) '\n' _ (.inl (by rw [opStart_iff]; decide)), lex_newline]
  have hinb : NB cc (IN ++ '\n' :: (as.text ++ (ESAC ++ ' ' :: (io.text ++ rest)))) := by rw [NB, hin]; exact name_nb _ _
  have hwr := word_read hs hw ho hp hinb
  have hwb := word_nb hs hw.1 ho (' ' :: (IN ++ '\n' :: (as.text ++ (ESAC ++ ' ' :: (io.text ++ rest)))))
  obtain ⟨s1, s2⟩ := start_kw hs hl (w := CASE) (by decide) (by decide) hwb
  have hkw : Gram.Keyword CASE (lex cc (CASE ++ ' ' :: (w.text ++ ' ' :: (IN ++ '\n' :: (as.text ++ (ESAC ++ ' ' :: (io.text ++ rest)))))))
      (wsp :: lex cc (w.text ++ ' ' :: (IN ++ '\n' :: (as.text ++ (ESAC ++ ' ' :: (io.text ++ rest)))))) := by
    rw [lex_kw hs hl _ _ (by decide) hwb]
    exact ⟨.inl rfl, ends_wsp _⟩
  rw [hin] at hwr
  rw [hes] at h1
  refine ⟨.Case, .caseKw hkw, ?_, s1, s2⟩
  refine .compoundCase (f := ⟨wordAst w.ast, [], some ⟨none⟩, bs, [] ++ []⟩) (.caseCommand ⟨_, .refl s1.nb, hkw⟩ (word_blank hwr)
    (.nil (.refl (name_nb _ _)) (by intro r; simp)) ⟨_, .refl (name_nb _ _), .inl rfl, ends_newline _⟩
    (.some (.newline (bs := []) .nil)) h1 (.nil (.refl (name_nb _ _)) (by intro r; simp)) ⟨_, .refl (name_nb _ _), .inl rfl, ends_wsp _⟩)
    (redirects_blank i1) ?_
  rw [ast_case, ← h2]
  rfl

/-! ## Commands, pipelines and lists -/

omit hs hl in
theorem cmd_compound {c : Syn .comp} (h : CompClaim cc c) : CmdClaim cc (.compound c) := by
  intro rest hr
  obtain ⟨kw, h1, h2, h3, h4⟩ := h rest hr
  have e : (Syn.compound c).text ++ rest = c.text ++ rest := rfl
  rw [e]
  exact ⟨.commandCompound (.refl h3.nb) h1 h2 rfl, h3, h4⟩

omit hl in
theorem cmd_function {x : Str} {c : Syn .comp} (hx : Shape cc (.Name x)) (hr : x ∉ reservedWords) (h : CompClaim cc c) :
    CmdClaim cc (.function x c) := by
  intro rest hrest
  obtain ⟨kw, h1, h2, h3, h4⟩ := h rest hrest
  have e : (Syn.function x c).text ++ rest = x ++ '(' :: (')' :: ' ' :: (c.text ++ rest)) := by rw [text_function]; simp
  have e2 : lex cc (x ++ '(' :: (')' :: ' ' :: (c.text ++ rest))) = .Name x :: .ParenOpen :: .ParenClose :: wsp :: lex cc (c.text ++ rest) := by
    rw [lex_name hs hx '(' _ (.inl (by rw [opStart_iff]; decide)), ← lex_rparen hs h3.nb]
    exact congrArg _ (lex_end hs .ParenOpen _ (by decide) (by decide))
  rw [e, e2]
  have hk : ∀ y ∈ reservedWords, ∀ r, ¬ Gram.Keyword y (.Name x :: .ParenOpen :: .ParenClose :: wsp :: lex cc (c.text ++ rest)) r := by
    rintro y hy r ⟨e | e, -⟩ <;> cases e
    exact hr hy
  have hin : ∀ y ∈ inner, y ∈ reservedWords := by decide
  refine ⟨.commandFunction (.refl (name_nb _ _)) ?_ .paren (.function (found := false) (.inr ⟨rfl, rfl, ?_⟩) (.refl (name_nb _ _))
    (.fnParens ⟨_, rfl, .refl (by simp [Gram.NoBlank])⟩) (.nil (skip_blank (.refl h3.nb)) h3.noLine) h1 h2 rfl),
    ⟨name_nb _ _, ⟨_, _, rfl, by simp⟩, fun y hy => hk y (hin y hy)⟩, by simp⟩
  · intro kw hc
    generalize hl0 : (Token.Name x :: .ParenOpen :: .ParenClose :: wsp :: lex cc (c.text ++ rest)) = l0 at hc hk
    cases hc with
    | subshell => cases hl0
    | brace => cases hl0
    | forKw h' => exact hk _ (by decide) _ h'
    | caseKw h' => exact hk _ (by decide) _ h'
    | ifKw h' => exact hk _ (by decide) _ h'
    | whileKw h' => exact hk _ (by decide) _ h'
    | untilKw h' => exact hk _ (by decide) _ h'
  · rintro r ⟨l', h5, h6⟩
    have := h5.of_noBlank (name_nb _ _)
    subst this
    exact hk FUNCTION (by decide) _ h6

omit hs hl in
theorem pipe_last {c : Syn .cmd} (h : CmdClaim cc c) : PipeClaim cc (.last c) := by
  intro rest hr hp
  obtain ⟨h1, h2, h3⟩ := h rest hr
  exact ⟨[([], c.ast)], .pipeLast h3 h1 hp, rfl, h2, h3⟩

omit hl in
theorem pipe_into {c : Syn .cmd} {p : Syn .pipe} (h : CmdClaim cc c) (ih : PipeClaim cc p) : PipeClaim cc (.into c p) := by
  intro rest hr hp
  obtain ⟨cs, h1, h2, h3, h4⟩ := ih rest hr hp
  have hl : lex cc ('|' :: ' ' :: (p.text ++ rest)) = .Pipe :: wsp :: lex cc (p.text ++ rest) := by
    rw [← lex_sp hs h3.nb]
    exact lex_token hs .Pipe ' ' _ (by decide) (by decide)
  obtain ⟨g1, g2, g3⟩ := h ('|' :: ' ' :: (p.text ++ rest)) ⟨_, _, rfl, by decide⟩
  have e : (Syn.into c p).text ++ rest = c.text ++ '|' :: ' ' :: (p.text ++ rest) := by rw [text_into]; simp
  rw [e]
  rw [hl] at g1
  exact ⟨([], c.ast) :: cs, .pipeCons g3 g1 (lines_blank h3.lines) h1, by rw [ast_into, ← h2]; rfl, g2, g3⟩

omit hs hl in
theorem pipe_call (bang : Bool) {cs : List (List Nl × SPipeable)} (h : cs.map (·.2) ≠ []) :
    Gram.Calls (B := DefaultBuilder) (.pipeline bang cs) () (pipeAst bang (cs.map (·.2))) () := by
  show (stringCore.call (.pipeline bang cs), ()) = _
  simp only [Core.call]
  match bang, cs, h with
  | false, [c], _ => rfl
  | true, [c], _ => rfl
  | false, _ :: _ :: _, _ => rfl
  | true, _ :: _ :: _, _ => rfl

omit hl in
theorem listable_pipeline {bang : Bool} {p : Syn .pipe} (h : PipeClaim cc p) : ListableClaim cc (.pipeline bang p) := by
  intro rest hr hp
  obtain ⟨cs, h1, h2, h3, h4⟩ := h rest hr hp
  have hne : cs.map (·.2) ≠ [] := by
    rw [h2]
    cases p with
    | last => rw [ast_last]; simp
    | into => rw [ast_into]; simp
  have hcall := pipe_call bang hne
  rw [h2] at hcall
  rw [ast_pipeline]
  cases bang with
  | false =>
    have e : (Syn.pipeline false p).text ++ rest = p.text ++ rest := rfl
    rw [e]
    exact ⟨.pipeline (.refl h3.nb) (.inr ⟨rfl, rfl, h4⟩) h1 hcall, h3⟩
  | true =>
    have e : (Syn.pipeline true p).text ++ rest = '!' :: ' ' :: (p.text ++ rest) := rfl
    have hl : lex cc ('!' :: ' ' :: (p.text ++ rest)) = .Bang :: wsp :: lex cc (p.text ++ rest) := by
      rw [← lex_sp hs h3.nb]
      exact lex_token hs .Bang ' ' _ (by decide) (by decide)
    rw [e, hl]
    refine ⟨.pipeline (.refl (by simp [Gram.NoBlank])) (.inl ⟨rfl, rfl⟩) ?_ hcall, ⟨by simp [Gram.NoBlank], ⟨_, _, rfl, by simp⟩, ?_⟩⟩
    · exact pipe_blank h1
    · rintro x - r ⟨e | e, -⟩ <;> cases e

omit hs hl in
theorem EndText.stop {rest : Str} (h : EndText rest) : StopText rest := by
  rcases h with ⟨r, rfl⟩ | ⟨r, rfl⟩ <;> exact ⟨_, _, rfl, by decide⟩

omit hl in
theorem lex_amp (r : Str) : lex cc ('&' :: '\n' :: r) = .Amp :: .Newline :: lex cc r := by
  rw [← lex_newline]
  exact lex_token hs .Amp '\n' _ (by decide) (by decide)

omit hl in
theorem rest_nil : RestClaim cc .restNil := by
  intro rest hr
  have key : Gram.NoBlank (lex cc rest) ∧ ∀ t r, lex cc rest = t :: r → t = .Newline ∨ t = .Amp := by
    rcases hr with ⟨r, rfl⟩ | ⟨r, rfl⟩
    · rw [lex_newline]; exact ⟨by simp [Gram.NoBlank], by rintro _ _ e; cases e; exact .inl rfl⟩
    · rw [lex_amp hs]; exact ⟨by simp [Gram.NoBlank], by rintro _ _ e; cases e; exact .inr rfl⟩
  refine ⟨[], .andOrEnd (.refl key.1) ?_, rfl, EndText.stop hr, ?_⟩
  · intro r'
    constructor <;> (intro e; have := key.2 _ _ e; simp at this)
  · intro r' e
    have := key.2 _ _ e; simp at this

omit hl in
theorem rest_and {l : Syn .listable} {r : Syn .rest} (h : ListableClaim cc l) (ih : RestClaim cc r) : RestClaim cc (.and l r) := by
  intro rest hr
  obtain ⟨cs, h1, h2, h3, h4⟩ := ih rest hr
  obtain ⟨g1, g2⟩ := h _ h3 h4
  have e : (Syn.and l r).text ++ rest = '&' :: '&' :: ' ' :: (l.text ++ (r.text ++ rest)) := by rw [text_and]; simp
  have e2 : lex cc ('&' :: '&' :: ' ' :: (l.text ++ (r.text ++ rest))) = .AndIf :: wsp :: lex cc (l.text ++ (r.text ++ rest)) := by
    rw [← lex_sp hs g2.nb]
    exact lex_token hs .AndIf ' ' _ (by decide) (by decide)
  rw [e, e2]
  exact ⟨([], .And l.ast) :: cs, .andOrAnd (.refl (by simp [Gram.NoBlank])) (lines_blank g2.lines) g1 h1, by rw [ast_and, ← h2]; rfl,
    ⟨_, _, rfl, by decide⟩, by simp⟩

omit hl in
theorem rest_or {l : Syn .listable} {r : Syn .rest} (h : ListableClaim cc l) (ih : RestClaim cc r) : RestClaim cc (.or l r) := by
  intro rest hr
  obtain ⟨cs, h1, h2, h3, h4⟩ := ih rest hr
  obtain ⟨g1, g2⟩ := h _ h3 h4
  have e : (Syn.or l r).text ++ rest = '|' :: '|' :: ' ' :: (l.text ++ (r.text ++ rest)) := by rw [text_or]; simp
  have e2 : lex cc ('|' :: '|' :: ' ' :: (l.text ++ (r.text ++ rest))) = .OrIf :: wsp :: lex cc (l.text ++ (r.text ++ rest)) := by
    rw [← lex_sp hs g2.nb]
    exact lex_token hs .OrIf ' ' _ (by decide) (by decide)
  rw [e, e2]
  exact ⟨([], .Or l.ast) :: cs, .andOrOr (.refl (by simp [Gram.NoBlank])) (lines_blank g2.lines) g1 h1, by rw [ast_or, ← h2]; rfl,
    ⟨_, _, rfl, by decide⟩, by simp⟩

omit hl in
theorem command_one {job : Bool} {l : Syn .listable} {r : Syn .rest} (h : ListableClaim cc l) (ih : RestClaim cc r) :
    CommandClaim cc (.command job l r) := by
  intro rest
  have key : ∀ tail, EndText tail → ∀ (k : SeparatorKind) (n : Option Nl), SepAfter (lex cc tail) k n (lex cc rest) →
      ∀ ns, RD (.complete ns) (lex cc (l.text ++ (r.text ++ tail)))
        (.mk (if k = .Amp then .Job ⟨l.ast, r.ast⟩ else .List ⟨l.ast, r.ast⟩)) (lex cc rest) ∧
        CmdStart (lex cc (l.text ++ (r.text ++ tail))) := by
    intro tail ht k n hk ns
    obtain ⟨cs, h1, h2, h3, h4⟩ := ih tail ht
    obtain ⟨g1, g2⟩ := h _ h3 h4
    have hc : Gram.Calls (B := DefaultBuilder) (.andOrList l.ast cs) () ⟨l.ast, r.ast⟩ () := by rw [← h2]; rfl
    refine ⟨.complete (.andOr g1 h1 hc) hk ?_, g2⟩
    cases k <;> rfl
  cases job with
  | false =>
    have e : (Syn.command false l r).text ++ rest = l.text ++ (r.text ++ '\n' :: rest) := by rw [text_command]; simp
    have := key ('\n' :: rest) (.inl ⟨_, rfl⟩) .Newline (some ⟨none⟩)
      (by rw [lex_newline]; exact .newline (.newline (bs := []) .nil) (by simp))
    rw [e]
    exact ⟨fun ns => (this ns).1, (this []).2⟩
  | true =>
    have e : (Syn.command true l r).text ++ rest = l.text ++ (r.text ++ '&' :: '\n' :: rest) := by rw [text_command]; simp
    have := key ('&' :: '\n' :: rest) (.inr ⟨_, rfl⟩) .Amp (some ⟨none⟩)
      (by rw [lex_amp hs]; exact .amp (.some (.newline (bs := []) .nil)))
    rw [e]
    exact ⟨fun ns => (this ns).1, (this []).2⟩

omit hl in
theorem exp_cmdSubst {cs : Syn .commands} (h : CommandsClaim cc cs) : ExpClaim cc (.cmdSubst cs) := by
  intro rest
  have hcl : lex cc (')' :: rest) = .ParenClose :: lex cc rest := lex_end hs .ParenClose _ (by decide) (by decide)
  obtain ⟨h1, h2, -⟩ := h parenDelim (')' :: rest) ⟨by simp [parenDelim], by simp [parenDelim], by simp [parenDelim]⟩
    ⟨by rw [hcl]; simp [Gram.NoBlank], by rw [hcl]; intro r; simp, by rw [hcl]; exact .inl (.inl ⟨.ParenClose, by simp [parenDelim], _, rfl⟩)⟩
  refine ⟨.Subst (.Command ⟨cs.ast, []⟩), .ParenOpen :: wsp :: lex cc (cs.text ++ ')' :: rest), ?_, ?_, rfl, by simp⟩
  · have e : (Syn.cmdSubst cs).text ++ rest = '$' :: '(' :: ' ' :: (cs.text ++ ')' :: rest) := by rw [text_cmdSubst]; simp
    rw [e, lex_dollar hs (by intro c hc; cases hc; decide), ← lex_sp hs h2]
    exact congrArg _ (lex_end hs .ParenOpen _ (by decide) (by decide))
  · rw [hcl] at h1
    exact .commandSubst (by simp) (.subshell (group_blank h1) (fun _ => rfl))

end
end
end Conch
