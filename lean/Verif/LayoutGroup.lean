import Verif.LayoutSimple
import Verif.RoundTrip
/-!
# Reading groups, pipelines and lists, however they are written (C47)
-/
namespace Conch
open Spec Gram

section
variable {cc : CharClass}

/-! ## Claims -/

variable (cc)

/-- Before the text `E`, `t` is read as the compound command `c`. -/
def CompW (c : Syn .comp) (E t : Str) : Prop :=
  Head t ∧ ∀ rest, After cc E rest → ∃ kw, CompoundStart (lex cc t) kw ∧
    RD (.compound kw) (lex cc t) c.ast (lex cc rest) ∧ CmdStart (lex cc t) ∧
    ∀ l, lex cc t ≠ .Bang :: l

def PipeW (p : Syn .pipe) (E t : Str) : Prop :=
  Head t ∧ ∀ rest, After cc E rest → (∀ r, lex cc rest ≠ .Pipe :: r) →
    ∃ cs, RD .pipelineCmds (lex cc t) cs (lex cc rest) ∧
    cs.map (·.2) = p.ast ∧ CmdStart (lex cc t) ∧ ∀ l, lex cc t ≠ .Bang :: l

def ListableW (l : Syn .listable) (E t : Str) : Prop :=
  Head t ∧ ∀ rest, After cc E rest → (∀ r, lex cc rest ≠ .Pipe :: r) →
    RD .pipeline (lex cc t) l.ast (lex cc rest) ∧ CmdStart (lex cc t)

/-- No operator goes on with the and-or list. -/
def NotMore (l : List Token) : Prop := ∀ l', l ≠ .Pipe :: l' ∧ l ≠ .AndIf :: l' ∧ l ≠ .OrIf :: l'

def RestW (r : Syn .rest) (E t : Str) : Prop :=
  ∀ rest, After cc E rest → NotMore (lex cc rest) → ∃ R cs, After cc t R ∧ (∀ l, lex cc R ≠ .Pipe :: l) ∧
    RD .andOrRest (lex cc R) cs (lex cc rest) ∧ cs.map (·.2) = r.ast

def CommandW (c : Syn .command) (E t : Str) : Prop :=
  Head t ∧ ∀ rest, After cc E rest → NotMore (lex cc rest) → CmdStart (lex cc t) ∧
    ∀ k n r, SepAfter (lex cc rest) k n r → (k = .Amp ↔ c.isJob = true) → ∀ ns, RD (.complete ns) (lex cc t) c.ast r

def CommandsW (o : Bool) (cs : Syn .commands) (rest t : Str) : Prop :=
  (∀ c ∈ ";&|".toList, rest.head? ≠ some c → t.head? ≠ some c) ∧
  ∀ cfg, Groups cfg → Closer cfg (lex cc rest) → rest.head? ≠ some '&' →
    (o = true → rest = [] ∨ rest.head? = some ')' ∨ ∃ r, rest = ';' :: ';' :: r) →
    ∃ ms, RD (.group cfg) (lex cc t) ⟨cs.ast, ms⟩ (lex cc rest)

def IfsW (f : Syn .ifs) (E t : Str) : Prop :=
  ∀ R, E = FI ++ R → WordEnd cc R → ∃ fr, RD .ifArms (lex cc t) fr (lex cc R) ∧
    (fr.conditionals.map (fun p => (⟨p.guard.commands, p.body.commands⟩ : GuardBodyPair SCommand)),
      fr.elseBranch.map (·.commands)) = f.ast

def PatsW (ps : Syn .pats) (E t : Str) : Prop :=
  Head t ∧ ∃ g t1, t = g ++ t1 ∧ Gap cc g ∧ ∀ R, E = ')' :: R → RD .patterns (lex cc t1) ps.ast (lex cc R) ∧
    NB cc t1 ∧ Gram.NoLineStart (lex cc t1) ∧ (∀ l, lex cc t1 ≠ .ParenOpen :: l) ∧
    (ps.startsEsac = false → ∀ r, ¬ Gram.Keyword ESAC (lex cc t1) r)

/-- What arms become in the tree. -/
def armAst (bs : List (CaseArm SWord SCommand)) : List (PatternBodyPair SWord SCommand) :=
  bs.map fun a => ⟨a.patterns.patternAlternatives, a.body.commands⟩

def ArmsW (as : Syn .arms) (E t : Str) : Prop :=
  ∀ R, E = ESAC ++ R → WordEnd cc R → ∃ bs ms, RD .arms (lex cc t) (bs, ms) (lex cc E) ∧ armAst bs = as.ast

variable {cc}

/-! ## Keywords -/

theorem lex_kwW (hs : cc.Sane) (hl : Latin cc) {w : Str} (hw : Letters w) {R : Str} (hR : WordEnd cc R) :
    lex cc (w ++ R) = .Name w :: lex cc R := lex_name' hs (latin_name hl hw) (hR.notPlain.nameStop hs)

theorem keywordW (hs : cc.Sane) (hl : Latin cc) {w : Str} (hw : Letters w) {R : Str} (hR : WordEnd cc R) :
    Gram.Keyword w (lex cc (w ++ R)) (lex cc R) := by
  rw [lex_kwW hs hl hw hR]; exact ⟨.inl rfl, hR.ends hs⟩

theorem kw_nb (hs : cc.Sane) (hl : Latin cc) {w : Str} (hw : Letters w) {R : Str} (hR : WordEnd cc R) :
    NB cc (w ++ R) := by
  rw [NB, lex_kwW hs hl hw hR]; exact name_nb _ _

theorem kw_noLine (hs : cc.Sane) (hl : Latin cc) {w : Str} (hw : Letters w) {R : Str} (hR : WordEnd cc R) :
    Gram.NoLineStart (lex cc (w ++ R)) := by
  rw [lex_kwW hs hl hw hR]; intro r; simp

theorem kw_readW (hs : cc.Sane) (hl : Latin cc) {w : Str} (hw : Letters w) {R : Str} (hR : WordEnd cc R) :
    Gram.Kw w (lex cc (w ++ R)) (lex cc R) := ⟨_, .refl (kw_nb hs hl hw hR), keywordW hs hl hw hR⟩

theorem kw_closer (hs : cc.Sane) (hl : Latin cc) {w : Str} (hw : Letters w) {R : Str} (hR : WordEnd cc R) {cfg : Delims}
    (hm : w ∈ cfg.reservedWords) : Closer cfg (lex cc (w ++ R)) :=
  ⟨kw_nb hs hl hw hR, kw_noLine hs hl hw hR, .inl (.inr (.inl ⟨w, hm, _, keywordW hs hl hw hR⟩))⟩

theorem kw_head {w R : Str} (hw : Letters w) : ∀ c ∈ ";&|)".toList, (w ++ R).head? ≠ some c := by
  obtain ⟨h1, h2⟩ := hw
  obtain ⟨d, w, rfl⟩ := List.exists_cons_of_ne_nil h1
  intro c hc e
  cases e
  have := h2 d (by simp)
  clear h1 h2
  revert d; decide

theorem letters_head {w R : Str} (hw : Letters w) : Head (w ++ R) := by
  obtain ⟨h1, h2⟩ := hw
  obtain ⟨d, w, rfl⟩ := List.exists_cons_of_ne_nil h1
  refine ⟨d, w ++ R, rfl, ?_⟩
  have := h2 d (by simp)
  clear h1 h2
  revert d; decide

/-- A command that starts with a reserved word. -/
theorem start_kwW (hs : cc.Sane) (hl : Latin cc) {w : Str} (hw : Letters w) (hi : w ∉ inner) {R : Str} (hR : WordEnd cc R) :
    CmdStart (lex cc (w ++ R)) ∧ ∀ l, lex cc (w ++ R) ≠ .Bang :: l := by
  rw [lex_kwW hs hl hw hR]
  refine ⟨⟨name_nb _ _, ⟨_, _, rfl, by simp⟩, ?_⟩, by simp⟩
  rintro x hx r ⟨e | e, -⟩ <;> cases e
  exact hi hx

/-! ## Layout -/

theorem layout_char (hs : cc.Sane) {l x : Str} (hl : Layout cc l) {c : Char} (hc : c ∈ ";&|)(".toList) (hx : x.head? ≠ some c) :
    (l ++ x).head? ≠ some c := by
  cases l with
  | nil => exact hx
  | cons d l =>
    intro e; cases e
    rcases layout_head hl rfl with h | rfl | rfl
    · exact (blank_not_op hs h).1 (delim_op (by clear h hx hl; revert c; decide))
    · revert hc; decide
    · revert hc; decide

theorem layout_head_append (hs : cc.Sane) {l x : Str} (hl : Layout cc l) (hx : Head x) : Head (l ++ x) := by
  cases h : l ++ x with
  | nil =>
    obtain ⟨d, y, rfl, -⟩ := hx
    simp at h
  | cons c y =>
    refine ⟨c, y, rfl, fun hc => ?_⟩
    have := layout_char hs hl (c := c) (by clear h; revert c; decide) (hx.ne hc)
    rw [h] at this
    exact this rfl

/-- The lines before something. -/
theorem lines_line {l r : List Token} {ns} (h : Gram.Lines l ns r) (hl : (∃ x, l = .Newline :: x) ∨ ∃ x, l = .Pound :: x) :
    ∃ n l' ms, Gram.Line l n l' ∧ Gram.Lines l' ms r := by
  cases h with
  | nil h1 h2 =>
    exfalso
    rcases hl with ⟨x, rfl⟩ | ⟨x, rfl⟩
    · have := h1.of_noBlank (by simp [Gram.NoBlank]); subst this; exact (h2 _).1 rfl
    · have := h1.of_noBlank (by simp [Gram.NoBlank]); subst this; exact (h2 _).2 rfl
  | cons h1 h2 => exact ⟨_, _, _, h1, h2⟩

theorem newLine_lex (hs : cc.Sane) {g s : Str} (h : NewLine g s) :
    (∃ y, lex cc s = .Newline :: y) ∨ ∃ y, lex cc s = .Pound :: y := by
  cases s with
  | nil => rcases h with h | ⟨h, -⟩ <;> cases h
  | cons c s =>
    rcases h with h | ⟨h, -⟩ <;> cases h
    · exact .inl ⟨_, lex_newline _⟩
    · exact .inr ⟨_, lex_pound hs _⟩

theorem newLine_after {g s : Str} (hg : Gap cc g) (h : NewLine g s) : After cc (g ++ s) s := by
  refine ⟨g, hg, rfl, ?_, ?_⟩
  · cases s with
    | nil => rcases h with h | ⟨h, -⟩ <;> cases h
    | cons c s => rcases h with h | ⟨h, -⟩ <;> (cases h; intro d hd; cases hd; decide)
  · cases s with
    | nil => rcases h with h | ⟨h, -⟩ <;> cases h
    | cons c s =>
      rcases h with h | ⟨-, h⟩
      · cases h; intro e; cases e
      · exact fun _ => h

/-! ## Groups -/

theorem complete_ns {B : Builder} {b b' : B.State} {ns ms : List Nl} {l r : List Token} {a}
    (h : Reads (.complete ns) b l a r b') (hB : ∀ c k n b a b', Gram.Calls (B := B) (.completeCommand ns c k n) b a b' →
      Gram.Calls (B := B) (.completeCommand ms c k n) b a b') : Reads (.complete ms) b l a r b' := by
  cases h with
  | complete h1 h2 h3 => exact .complete h1 h2 (hB _ _ _ _ _ _ h3)

theorem complete_any {ns ms : List Nl} {l r : List Token} {a} (h : RD (.complete ns) l a r) : RD (.complete ms) l a r := by
  refine complete_ns h ?_
  intro c k n b a b' h
  cases k <;> exact h

theorem group_optLine {B : Builder} {b b' : B.State} {cfg} {l r : List Token} {g : CommandGroup B.Command}
    (h : Reads (.group cfg) b l g r b')
    (hB : ∀ (ns ms : List Nl) l a r b b', Reads (B := B) (.complete ns) b l a r b' → Reads (B := B) (.complete ms) b l a r b') :
    ∃ c l' ms, OptLine l c l' ∧ Reads (.group cfg) b l' ⟨g.commands, ms⟩ r b' := by
  cases h with
  | groupEnd h1 h2 =>
    obtain ⟨c, l', ms, h3, h4⟩ := lines_opt h1
    exact ⟨c, l', ms, h3, .groupEnd h4 h2⟩
  | groupCons h1 h2 h3 h4 h5 =>
    obtain ⟨c, l', ms, h6, h7⟩ := lines_opt h1
    exact ⟨c, l', _, h6, Reads.groupCons (ns := ms) h7 h2 h3 (hB _ ms _ _ _ _ _ h4) h5⟩

theorem group_line {B : Builder} {b b' : B.State} {cfg} {l r : List Token} {g : CommandGroup B.Command}
    (h : Reads (.group cfg) b l g r b') (hl : (∃ x, l = .Newline :: x) ∨ ∃ x, l = .Pound :: x)
    (hB : ∀ (ns ms : List Nl) l a r b b', Reads (B := B) (.complete ns) b l a r b' → Reads (B := B) (.complete ms) b l a r b') :
    ∃ n l' ms, Gram.Line l n l' ∧ Reads (.group cfg) b l' ⟨g.commands, ms⟩ r b' := by
  cases h with
  | groupEnd h1 h2 =>
    obtain ⟨c, l', ms, h3, h4⟩ := lines_line h1 hl
    exact ⟨c, l', ms, h3, .groupEnd h4 h2⟩
  | groupCons h1 h2 h3 h4 h5 =>
    obtain ⟨c, l', ms, h6, h7⟩ := lines_line h1 hl
    exact ⟨c, l', _, h6, Reads.groupCons (ns := ms) h7 h2 h3 (hB _ ms _ _ _ _ _ h4) h5⟩

theorem default_any (ns ms : List Nl) (l : List Token) (a) (r : List Token) (b b' : DefaultBuilder.State)
    (h : Reads (B := DefaultBuilder) (.complete ns) b l a r b') : Reads (B := DefaultBuilder) (.complete ms) b l a r b' := complete_any h

theorem commandsW_nil (hs : cc.Sane) {o : Bool} {l k : Str} (hl : Layout cc l) : CommandsW cc o .cnil k (l ++ k) := by
  refine ⟨fun c hc hk => layout_char hs hl (by clear hk; revert c; decide) hk, fun cfg hg hc _ _ => ?_⟩
  obtain ⟨ns, h⟩ := layout_lines hs hl hc.nb hc.noLine
  exact ⟨ns, .groupEnd h hc.delim⟩

theorem layout_end (hs : cc.Sane) {l x : Str} (hl : Layout cc l) (hx : '\n' ∉ x) :
    ∃ ns, Gram.Lines (lex cc (l ++ '#' :: x)) ns [] := by
  have hnb : ∀ y : Str, NB cc ('#' :: y) := fun y => by rw [NB, lex_pound hs]; simp [Gram.NoBlank]
  have hnil : Gram.Lines [] [] [] := .nil (.refl (by simp [Gram.NoBlank])) (by simp [Gram.NoLineStart])
  induction hl with
  | @gap g h =>
    obtain ⟨bs, h1, h2⟩ := filler_lex hs h.1 (hnb x)
    refine ⟨[⟨some (concatTokens (.Pound :: lex cc x))⟩], .cons ?_ hnil⟩
    rw [h1, lex_pound hs]
    exact .lastComment h2 (no_newline hx)
  | @newline g l h _ ih =>
    obtain ⟨ns, ih⟩ := ih
    obtain ⟨bs, h1, h2⟩ := filler_lex hs h.1 (nb_newline (l ++ '#' :: x))
    refine ⟨⟨none⟩ :: ns, .cons ?_ ih⟩
    rw [List.append_assoc, List.cons_append, h1, lex_newline]
    exact .newline h2
  | @comment g y l h h' _ ih =>
    obtain ⟨ns, ih⟩ := ih
    obtain ⟨bs, h1, h2⟩ := filler_lex hs h.1 (hnb (y ++ '\n' :: (l ++ '#' :: x)))
    have e : g ++ '#' :: (y ++ '\n' :: l) ++ '#' :: x = g ++ '#' :: (y ++ '\n' :: (l ++ '#' :: x)) := by simp
    refine ⟨⟨some (concatTokens (.Pound :: lex cc y))⟩ :: ns, .cons ?_ ih⟩
    rw [e, h1, lex_pound hs, lex_line hs]
    have := Gram.Line.comment (r := lex cc (l ++ '#' :: x)) h2 (no_newline (cc := cc) h')
    simpa using this

theorem commandsW_end (hs : cc.Sane) {o : Bool} {l x : Str} (hl : Layout cc l) (hx : '\n' ∉ x) :
    CommandsW cc o .cnil [] (l ++ '#' :: x) := by
  refine ⟨fun c hc hk => layout_char hs hl (by clear hk; revert c; decide) ?_, fun cfg hg hc _ _ => ?_⟩
  · rintro e; cases e; exact absurd hc (by decide)
  · obtain ⟨ns, h⟩ := layout_end hs hl hx
    have := hc.delim
    rw [lex_nil] at this ⊢
    exact ⟨ns, .groupEnd h this⟩

/-- A command before the rest of its group. -/
theorem commandsW_step (hs : cc.Sane) {c : Syn .command} {cs : Syn .commands} {l t E rest0 : Str} (hl : Layout cc l)
    (h : CommandW cc c E t) (hE : After cc E rest0) (hm : NotMore (lex cc rest0)) {cfg} (hg : Groups cfg) {k n r' ms rest}
    (hsep : SepAfter (lex cc rest0) k n r') (hk : k = .Amp ↔ c.isJob = true)
    (hr : RD (.group cfg) r' ⟨cs.ast, ms⟩ rest) :
    RD (.group cfg) (lex cc (l ++ t)) ⟨(Syn.ccons c cs).ast, ms⟩ rest := by
  obtain ⟨h1, h2⟩ := h.2 rest0 hE hm
  obtain ⟨ns, h3⟩ := layout_lines hs hl h1.nb h1.noLine
  exact .groupCons h3 (h1.atDelim hg) h1.not_nil (h2 k n r' hsep hk ns) hr

theorem commandsW_head (hs : cc.Sane) {l t k : Str} (hl : Layout cc l) (ht : Head t) :
    ∀ c ∈ ";&|".toList, k.head? ≠ some c → (l ++ t).head? ≠ some c :=
  fun _ hc _ => (layout_head_append hs hl ht).ne hc

theorem stopAt_char {c : Char} {r : Str} (h : c ∈ "\n;&|)#".toList) : StopAt (c :: r) := by
  intro d hd; cases hd; exact h

theorem commandsW_semi (hs : cc.Sane) {o : Bool} {c : Syn .command} {cs : Syn .commands} {l t g t' k : Str} (hl : Layout cc l)
    (h : CommandW cc c (g ++ ';' :: t') t) (hj : c.isJob = false) (hgap : Gap cc g) (ih : CommandsW cc o cs k t')
    (hsemi : t'.head? ≠ some ';') : CommandsW cc o (.ccons c cs) k (l ++ t) := by
  refine ⟨commandsW_head hs hl h.1, fun cfg hg hc ha ho => ?_⟩
  obtain ⟨ms, h1⟩ := ih.2 cfg hg hc ha ho
  obtain ⟨n, l', ms', h2, h3⟩ := group_optLine h1 default_any
  have hlx := lex_semi' hs hsemi
  refine ⟨ms', commandsW_step hs hl h (rest0 := ';' :: t') (k := .Semi) ?_ ?_ hg (n := n) (r' := l') ?_ (by simp [hj]) h3⟩
  · exact After.gap hgap (.refl (stopAt_char (by decide)) (by simp))
  · rw [hlx]; intro l'; simp
  · rw [hlx]; exact .semi h2

theorem commandsW_amp (hs : cc.Sane) {o : Bool} {c : Syn .command} {cs : Syn .commands} {l t g t' k : Str} (hl : Layout cc l)
    (h : CommandW cc c (g ++ '&' :: t') t) (hj : c.isJob = true) (hgap : Gap cc g) (ih : CommandsW cc o cs k t') :
    CommandsW cc o (.ccons c cs) k (l ++ t) := by
  refine ⟨commandsW_head hs hl h.1, fun cfg hg hc ha ho => ?_⟩
  have hamp : t'.head? ≠ some '&' := ih.1 _ (by decide) ha
  obtain ⟨ms, h1⟩ := ih.2 cfg hg hc ha ho
  obtain ⟨n, l', ms', h2, h3⟩ := group_optLine h1 default_any
  have hlx := lex_amp' hs hamp
  refine ⟨ms', commandsW_step hs hl h (rest0 := '&' :: t') (k := .Amp) ?_ ?_ hg (n := n) (r' := l') ?_ (by simp [hj]) h3⟩
  · exact After.gap hgap (.refl (stopAt_char (by decide)) (by simp))
  · rw [hlx]; intro l'; simp
  · rw [hlx]; exact .amp h2

theorem commandsW_line (hs : cc.Sane) {o : Bool} {c : Syn .command} {cs : Syn .commands} {l t g t' k : Str} (hl : Layout cc l)
    (h : CommandW cc c (g ++ t') t) (hj : c.isJob = false) (hgap : Gap cc g) (ih : CommandsW cc o cs k t') (hn : NewLine g t') :
    CommandsW cc o (.ccons c cs) k (l ++ t) := by
  refine ⟨commandsW_head hs hl h.1, fun cfg hg hc ha ho => ?_⟩
  obtain ⟨ms, h1⟩ := ih.2 cfg hg hc ha ho
  have hlx := newLine_lex hs hn
  obtain ⟨n, l', ms', h2, h3⟩ := group_line h1 hlx default_any
  refine ⟨ms', commandsW_step hs hl h (rest0 := t') (k := .Newline) (newLine_after hgap hn) ?_ hg
    (n := some n) (r' := l') (.newline h2 ?_) (by simp [hj]) h3⟩
  · intro l'; rcases hlx with ⟨y, hy⟩ | ⟨y, hy⟩ <;> (rw [hy]; simp)
  · intro l'; rcases hlx with ⟨y, hy⟩ | ⟨y, hy⟩ <;> (rw [hy]; simp)

theorem commandsW_open (hs : cc.Sane) {c : Syn .command} {l t g rest : Str} (hl : Layout cc l)
    (h : CommandW cc c (g ++ rest) t) (hj : c.isJob = false) (hgap : Gap cc g) :
    CommandsW cc true (.ccons c .cnil) rest (l ++ t) := by
  refine ⟨commandsW_head hs hl h.1, fun cfg hg hc ha ho => ?_⟩
  have hlx : lex cc rest = [] ∨ (∃ r, lex cc rest = .ParenClose :: r) ∨ ∃ r, lex cc rest = .DSemi :: r := by
    rcases ho rfl with rfl | h | ⟨r, rfl⟩
    · exact .inl lex_nil
    · cases rest with
      | nil => cases h
      | cons d r => cases h; exact .inr (.inl ⟨_, lex_rpar hs r⟩)
    · exact .inr (.inr ⟨_, lex_dsemi hs r⟩)
  have hstop : StopAt rest ∧ rest.head? ≠ some '#' := by
    rcases ho rfl with rfl | h | ⟨r, rfl⟩
    · exact ⟨by simp [StopAt], by simp⟩
    · exact ⟨fun c hc => by rw [h] at hc; cases hc; decide, by rw [h]; simp⟩
    · exact ⟨stopAt_char (by decide), by simp⟩
  refine ⟨[], commandsW_step hs hl h (rest0 := rest) (k := .Other) (n := none) (r' := lex cc rest)
    (After.gap hgap (.refl hstop.1 hstop.2)) ?_ hg (.other (.refl hc.nb) hc.noLine ?_) (by simp [hj])
    (.groupEnd (.nil (.refl hc.nb) hc.noLine) hc.delim)⟩
  · intro l'; rcases hlx with hy | ⟨y, hy⟩ | ⟨y, hy⟩ <;> (rw [hy]; simp)
  · intro l'; rcases hlx with hy | ⟨y, hy⟩ | ⟨y, hy⟩ <;> (rw [hy]; simp)

/-- A group up to a reserved word. -/
theorem commandsW_kw (hs : cc.Sane) (hl : Latin cc) {cs : Syn .commands} {t w R : Str} (h : CommandsW cc false cs (w ++ R) t) {cfg : Delims}
    (hg : Groups cfg) (hm : w ∈ cfg.reservedWords) (hw : Letters w) (hR : WordEnd cc R) :
    ∃ ms, RD (.group cfg) (lex cc t) ⟨cs.ast, ms⟩ (lex cc (w ++ R)) :=
  h.2 cfg hg (kw_closer hs hl hw hR hm) (kw_head hw _ (by decide)) (by simp)

/-- `do ... done`. -/
theorem do_groupW (hs : cc.Sane) (hl : Latin cc) {b : Syn .commands} {t R : Str} (hn : b.noCommands = false)
    (ih : CommandsW cc false b (DONE ++ R) t) (hd : Delim cc t) (hR : WordEnd cc R) :
    ∃ ms, RD .doGroup (lex cc (DO ++ t)) ⟨b.ast, ms⟩ (lex cc R) := by
  obtain ⟨ms, h⟩ := commandsW_kw hs hl ih (cfg := wordDelim [DONE]) (w := DONE) (groups_words (by decide)) (by simp [wordDelim]) (by decide) hR
  exact ⟨ms, .doGroup (kw_readW hs hl (by decide) (.inr hd)) h (ast_ne hn) (kw_readW hs hl (by decide) hR)⟩

/-! ## Pipelines and lists -/

theorem cmdW_compound {c : Syn .comp} {E t : Str} (h : CompW cc c E t) : CmdW cc (.compound c) E t := by
  refine ⟨h.1, fun rest hr => ?_⟩
  obtain ⟨kw, h1, h2, h3, h4⟩ := h.2 rest hr
  exact ⟨.commandCompound (.refl h3.nb) h1 h2 rfl, h3, h4⟩

theorem pipeW_last {c : Syn .cmd} {E t : Str} (h : CmdW cc c E t) : PipeW cc (.last c) E t := by
  refine ⟨h.1, fun rest hr hp => ?_⟩
  obtain ⟨h1, h2, h3⟩ := h.2 rest hr
  exact ⟨[([], c.ast)], .pipeLast h3 h1 hp, rfl, h2, h3⟩

theorem pipeW_into (hs : cc.Sane) {c : Syn .cmd} {p : Syn .pipe} {t g l t' E : Str} (h : CmdW cc c (g ++ '|' :: (l ++ t')) t)
    (hg : Gap cc g) (hl : Layout cc l) (ih : PipeW cc p E t') : PipeW cc (.into c p) E t := by
  refine ⟨h.1, fun rest hr hp => ?_⟩
  obtain ⟨cs, h1, h2, h3, h4⟩ := ih.2 rest hr hp
  have hhead : (l ++ t').head? ≠ some '|' := layout_char hs hl (by decide) (ih.1.ne (by decide))
  have hlx := lex_pipe' hs hhead
  obtain ⟨g1, g2, g3⟩ := h.2 ('|' :: (l ++ t')) (After.gap hg (.refl (stopAt_char (by decide)) (by simp)))
  obtain ⟨ns, h5⟩ := layout_lines hs hl h3.nb h3.noLine
  rw [hlx] at g1
  exact ⟨(ns, c.ast) :: cs, .pipeCons g3 g1 h5 h1, by rw [ast_into, ← h2]; rfl, g2, g3⟩

theorem listableW_pipeline {p : Syn .pipe} {E t : Str} (h : PipeW cc p E t) : ListableW cc (.pipeline false p) E t := by
  refine ⟨h.1, fun rest hr hp => ?_⟩
  obtain ⟨cs, h1, h2, h3, h4⟩ := h.2 rest hr hp
  have hne : cs.map (·.2) ≠ [] := by
    rw [h2]
    cases p with
    | last => rw [ast_last]; simp
    | into => rw [ast_into]; simp
  have hcall := pipe_call false hne
  rw [h2] at hcall
  rw [ast_pipeline]
  exact ⟨.pipeline (.refl h3.nb) (.inr ⟨rfl, rfl, h4⟩) h1 hcall, h3⟩

theorem pipe_same {B : Builder} {b b' : B.State} {l l2 r : List Token} {a} (h : Alike l l2) (hb : ∀ l', l2 ≠ .Bang :: l')
    (h' : Reads .pipelineCmds b l a r b') : Reads .pipelineCmds b l2 a r b' := by
  have key : ∀ {c r}, Reads .command b l c r b' → Reads .command b l2 c r b' := by
    intro c r h1
    cases h1 with
    | commandCompound h1 h2 h3 h4 => exact .commandCompound (h.skip h1) h2 h3 h4
    | commandFunction h1 h2 h3 h4 => exact .commandFunction (h.skip h1) h2 h3 h4
    | commandSimple h1 h2 h3 h4 => exact .commandSimple (h.skip h1) h2 h3 h4
  cases h' with
  | pipeLast h1 h2 h3 => exact .pipeLast hb (key h2) h3
  | pipeCons h1 h2 h3 h4 =>
    refine .pipeCons hb ?_ h3 h4
    cases h2 with
    | commandCompound h1 h2 h3 h4 => exact .commandCompound (h.skip h1) h2 h3 h4
    | commandFunction h1 h2 h3 h4 => exact .commandFunction (h.skip h1) h2 h3 h4
    | commandSimple h1 h2 h3 h4 => exact .commandSimple (h.skip h1) h2 h3 h4

theorem listableW_bang (hs : cc.Sane) {p : Syn .pipe} {g t E : Str} (hg : Gap cc g) (hn : g ≠ []) (h : PipeW cc p E t) :
    ListableW cc (.pipeline true p) E ('!' :: (g ++ t)) := by
  refine ⟨⟨'!', _, rfl, by decide⟩, fun rest hr hp => ?_⟩
  obtain ⟨cs, h1, h2, h3, h4⟩ := h.2 rest hr hp
  have hne : cs.map (·.2) ≠ [] := by
    rw [h2]
    cases p with
    | last => rw [ast_last]; simp
    | into => rw [ast_into]; simp
  have hcall := pipe_call true hne
  rw [h2] at hcall
  rw [ast_pipeline]
  have hlx : lex cc ('!' :: (g ++ t)) = .Bang :: lex cc (g ++ t) := lex_end hs .Bang _ (by decide) (by decide)
  rw [hlx]
  obtain ⟨w, l, e1, e2⟩ := gap_ws hs hg hn h3.nb
  refine ⟨.pipeline (.refl (by simp [Gram.NoBlank])) (.inl ⟨rfl, rfl⟩)
    (pipe_same (Alike.of (gap_skip hs hg h3.nb)) (by rw [e1]; simp) h1) hcall, ⟨by simp [Gram.NoBlank], ⟨_, _, rfl, by simp⟩, ?_⟩⟩
  rintro x - r ⟨e | e, -⟩ <;> cases e

theorem restW_nil {E : Str} : RestW cc .restNil E E := by
  intro rest hr hm
  refine ⟨rest, [], hr, fun l => (hm l).1, .andOrEnd (.refl hr.stop.nb) fun r => ⟨(hm r).2.1, (hm r).2.2⟩, rfl⟩

theorem restW_and (hs : cc.Sane) {l : Syn .listable} {r : Syn .rest} {g s t t' E : Str} (hg : Gap cc g) (hsl : Layout cc s)
    (h : ListableW cc l t' t) (ih : RestW cc r E t') : RestW cc (.and l r) E (g ++ '&' :: '&' :: (s ++ t)) := by
  intro rest hr hm
  obtain ⟨R, cs, h1, h2, h3, h4⟩ := ih rest hr hm
  obtain ⟨g1, g2⟩ := h.2 _ h1 h2
  obtain ⟨ns, h5⟩ := layout_lines hs hsl g2.nb g2.noLine
  have hlx := lex_and hs (s ++ t)
  refine ⟨'&' :: '&' :: (s ++ t), (ns, .And l.ast) :: cs, After.gap hg (.refl (stopAt_char (by decide)) (by simp)),
    by rw [hlx]; simp, ?_, by rw [ast_and, ← h4]; rfl⟩
  rw [hlx]
  exact .andOrAnd (.refl (by simp [Gram.NoBlank])) h5 g1 h3

theorem restW_or (hs : cc.Sane) {l : Syn .listable} {r : Syn .rest} {g s t t' E : Str} (hg : Gap cc g) (hsl : Layout cc s)
    (h : ListableW cc l t' t) (ih : RestW cc r E t') : RestW cc (.or l r) E (g ++ '|' :: '|' :: (s ++ t)) := by
  intro rest hr hm
  obtain ⟨R, cs, h1, h2, h3, h4⟩ := ih rest hr hm
  obtain ⟨g1, g2⟩ := h.2 _ h1 h2
  obtain ⟨ns, h5⟩ := layout_lines hs hsl g2.nb g2.noLine
  have hlx := lex_or hs (s ++ t)
  refine ⟨'|' :: '|' :: (s ++ t), (ns, .Or l.ast) :: cs, After.gap hg (.refl (stopAt_char (by decide)) (by simp)),
    by rw [hlx]; simp, ?_, by rw [ast_or, ← h4]; rfl⟩
  rw [hlx]
  exact .andOrOr (.refl (by simp [Gram.NoBlank])) h5 g1 h3

theorem commandW_one {job : Bool} {l : Syn .listable} {r : Syn .rest} {t t' E : Str} (h : ListableW cc l t' t) (ih : RestW cc r E t') :
    CommandW cc (.command job l r) E t := by
  refine ⟨h.1, fun rest hE hm => ?_⟩
  obtain ⟨R, cs, h1, h2, h3, h4⟩ := ih rest hE hm
  obtain ⟨g1, g2⟩ := h.2 _ h1 h2
  refine ⟨g2, fun k n r' hk hjob ns => ?_⟩
  have hc : Gram.Calls (B := DefaultBuilder) (.andOrList l.ast cs) () ⟨l.ast, r.ast⟩ () := by rw [← h4]; rfl
  refine .complete (.andOr g1 h3 hc) hk ?_
  have hj : (Syn.command job l r).isJob = job := rfl
  rw [hj] at hjob
  rw [ast_command]
  cases job with
  | false => cases k <;> first | rfl | exact absurd (hjob.1 rfl) (by decide)
  | true => obtain rfl := hjob.2 rfl; rfl

/-! ## Substitutions -/

theorem expW_cmdSubst (hs : cc.Sane) {cs : Syn .commands} {t rest : Str} (h : CommandsW cc true cs (')' :: rest) t)
    (hp : t.head? ≠ some '(') : ExpW cc (.cmdSubst cs) rest ('$' :: '(' :: t) := by
  have hcl := lex_rpar hs rest
  obtain ⟨ms, h1⟩ := h.2 parenDelim ⟨by simp [parenDelim], by simp [parenDelim], by simp [parenDelim]⟩
    ⟨by rw [hcl]; simp [Gram.NoBlank], by rw [hcl]; intro r; simp, by rw [hcl]; exact .inl (.inl ⟨.ParenClose, by simp [parenDelim], _, rfl⟩)⟩
    (by simp) (fun _ => .inr (.inl rfl))
  refine ⟨.Subst (.Command ⟨cs.ast, ms⟩), .inl ?_, rfl, by simp⟩
  rw [lex_dollar hs (by intro c hc; cases hc; decide), lex_lpar hs]
  rw [hcl] at h1
  refine .commandSubst ?_ (.subshell h1 (fun _ => rfl))
  rintro l' e
  injection e with _ e
  have hcat := C01_concat_tokens cc t
  rw [e, concatTokens_cons] at hcat
  exact hp (by rw [← hcat]; rfl)

theorem expW_backticks (hs : cc.Sane) {cs : Syn .commands} {t rest : Str} (h : CommandsW cc true cs [] t) (hc : ∀ c ∈ t, c ∉ "\\`'\"({".toList) :
    ExpW cc (.cmdSubst cs) rest ('`' :: (t ++ '`' :: rest)) := by
  obtain ⟨ms, h1⟩ := h.2 noDelim ⟨by simp [noDelim], by simp [noDelim], by simp [noDelim]⟩
    ⟨by rw [lex_nil]; simp [Gram.NoBlank], by rw [lex_nil]; intro r; simp, .inr lex_nil⟩ (by simp) (fun _ => .inl rfl)
  rw [lex_nil] at h1
  have hop : opStart '`' := by rw [opStart_iff]; decide
  have hbt : ∀ x : Str, lex cc ('`' :: x) = .Backtick :: lex cc x := fun x => lex_end hs .Backtick x (by decide) (by decide)
  have hlx : lex cc ('`' :: (t ++ '`' :: rest)) = .Backtick :: lex cc t ++ .Backtick :: lex cc rest := by
    rw [hbt, lex_break t '`' rest (fun hm => hc _ hm (by decide)) (fun hp => hp.2.1 hop) (by unfold Starter; decide)
      (fun hb => absurd hop (blank_not_op hs hb).1), hbt]
    rfl
  have htok : ∀ k ∈ lex cc t, ∀ c ∈ "\\`'\"({".toList, k.asStr ≠ [c] := by
    intro k hk c hm e
    refine hc c ?_ hm
    rw [← C01_concat_tokens cc t]
    exact List.mem_flatMap.2 ⟨k, hk, by rw [e]; simp⟩
  have hbody : ∀ ts : List Token, (∀ k ∈ ts, ∀ c ∈ "\\`'\"({".toList, k.asStr ≠ [c]) →
      Spec.Body .Backtick (anywhere ts) ∧ Gram.unescape ts = ts := by
    intro ts
    induction ts with
    | nil => exact fun _ => ⟨.nil, rfl⟩
    | cons k ts ih =>
      intro h
      obtain ⟨i1, i2⟩ := ih fun k hk => h k (by simp [hk])
      have hk := h k (by simp)
      have n1 : k ≠ .Backslash := by rintro rfl; exact hk '\\' (by decide) rfl
      have n2 : k ≠ .Backtick := by rintro rfl; exact hk '`' (by decide) rfl
      have n3 : k ≠ .SingleQuote := by rintro rfl; exact hk '\'' (by decide) rfl
      have n4 : k ≠ .DoubleQuote := by rintro rfl; exact hk '"' (by decide) rfl
      have n5 : k ≠ .ParenOpen := by rintro rfl; exact hk '(' (by decide) rfl
      constructor
      · by_cases hd : k = .Dollar
        · subst hd
          refine .dollar (by simp) ?_ i1
          cases ts with
          | nil => simp [anywhere]
          | cons k' ts =>
            intro e
            have : k' = .CurlyOpen := by simpa [anywhere] using e
            subst this
            exact h .CurlyOpen (by simp) '{' (by decide) rfl
        · refine .plain (by simp) n2 ⟨n1, hd, ?_⟩ i1
          intro c' ho
          generalize hk' : ((⟨0, 1, 1⟩, k) : Spec.PTok).2 = k' at ho
          have hk' : k = k' := hk'
          cases ho with
          | backtick => exact n2 hk'
          | squote => exact n3 hk'
          | dquote => exact n4 hk'
          | paren => exact n5 hk'
      · cases ts with
        | nil => rfl
        | cons k' ts =>
          have i2' : (Spec.unescape (anywhere (k' :: ts))).map (·.2) = k' :: ts := i2
          show (Spec.unescape ((⟨0, 1, 1⟩, k) :: (⟨0, 1, 1⟩, k') :: anywhere ts)).map (·.2) = _
          rw [Spec.unescape, if_neg n1]
          simp only [List.map_cons]
          exact congrArg _ i2'
  obtain ⟨b1, b2⟩ := hbody _ htok
  refine ⟨.CommandSubst ⟨cs.ast, ms⟩, .inr ?_, rfl, by simp⟩
  rw [hlx]
  refine .backtick b1 ?_
  rw [b2]
  exact h1

end
end Conch
