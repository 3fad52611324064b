import Verif.Compose
import Verif.PropsArgs
/-!
# C53: a script can be put into any compound command
-/
namespace Conch
open Spec Gram

/-! ## Specification -/

/-- The text `p` is a whole script, with the commands `cs`: whatever text follows it on the next line, the parser
yields these commands and is then before that text (up to blank lines and comments). -/
def Spec.Whole (cc : CharClass) (p : Str) (cs : List SCommand) : Prop :=
  ∀ q ns r, Parses .linebreak (parserOn (B := DefaultBuilder) (lex cc q) ()) ns r () →
    ∃ s ns', Yields ⟨some (PSt.new (B := DefaultBuilder) (lex cc (p ++ '\n' :: q)) ())⟩ (cs.map .ok) ⟨some s⟩ ∧
      Parses .linebreak s ns' r ()

/-- A command of its own: one pipeable command, in the foreground. -/
def Spec.one (c : SPipeable) : SCommand := .mk (.List ⟨.Single c, []⟩)

/-- A compound command without redirections. -/
def Spec.comp (k : CompoundCommandKind Str SWord SCommand) : SCommand := one (.Compound ⟨k, []⟩)

/-- A script that can stand in a place that the words `ws` end: it has commands, and none of them starts with one of
these words. -/
def Spec.Fits (ws : List String) (cs : List SCommand) : Prop :=
  cs ≠ [] ∧ ∀ c ∈ cs, ∀ w ∈ ws, opens c ≠ some w.toList

def Spec.subshellText (p : Str) : Str := '(' :: p ++ "\n)".toList
/-- Lines of text. -/
def Spec.lines : List Str → Str
  | [] => []
  | [p] => p
  | p :: q :: ps => p ++ '\n' :: lines (q :: ps)
def Spec.braceText (p : Str) : Str := lines ["{".toList, p, "}".toList]
def Spec.loopText' (k : LoopKind) (p q : Str) : Str :=
  lines [(match k with | .While => "while".toList | .Until => "until".toList), p, "do".toList, q, "done".toList]
/-- What follows the first `then` part. -/
def Spec.ifRest : List (Str × Str) → Option Str → List Str
  | [], none => ["fi".toList]
  | [], some e => ["else".toList, e, "fi".toList]
  | (p, q) :: as, e => "elif".toList :: p :: "then".toList :: q :: ifRest as e
def Spec.ifText (p q : Str) (as : List (Str × Str)) (e : Option Str) : Str :=
  lines ("if".toList :: p :: "then".toList :: q :: ifRest as e)

/-! ## Yielding up to a line -/

section
variable {B : Builder}

theorem progTo_yields {b b' : B.State} {t l : List Token} {cs : List B.Command} (h : ProgTo t b l cs b') :
    ∀ s : PSt CIter B, s.tokens = l → s.b = b →
      ∃ s' ns, Yields ⟨some s⟩ (cs.map .ok) ⟨some s'⟩ ∧ Parses .linebreak s' ns t b' := by
  induction h with
  | done h => rintro s rfl rfl; exact ⟨s, _, .nil, C31_parser_accepts_grammar .linebreak trivial _ _ _ _ ⟨h, rfl⟩⟩
  | cons h _ ih =>
    rintro s rfl rfl
    obtain ⟨s', h1, h2, h3⟩ := next_some (top_iff.2 h)
    obtain ⟨s2, ns, h4, h5⟩ := ih s' h2 h3
    exact ⟨s2, ns, .cons h1 h4, h5⟩

theorem yields_progTo {s s' : PSt CIter B} {cs : List B.Command} {ns : List Nl} {t : List Token}
    {b : B.State} (h : Yields ⟨some s⟩ (cs.map .ok) ⟨some s'⟩) (hl : Parses .linebreak s' ns t b) :
    ∃ b', ProgTo t s.b s.tokens cs b' := by
  induction cs generalizing s with
  | nil =>
    cases h
    exact ⟨_, .done (C31_parser_within_grammar .linebreak trivial _ _ _ _ hl).1⟩
  | cons c cs ih =>
    cases h with
    | cons h1 h2 =>
      obtain ⟨s1, rfl, h3⟩ := of_next_some h1
      obtain ⟨b', h4⟩ := ih h2
      exact ⟨b', .cons (top_iff.1 h3) h4⟩

end

abbrev u : DefaultBuilder.State := ()

variable {cc : CharClass}

theorem whole_iff {p : Str} {cs : List SCommand} :
    Whole cc p cs ↔ ∀ q ns r, Gram.Lines (lex cc q) ns r → ProgTo (B := DefaultBuilder) r u (lex cc (p ++ '\n' :: q)) cs u := by
  have hl : ∀ q ns r, Parses .linebreak (parserOn (B := DefaultBuilder) (lex cc q) ()) ns r () ↔ Gram.Lines (lex cc q) ns r := by
    intro q ns r
    rw [C31_parser_exact .linebreak trivial]
    show (Gram.Lines (parserOn (B := DefaultBuilder) (lex cc q) ()).tokens ns r ∧ _) ↔ _
    rw [PSt.tokens, parserOn_rest]
    simp
  have ht : ∀ q, (PSt.new (B := DefaultBuilder) (lex cc (p ++ '\n' :: q)) ()).tokens = lex cc (p ++ '\n' :: q) :=
    fun q => parserOn_rest _ _
  constructor
  · intro h q ns r hq
    obtain ⟨s, ns', h1, h2⟩ := h q ns r ((hl q ns r).2 hq)
    obtain ⟨b', h3⟩ := yields_progTo h1 h2
    rw [ht] at h3
    exact h3
  · intro h q ns r hq
    obtain ⟨s, ns', h1, h2⟩ := progTo_yields (h q ns r ((hl q ns r).1 hq)) _ (ht q) rfl
    exact ⟨s, ns', h1, h2⟩

theorem ProgTo.append {z : Option Token} {t1 q l l' r : List Token} {b b' : DefaultBuilder.State} {cs : List SCommand} {ms : List Nl}
    (hz : Probe z t1) (h : ProgTo (B := DefaultBuilder) t1 b l cs b') (e : Ends z t1 q l l') (hq : Gram.Lines q ms r) :
    ProgTo (B := DefaultBuilder) r b l' cs b' := by
  induction h generalizing l' with
  | done h => exact .done (Lines.append h (.inr e) hq)
  | @cons b l c r1 b' cs1 b'' h h2 ih =>
    have hp := h2.part
    have hlive : Gram.live z r1 = r1.length := by
      cases z with
      | none => rfl
      | some k =>
        obtain ⟨-, rfl⟩ := hz k rfl
        simp [Gram.live, hp.2 k (by simp)]
    by_cases hlen : t1.length < r1.length
    · obtain ⟨r', e2, h3⟩ := Reads.ends hz h trivial _ e (by omega)
      exact .cons h3 (ih e2)
    · have hlen : r1.length = t1.length := by have := hp.1; omega
      obtain rfl := h2.length (by omega)
      exact .cons (e.top_end hz h (by omega)) (.done hq)

theorem Lines.self {l r : List Token} {ns : List Nl} (h : Gram.Lines l ns r) : Gram.Lines r [] r := by
  induction h with
  | nil h1 h2 => exact .nil (.refl h1.noBlank) h2
  | cons _ _ ih => exact ih

/-- Lines before a script make no difference. -/
theorem ProgTo.lines {t r l : List Token} {b b' : DefaultBuilder.State} {cs : List SCommand} {ns : List Nl}
    (hl : Gram.Lines l ns t) : ProgTo (B := DefaultBuilder) r b t cs b' ↔ ProgTo (B := DefaultBuilder) r b l cs b' := by
  have h0 := Lines.self hl
  constructor
  · intro h
    cases h with
    | done h1 =>
      obtain ⟨rfl, rfl⟩ := Lines.unique h0 h1
      exact .done hl
    | cons h1 h2 =>
      cases h1 with
      | topCommand h3 h4 h5 =>
        obtain ⟨rfl, rfl⟩ := Lines.unique h0 h3
        exact .cons (.topCommand hl h4 (complete_pre h5)) h2
  · intro h
    cases h with
    | done h1 =>
      obtain ⟨rfl, rfl⟩ := Lines.unique hl h1
      exact .done h0
    | cons h1 h2 =>
      cases h1 with
      | topCommand h3 h4 h5 =>
        obtain ⟨rfl, rfl⟩ := Lines.unique hl h3
        exact .cons (.topCommand h0 h4 (complete_pre h5)) h2

theorem ProgTo.trans {t r l : List Token} {b b' b'' : DefaultBuilder.State} {cs ds : List SCommand}
    (h : ProgTo (B := DefaultBuilder) t b l cs b') (h2 : ProgTo (B := DefaultBuilder) r b' t ds b'') :
    ProgTo (B := DefaultBuilder) r b l (cs ++ ds) b'' := by
  induction h with
  | done h => exact (ProgTo.lines h).1 h2
  | cons h _ ih => exact .cons h (ih h2)

/-! ## Whole scripts -/

/-- **C53.** A text that parses is a whole script, if it has no here-documents and does not end in a backslash. -/
theorem C53_whole_of_parse (cc : CharClass) (hs : cc.Sane) (p : Str) (cs : List SCommand)
    (hhere : ¬ ['<', '<'] <:+: p) (hlast : p.getLast? ≠ some '\\') (hp : ParsesTo cc (p ++ ['\n']) cs) : Whole cc p cs := by
  rw [whole_iff]
  intro q ns r hq
  rw [parsesTo_iff (b := u)] at hp
  have e1 : lex cc (p ++ ['\n']) = lex cc p ++ [.Newline] := by
    rw [lex_line hs p []]; rfl
  rw [e1] at hp
  obtain ⟨_, hp⟩ := hp.to
  rw [lex_line hs p q]
  exact hp.append probe_none ⟨_, lex_plain hhere hlast, rfl, rfl⟩ hq

/-- **C53.** So is a text with here-documents that are closed. -/
theorem C53_whole_of_heredoc (cc : CharClass) (hs : cc.Sane) (p w : Str) (cs : List SCommand)
    (hw : lex cc w = [.Name w]) (hfresh : ¬ w <:+: p) (hlast : p.getLast? ≠ some '\\')
    (hlines : ¬ ['\\', '\\', '\n'] <:+: p) (hp : Leaves cc (p ++ '\n' :: w) cs w) : Whole cc p cs := by
  rw [whole_iff]
  intro q ns r hq
  obtain ⟨s, ns, b0, hp, hl⟩ := hp
  obtain ⟨b', hp⟩ := leaves_progTo hp hl
  have ht : (PSt.new (B := DefaultBuilder) (lex cc (p ++ '\n' :: w)) ()).tokens = lex cc (p ++ '\n' :: w) := parserOn_rest _ _
  rw [ht, lex_line hs p w, hw] at hp
  rw [lex_line hs p q]
  exact hp.append probe_some ⟨_, lex_plain_probe hfresh hlast hlines, rfl, rfl⟩ hq

theorem lines_nil : Gram.Lines [] [] [] := .nil (.refl (by simp [Gram.NoBlank])) (by simp [Gram.NoLineStart])

theorem top_lines {b b' : DefaultBuilder.State} {l t r : List Token} {ns : List Nl} {a : Option SCommand} (hl : Gram.Lines l ns t) :
    Reads (B := DefaultBuilder) .top b t a r b' ↔ Reads (B := DefaultBuilder) .top b l a r b' := by
  have h0 := Lines.self hl
  constructor
  · intro h
    cases h with
    | topCommand h3 h4 h5 =>
      obtain ⟨rfl, rfl⟩ := Lines.unique h0 h3
      exact .topCommand (ns := ns) hl h4 (complete_pre h5)
    | topNone h1 =>
      obtain ⟨-, rfl⟩ := Lines.unique h0 h1
      by_cases hn : ns = []
      · subst hn; exact .topNone hl
      · exact .topComments hl hn rfl
    | topComments h1 h2 h3 =>
      obtain ⟨rfl, rfl⟩ := Lines.unique h0 h1
      exact absurd rfl h2
  · intro h
    cases h with
    | topCommand h3 h4 h5 =>
      obtain ⟨rfl, rfl⟩ := Lines.unique hl h3
      exact .topCommand (ns := []) h0 h4 (complete_pre h5)
    | topNone h1 =>
      obtain ⟨-, rfl⟩ := Lines.unique hl h1
      exact .topNone h0
    | topComments h1 h2 h3 =>
      obtain ⟨-, rfl⟩ := Lines.unique hl h1
      exact .topNone h0

theorem prog_lines {b : DefaultBuilder.State} {l t : List Token} {ns : List Nl} {cs : List SCommand} (hl : Gram.Lines l ns t) :
    Prog (B := DefaultBuilder) b t cs ↔ Prog (B := DefaultBuilder) b l cs := by
  constructor
  · intro h
    cases h with
    | done h => exact .done ((top_lines hl).1 h)
    | cons h h2 => exact .cons ((top_lines hl).1 h) h2
  · intro h
    cases h with
    | done h => exact .done ((top_lines hl).2 h)
    | cons h h2 => exact .cons ((top_lines hl).2 h) h2

theorem ProgTo.prog {b b' : DefaultBuilder.State} {r l : List Token} {cs cs' : List SCommand} (h : ProgTo (B := DefaultBuilder) r b l cs b') :
    Prog (B := DefaultBuilder) b l cs' ↔ ∃ ds, Prog (B := DefaultBuilder) b' r ds ∧ cs' = cs ++ ds := by
  induction h generalizing cs' with
  | done h => rw [← prog_lines h]; simp
  | cons h _ ih =>
    constructor
    · intro hp
      obtain ⟨cs2, rfl, hp2⟩ := prog_cons_unique h hp
      obtain ⟨ds, h1, rfl⟩ := ih.1 hp2
      exact ⟨ds, h1, rfl⟩
    · rintro ⟨ds, h1, rfl⟩
      exact .cons h (ih.2 ⟨ds, h1, rfl⟩)

/-- **C53.** The commands of a whole script are those the parser yields from it: whatever follows on the next line
yields its commands after them, and there is an error if what follows has one. -/
theorem C53_whole_parses (cc : CharClass) (p q : Str) (cs cs' : List SCommand) (hp : Whole cc p cs) :
    ParsesTo cc (p ++ '\n' :: q) cs' ↔ ∃ ds, ParsesTo cc q ds ∧ cs' = cs ++ ds := by
  rw [whole_iff] at hp
  simp only [parsesTo_iff (b := u)]
  obtain ⟨ns, r, hl⟩ := Lines.total (lex cc q)
  rw [(hp q ns r hl).prog]
  simp only [prog_lines hl]

/-- **C53.** One script after the other. -/
theorem C53_sequence (cc : CharClass) (p q : Str) (cs ds : List SCommand) (hp : Whole cc p cs) (hq : Whole cc q ds) :
    Whole cc (p ++ '\n' :: q) (cs ++ ds) := by
  rw [whole_iff] at *
  intro x ns r hx
  obtain ⟨ms, t, hl⟩ := Lines.total (lex cc (q ++ '\n' :: x))
  have := (hp (q ++ '\n' :: x) ms t hl).trans ((ProgTo.lines hl).2 (hq x ns r hx))
  simpa using this

theorem Spec.lines_cons (p : Str) {ps : List Str} (h : ps ≠ []) (x : Str) : lines (p :: ps) ++ '\n' :: x = p ++ '\n' :: (lines ps ++ '\n' :: x) := by
  cases ps with
  | nil => exact absurd rfl h
  | cons => simp [lines]

theorem ifRest_ne (as : List (Str × Str)) (e : Option Str) : ifRest as e ≠ [] := by
  rcases as with _ | ⟨a, as⟩ <;> rcases e with _ | e <;> exact List.cons_ne_nil _ _

theorem loopText_eq (k : LoopKind) (p q x : Str) : loopText' k p q ++ '\n' :: x =
    loopWord k ++ '\n' :: (p ++ '\n' :: (DO ++ '\n' :: (q ++ '\n' :: (DONE ++ '\n' :: x)))) := by
  have e : loopText' k p q = lines [loopWord k, p, DO, q, DONE] := by cases k <;> rfl
  rw [e]
  simp [lines]

theorem ifRest_fi (x : Str) : lines (ifRest [] none) ++ '\n' :: x = FI ++ '\n' :: x := rfl

theorem ifRest_else (y x : Str) : lines (ifRest [] (some y)) ++ '\n' :: x = ELSE ++ '\n' :: (y ++ '\n' :: (FI ++ '\n' :: x)) := by
  have e : ifRest [] (some y) = [ELSE, y, FI] := rfl
  rw [e]
  simp [lines]

theorem ifRest_elif (p q : Str) (as : List (Str × Str)) (e : Option Str) (x : Str) : lines (ifRest ((p, q) :: as) e) ++ '\n' :: x =
    ELIF ++ '\n' :: (p ++ '\n' :: (THEN ++ '\n' :: (q ++ '\n' :: (lines (ifRest as e) ++ '\n' :: x)))) := by
  have h : ifRest ((p, q) :: as) e = ELIF :: p :: THEN :: q :: ifRest as e := rfl
  rw [h, lines_cons _ (by simp), lines_cons _ (by simp), lines_cons _ (by simp), lines_cons _ (ifRest_ne _ _)]

theorem ifText_eq (p q : Str) (as : List (Str × Str)) (e : Option Str) (x : Str) : ifText p q as e ++ '\n' :: x =
    IF ++ '\n' :: (p ++ '\n' :: (THEN ++ '\n' :: (q ++ '\n' :: (lines (ifRest as e) ++ '\n' :: x)))) := by
  have h : ifText p q as e = lines (IF :: p :: THEN :: q :: ifRest as e) := rfl
  rw [h, lines_cons _ (by simp), lines_cons _ (by simp), lines_cons _ (by simp), lines_cons _ (ifRest_ne _ _)]

/-! ## Compound commands -/

theorem redirects_nl (l : List Token) : RD .redirects (.Newline :: l) [] (.Newline :: l) := by
  have he : Gram.EndsWord (.Newline :: l) := ends_newline l
  exact .redirectsNil (.refl (by simp [Gram.NoBlank])) (.noRedirect (.someWord (ws := []) (.refl (by simp [Gram.NoBlank])) (by simp) (.endWord he))
    (by rintro t r e; cases e; decide))

/-- The text is one command, up to the end of its line. -/
def LineCommand (cc : CharClass) (p : Str) (c : SPipeable) : Prop := ∀ q, ∃ l, lex cc (p ++ '\n' :: q) = l ∧ CmdStart l ∧
    (∀ l', l ≠ .Bang :: l') ∧ RD .command l c (.Newline :: lex cc q)

/-- A text that is one command, up to the end of its line, is a whole script. -/
theorem whole_command {p : Str} {c : SPipeable} (h : LineCommand cc p c) : Whole cc p [one c] := by
  rw [whole_iff]
  intro q ns r hq
  obtain ⟨l, e, h1, h2, h3⟩ := h q
  rw [e]
  refine .cons (r := lex cc q) (.topCommand h1.lines h1.not_nil ?_) (.done hq)
  have hp : RD .pipeline l (.Single c) (.Newline :: lex cc q) :=
    .pipeline (.refl h1.nb) (.inr ⟨rfl, rfl, h2⟩) (.pipeLast h2 h3 (by simp)) rfl
  exact .complete (.andOr hp (.andOrEnd (.refl (by simp [Gram.NoBlank])) (by simp)) rfl)
    (.newline (.newline (bs := []) .nil) (by simp)) rfl

theorem line_compound {p : Str} {k : CompoundCommandKind Str SWord SCommand} (h : ∀ q, ∃ l kw, lex cc (p ++ '\n' :: q) = l ∧
    CmdStart l ∧ (∀ l', l ≠ .Bang :: l') ∧ CompoundStart l kw ∧ RD (.compound kw) l ⟨k, []⟩ (.Newline :: lex cc q)) :
    LineCommand cc p (.Compound ⟨k, []⟩) := by
  intro q
  obtain ⟨l, kw, h1, h2, h3, h4, h5⟩ := h q
  exact ⟨l, h1, h2, h3, .commandCompound (.refl h2.nb) h4 h5 rfl⟩

/-- A whole script up to the end of a group. -/
theorem Spec.Whole.group {p : Str} {cs : List SCommand} (h : Whole cc p cs) {cfg : Delims} (hg : Grp cfg) {q : Str}
    (hq : _root_.Conch.Closer cfg (lex cc q)) (hc : ∀ c ∈ cs, ∀ w ∈ groupEnds cfg, Spec.opens c ≠ some w) :
    ∃ ns, RD (.group cfg) (lex cc (p ++ '\n' :: q)) ⟨cs, ns⟩ (lex cc q) :=
  (whole_iff.1 h q [] _ (.nil (.refl hq.nb) hq.noLine)).group hg hq.delim hc

theorem group_newline {b b' : DefaultBuilder.State} {cfg : Delims} {l r : List Token} {g : CommandGroup SCommand}
    (h : Reads (B := DefaultBuilder) (.group cfg) b l g r b') :
    ∃ ms, Reads (B := DefaultBuilder) (.group cfg) b (.Newline :: l) ⟨g.commands, ms⟩ r b' := by
  have hn : Gram.Line (.Newline :: l) ⟨none⟩ l := .newline (bs := []) .nil
  cases h with
  | groupEnd h1 h2 => exact ⟨_, .groupEnd (.cons hn h1) h2⟩
  | groupCons h1 h2 h3 h4 h5 => exact ⟨_, .groupCons (ns := ⟨none⟩ :: _) (.cons hn h1) h2 h3 (complete_pre h4) h5⟩

section
variable (hs : cc.Sane)
include hs

theorem close_paren (q : Str) : lex cc (')' :: '\n' :: q) = .ParenClose :: .Newline :: lex cc q := by
  rw [← lex_newline]
  exact lex_end hs .ParenClose _ (by decide) (by decide)

theorem close_brace (q : Str) : lex cc ('}' :: '\n' :: q) = .CurlyClose :: .Newline :: lex cc q := by
  rw [← lex_newline]
  exact lex_close hs _

theorem open_paren (q : Str) : lex cc ('(' :: q) = .ParenOpen :: lex cc q :=
  lex_end hs .ParenOpen _ (by decide) (by decide)

theorem open_brace (q : Str) : lex cc ('{' :: '\n' :: q) = .CurlyOpen :: .Newline :: lex cc q := by
  rw [← lex_newline]
  exact lex_end hs .CurlyOpen _ (by decide) (by decide)

/-- The command of `C53_subshell`. -/
theorem line_subshell (p : Str) (cs : List SCommand) (hp : Whole cc p cs) (hc : cs ≠ []) :
    LineCommand cc (subshellText p) (.Compound ⟨.Subshell cs, []⟩) := by
  refine line_compound fun q => ⟨_, .Subshell, rfl, ?_⟩
  have e : subshellText p ++ '\n' :: q = '(' :: (p ++ '\n' :: ')' :: '\n' :: q) := by simp [subshellText]
  have hcl := close_paren hs q
  obtain ⟨ns, h⟩ := hp.group (cfg := parenDelim) (q := ')' :: '\n' :: q) ⟨by simp [parenDelim, EndTok], by simp [parenDelim], by simp [parenDelim]⟩
    (by rw [hcl]; exact ⟨by simp [Gram.NoBlank], by intro r; simp, .inl (.inl ⟨_, by simp [parenDelim], _, rfl⟩)⟩)
    (by simp [groupEnds, parenDelim])
  rw [hcl] at h
  rw [e, open_paren hs]
  refine ⟨⟨by simp [Gram.NoBlank], ⟨_, _, rfl, by simp⟩, ?_⟩, by simp, .subshell, .compoundSubshell (.subshell h (fun e => absurd e hc)) (redirects_nl _) rfl⟩
  rintro x hx r ⟨e | e, -⟩ <;> cases e

/-- **C53.** In parentheses a script is a subshell with its commands. -/
theorem C53_subshell (p : Str) (cs : List SCommand) (hp : Whole cc p cs) (hc : cs ≠ []) :
    Whole cc (subshellText p) [comp (.Subshell cs)] :=
  whole_command (line_subshell hs p cs hp hc)

/-- The command of `C53_braces`. -/
theorem line_braces (p : Str) (cs : List SCommand) (hp : Whole cc p cs) (hc : Fits ["}"] cs) :
    LineCommand cc (braceText p) (.Compound ⟨.Brace cs, []⟩) := by
  refine line_compound fun q => ⟨_, .Brace, rfl, ?_⟩
  have e : braceText p ++ '\n' :: q = '{' :: '\n' :: (p ++ '\n' :: '}' :: '\n' :: q) := by
    have h : braceText p = lines [['{'], p, ['}']] := rfl
    rw [h]
    simp [lines]
  have hcl := close_brace hs q
  obtain ⟨ns, h⟩ := hp.group (cfg := braceDelim) (q := '}' :: '\n' :: q) ⟨by simp [braceDelim], by simp [braceDelim], by simp [braceDelim]⟩
    (by rw [hcl]; exact ⟨by simp [Gram.NoBlank], by intro r; simp, .inl (.inr (.inr ⟨_, by simp [braceDelim], _, rfl, ends_newline _⟩))⟩)
    (by intro c hc' w hw; have := hc.2 c hc' "}" (by simp); simp [groupEnds, braceDelim] at hw; subst hw; exact this)
  rw [hcl] at h
  obtain ⟨ms, h⟩ := group_newline h
  rw [e, open_brace hs]
  refine ⟨⟨by simp [Gram.NoBlank], ⟨_, _, rfl, by simp⟩, ?_⟩, by simp, .brace (ends_newline _),
    .compoundBrace (.brace (.refl (by simp [Gram.NoBlank])) (ends_newline _) h hc.1 (.refl (by simp [Gram.NoBlank])) (ends_newline _)) (redirects_nl _) rfl⟩
  rintro x hx r ⟨e | e, -⟩ <;> cases e

/-- **C53.** In braces it is a group with its commands, unless one of them starts with the word `}`. -/
theorem C53_braces (p : Str) (cs : List SCommand) (hp : Whole cc p cs) (hc : Fits ["}"] cs) :
    Whole cc (braceText p) [comp (.Brace cs)] :=
  whole_command (line_braces hs p cs hp hc)

variable (hl : Latin cc)
include hl

theorem kw_line {w : Str} (hw : Letters w) (X : Str) : lex cc (w ++ '\n' :: X) = .Name w :: .Newline :: lex cc X := by
  rw [lex_kwW hs hl hw (tail_op (by decide)), lex_newline]

/-- A keyword at the end of a line. -/
theorem kw_line_read {w : Str} (hw : Letters w) (X : Str) : Gram.Kw w (lex cc (w ++ '\n' :: X)) (.Newline :: lex cc X) := by
  rw [kw_line hs hl hw]
  exact ⟨_, .refl (name_nb _ _), .inl rfl, ends_newline _⟩

/-- A whole script up to a word on a line of its own. -/
theorem Spec.Whole.words {p : Str} {cs : List SCommand} (h : Whole cc p cs) {ws : List String} (hf : Fits ws cs) (wl : List Str)
    (hwl : wl = ws.map String.toList) (hi : ∀ w ∈ wl, w ∈ inner) {w : Str} (hw : Letters w) (hm : w ∈ wl) (q : Str) :
    ∃ ns, RD (.group (wordDelim wl)) (.Newline :: lex cc (p ++ '\n' :: (w ++ '\n' :: q))) ⟨cs, ns⟩
      (lex cc (w ++ '\n' :: q)) := by
  have hg : Grp (wordDelim wl) := ⟨by simp [wordDelim], hi, by simp [wordDelim]⟩
  obtain ⟨ns, h⟩ := h.group hg (q := w ++ '\n' :: q) (kw_closer hs hl hw (tail_op (by decide)) hm) (by
    intro c hc x hx
    obtain ⟨y, hy, rfl⟩ := List.mem_map.1 (show x ∈ ws.map String.toList by simpa [groupEnds, wordDelim, hwl] using hx)
    exact hf.2 c hc y hy)
  exact group_newline h

theorem do_line {q : Str} {ds : List SCommand} (hq : Whole cc q ds) (hf : Fits ["done"] ds) (X : Str) :
    ∃ ns, RD .doGroup (lex cc (DO ++ '\n' :: (q ++ '\n' :: (DONE ++ '\n' :: X)))) ⟨ds, ns⟩ (.Newline :: lex cc X) := by
  obtain ⟨ns, h⟩ := hq.words hs hl hf [DONE] (by decide) (by decide) (w := DONE) (by decide) (by decide) X
  exact ⟨ns, .doGroup (kw_line_read hs hl (by decide) _) h hf.1 (kw_line_read hs hl (by decide) _)⟩

/-- The command of `C53_loop`. -/
theorem line_loop (k : LoopKind) (p q : Str) (cs ds : List SCommand) (hp : Whole cc p cs) (hq : Whole cc q ds)
    (hc : Fits ["do"] cs) (hd : Fits ["done"] ds) :
    LineCommand cc (loopText' k p q) (.Compound ⟨match k with | .While => .While ⟨cs, ds⟩ | .Until => .Until ⟨cs, ds⟩, []⟩) := by
  refine line_compound fun x => ⟨_, (match k with | .While => .While | .Until => .Until), rfl, ?_⟩
  have e := loopText_eq k p q x
  have hlet : Letters (loopWord k) ∧ loopWord k ∉ inner := by cases k <;> decide
  obtain ⟨ns, h1⟩ := hp.words hs hl hc [DO] (by decide) (by decide) (w := DO) (by decide) (by decide) (q ++ '\n' :: (DONE ++ '\n' :: x))
  obtain ⟨ms, h2⟩ := do_line hs hl hq hd x
  rw [e]
  have hst := start_kwW hs hl hlet.1 hlet.2 (R := '\n' :: (p ++ '\n' :: (DO ++ '\n' :: (q ++ '\n' :: (DONE ++ '\n' :: x))))) (tail_op (by decide))
  refine ⟨hst.1, hst.2, ?_⟩
  have hk := keywordW hs hl hlet.1 (R := '\n' :: (p ++ '\n' :: (DO ++ '\n' :: (q ++ '\n' :: (DONE ++ '\n' :: x))))) (tail_op (by decide))
  have hr := Reads.loopCommand (B := DefaultBuilder) (k := k) (kw_line_read hs hl hlet.1 _) h1 hc.1 h2
  cases k with
  | While => exact ⟨.whileKw hk, .compoundLoop (.inl rfl) hr (redirects_nl _) rfl⟩
  | Until => exact ⟨.untilKw hk, .compoundLoop (.inr rfl) hr (redirects_nl _) rfl⟩

/-- **C53.** Loops. -/
theorem C53_loop (k : LoopKind) (p q : Str) (cs ds : List SCommand) (hp : Whole cc p cs) (hq : Whole cc q ds)
    (hc : Fits ["do"] cs) (hd : Fits ["done"] ds) :
    Whole cc (loopText' k p q) [comp (match k with | .While => .While ⟨cs, ds⟩ | .Until => .Until ⟨cs, ds⟩)] :=
  whole_command (line_loop hs hl k p q cs ds hp hq hc hd)

/-- The condition and the body of an `if` or `elif`. -/
def Spec.ArmOk (cc : CharClass) (a : (Str × Str) × GuardBodyPair SCommand) : Prop :=
  Whole cc a.1.1 a.2.guard ∧ Fits ["then"] a.2.guard ∧ Whole cc a.1.2 a.2.body ∧ Fits ["elif", "else", "fi"] a.2.body

theorem if_rest (p q : Str) (g : GuardBodyPair SCommand) (h0 : ArmOk cc ((p, q), g)) (as : List ((Str × Str) × GuardBodyPair SCommand))
    (e : Option (Str × List SCommand)) (has : ∀ a ∈ as, ArmOk cc a) (he : ∀ y, e = some y → Whole cc y.1 y.2 ∧ Fits ["fi"] y.2) (x : Str) :
    ∃ fr, RD .ifArms (.Newline :: lex cc (p ++ '\n' :: (THEN ++ '\n' :: (q ++ '\n' :: (lines (ifRest (as.map (·.1)) (e.map (·.1))) ++ '\n' :: x))))) fr
        (.Newline :: lex cc x) ∧
      fr.conditionals.map (fun p => (⟨p.guard.commands, p.body.commands⟩ : GuardBodyPair SCommand)) = g :: as.map (·.2) ∧
      fr.elseBranch.map (·.commands) = e.map (·.2) := by
  obtain ⟨h1, h2, h3, h4⟩ := h0
  induction as generalizing p q g with
  | nil =>
    cases e with
    | none =>
      obtain ⟨n1, k1⟩ := h1.words hs hl h2 [THEN] (by decide) (by decide) (w := THEN) (by decide) (by decide) (q ++ '\n' :: (FI ++ '\n' :: x))
      obtain ⟨n2, k2⟩ := h3.words hs hl h4 [ELIF, ELSE, FI] (by decide) (by decide) (w := FI) (by decide) (by decide) x
      exact ⟨_, .ifFi k1 h2.1 (kw_line_read hs hl (by decide) _) k2 h4.1 (kw_line_read hs hl (by decide) _), rfl, rfl⟩
    | some y =>
      obtain ⟨y1, y2⟩ := he y rfl
      have e := ifRest_else y.1 x
      obtain ⟨n1, k1⟩ := h1.words hs hl h2 [THEN] (by decide) (by decide) (w := THEN) (by decide) (by decide) (q ++ '\n' :: (ELSE ++ '\n' :: (y.1 ++ '\n' :: (FI ++ '\n' :: x))))
      obtain ⟨n2, k2⟩ := h3.words hs hl h4 [ELIF, ELSE, FI] (by decide) (by decide) (w := ELSE) (by decide) (by decide) (y.1 ++ '\n' :: (FI ++ '\n' :: x))
      obtain ⟨n3, k3⟩ := y1.words hs hl y2 [FI] (by decide) (by decide) (w := FI) (by decide) (by decide) x
      simp only [List.map_nil, Option.map_some]
      rw [e]
      exact ⟨_, .ifElse k1 h2.1 (kw_line_read hs hl (by decide) _) k2 h4.1 (kw_line_read hs hl (by decide) _) k3 y2.1 (kw_line_read hs hl (by decide) _), rfl, rfl⟩
  | cons a as ih =>
    obtain ⟨⟨p', q'⟩, g'⟩ := a
    obtain ⟨i1, i2, i3, i4⟩ := has ((p', q'), g') (by simp)
    obtain ⟨fr, f1, f2, f3⟩ := ih p' q' g' (fun a ha => has a (by simp [ha])) i1 i2 i3 i4
    have e' := ifRest_elif p' q' (as.map (·.1)) (e.map (·.1)) x
    simp only [List.map_cons]
    rw [e']
    generalize lines (ifRest (as.map (·.1)) (e.map (·.1))) ++ '\n' :: x = X at *
    obtain ⟨n1, k1⟩ := h1.words hs hl h2 [THEN] (by decide) (by decide) (w := THEN) (by decide) (by decide)
      (q ++ '\n' :: (ELIF ++ '\n' :: (p' ++ '\n' :: (THEN ++ '\n' :: (q' ++ '\n' :: X)))))
    obtain ⟨n2, k2⟩ := h3.words hs hl h4 [ELIF, ELSE, FI] (by decide) (by decide) (w := ELIF) (by decide) (by decide)
      (p' ++ '\n' :: (THEN ++ '\n' :: (q' ++ '\n' :: X)))
    refine ⟨⟨⟨⟨g.guard, n1⟩, ⟨g.body, n2⟩⟩ :: fr.conditionals, fr.elseBranch⟩,
      .ifElif k1 h2.1 (kw_line_read hs hl (by decide) _) k2 h4.1 (kw_line_read hs hl (by decide) _) f1, ?_, f3⟩
    simp [f2]

/-- The command of `C53_if`. -/
theorem line_if (a : (Str × Str) × GuardBodyPair SCommand) (as : List ((Str × Str) × GuardBodyPair SCommand))
    (e : Option (Str × List SCommand)) (has : ∀ x ∈ a :: as, ArmOk cc x) (he : ∀ y, e = some y → Whole cc y.1 y.2 ∧ Fits ["fi"] y.2) :
    LineCommand cc (ifText a.1.1 a.1.2 (as.map (·.1)) (e.map (·.1))) (.Compound ⟨.If (a.2 :: as.map (·.2)) (e.map (·.2)), []⟩) := by
  refine line_compound fun x => ⟨_, .If, rfl, ?_⟩
  obtain ⟨⟨p, q⟩, g⟩ := a
  obtain ⟨fr, f1, f2, f3⟩ := if_rest hs hl p q g (has _ (by simp)) as e (fun a ha => has a (by simp [ha])) he x
  have e' := ifText_eq p q (as.map (·.1)) (e.map (·.1)) x
  rw [e']
  generalize lines (ifRest (as.map (·.1)) (e.map (·.1))) ++ '\n' :: x = X at *
  have hst := start_kwW hs hl (w := IF) (by decide) (by decide) (R := '\n' :: (p ++ '\n' :: (THEN ++ '\n' :: (q ++ '\n' :: X)))) (tail_op (by decide))
  have hk := keywordW hs hl (w := IF) (by decide) (R := '\n' :: (p ++ '\n' :: (THEN ++ '\n' :: (q ++ '\n' :: X)))) (tail_op (by decide))
  refine ⟨hst.1, hst.2, .ifKw hk, .compoundIf (.ifCommand (kw_line_read hs hl (by decide) _) f1) (redirects_nl _) ?_⟩
  rw [← f2, ← f3]
  rfl

/-- **C53.** Conditionals, with any number of `elif` parts and with or without `else`. -/
theorem C53_if (a : (Str × Str) × GuardBodyPair SCommand) (as : List ((Str × Str) × GuardBodyPair SCommand))
    (e : Option (Str × List SCommand)) (has : ∀ x ∈ a :: as, ArmOk cc x) (he : ∀ y, e = some y → Whole cc y.1 y.2 ∧ Fits ["fi"] y.2) :
    Whole cc (ifText a.1.1 a.1.2 (as.map (·.1)) (e.map (·.1))) [comp (.If (a.2 :: as.map (·.2)) (e.map (·.2)))] :=
  whole_command (line_if hs hl a as e has he)

end
end Conch
