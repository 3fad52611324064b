import Verif.HereLex
import Verif.PropsDefault
import Verif.PropsPos
/-!
# C30: here-documents
-/
namespace Conch
open Spec Gram

section
variable {cc : CharClass}

/-! ## `<<-` -/

theorem untab_id {w : Str} (hne : w ≠ []) (h : '\t' ∉ w) : untab w = [.Whitespace w] := by
  have : w.dropWhile (· = '\t') = w := by
    obtain ⟨c, w, rfl⟩ := List.exists_cons_of_ne_nil hne
    rw [List.dropWhile_cons_of_neg]
    simp only [decide_eq_true_eq]
    rintro rfl
    simp at h
  simp [untab, this, hne]

theorem stripLine_id {ts : List Token} (h : ∀ t ∈ ts, t.asStr ≠ [] ∧ '\t' ∉ t.asStr) : stripLine ts = ts := by
  induction ts using stripLine.induct with
  | case1 => rfl
  | case2 w => exact untab_id (h (.Whitespace w) (by simp)).1 (h (.Whitespace w) (by simp)).2
  | case3 w t r ih =>
    have hw : untab w = _ := untab_id (h (.Whitespace w) (by simp)).1 (h (.Whitespace w) (by simp)).2
    rw [stripLine, hw, ih fun t ht => h t (by simp [ht])]
    rfl
  | case4 t r h1 h2 ih =>
    rw [stripLine.eq_4 _ _ h1 h2, ih fun t ht => h t (by simp [ht])]

theorem stripLine_head {w : Str} {ts : List Token} (h : ∀ t ∈ ts, t.asStr ≠ [] ∧ '\t' ∉ t.asStr) :
    stripLine (.Whitespace w :: ts) = untab w ++ ts := by
  cases ts with
  | nil => simp [stripLine]
  | cons t ts => rw [stripLine, stripLine_id fun t ht => h t (by simp [ht])]

theorem strip_lexes (hs : cc.Sane) (ht : cc.whitespace '\t' = true) {raw line : Str} (h : Strips true raw line) :
    stripLine (lex cc raw) = lex cc line := by
  simp only [Strips, if_true] at h
  obtain ⟨n, rfl, hl⟩ := h
  have hno : ∀ {x : Str}, '\t' ∉ x → ∀ t ∈ lex cc x, t.asStr ≠ [] ∧ '\t' ∉ t.asStr :=
    fun hx t ht => ⟨C02_tokens_nonempty cc _ t ht, fun h => hx (lex_chars ht _ h)⟩
  cases n with
  | zero => exact stripLine_id (hno hl)
  | succ n =>
    obtain ⟨run, s, rfl, hrun⟩ : ∃ run s, line = run ++ s ∧ MaximalRun (Blank cc) run s := by
      clear hl
      induction line with
      | nil => exact ⟨[], [], rfl, by simp [MaximalRun]⟩
      | cons c line ih =>
        by_cases hc : Blank cc c
        · obtain ⟨run, s, rfl, h⟩ := ih
          exact ⟨c :: run, s, rfl, by simpa [MaximalRun, hc] using h⟩
        · exact ⟨[], c :: line, rfl, by simp [MaximalRun, hc]⟩
    have htab : Blank cc '\t' := ⟨ht, by decide⟩
    have hnt : ∀ {c}, Blank cc c → c ≠ '\\' ∧ ¬ opStart c := fun h => hs.blank h.1 h.2
    have hraw : lex cc (List.replicate (n + 1) '\t' ++ (run ++ s)) =
        .Whitespace (List.replicate (n + 1) '\t' ++ run) :: lex cc s := by
      rw [C03_tokens_iff_grammar]
      have := Lexes.blank (cc := cc) (c := '\t') (run := List.replicate n '\t' ++ run) (hnt htab).1 (hnt htab).2 ht
        ⟨fun c hc => ?_, hrun.2⟩ (lex_lexes cc s)
      · simpa [List.replicate_succ] using this
      · rcases List.mem_append.1 hc with hc | hc
        · rw [List.eq_of_mem_replicate hc]; exact htab
        · exact hrun.1 c hc
    have hs' : '\t' ∉ s := fun h => hl (by simp [h])
    have hr' : '\t' ∉ run := fun h => hl (by simp [h])
    rw [hraw, stripLine_head (hno hs')]
    have hdrop : (List.replicate (n + 1) '\t' ++ run).dropWhile (· = '\t') = run := by
      generalize n + 1 = m
      induction m with
      | zero =>
        cases run with
        | nil => rfl
        | cons c run =>
          rw [List.replicate_zero, List.nil_append, List.dropWhile_cons_of_neg]
          simp only [decide_eq_true_eq]
          rintro rfl
          simp at hr'
      | succ m ih => rw [List.replicate_succ, List.cons_append, List.dropWhile_cons_of_pos (by simp), ih]
    rw [untab, hdrop]
    cases run with
    | nil => rfl
    | cons c run =>
      rw [if_neg (by simp)]
      symm
      rw [C03_tokens_iff_grammar]
      have hc := hrun.1 c (by simp)
      exact .blank (hnt hc).1 (hnt hc).2 hc.1 ⟨fun d hd => hrun.1 d (by simp [hd]), hrun.2⟩ (lex_lexes cc s)

theorem line_tokens (hs : cc.Sane) {strip : Bool} (ht : strip = true → cc.whitespace '\t' = true) {raw line : Str}
    (h : Strips strip raw line) : lineOf strip (lex cc raw) = lex cc line := by
  cases strip with
  | false => simp only [Strips] at h; simp at h; subst h; rfl
  | true => exact strip_lexes hs (ht rfl) h

theorem isDelim_text {d line : Str} : IsDelim d (lex cc line) ↔ DelimLine d line := by
  rw [IsDelim, C01_concat_tokens, DelimLine]

theorem linesText_cons (l : Str) (lines : List Str) (rest : Str) :
    linesText (l :: lines) ++ rest = l ++ '\n' :: (linesText lines ++ rest) := by
  simp [linesText]

/-- The body of a here-document in text and tokens. -/
theorem here_body (hs : cc.Sane) {strip : Bool} (ht : strip = true → cc.whitespace '\t' = true) (d : Str)
    (lines : List (Str × Str)) (hl : ∀ p ∈ lines, '\n' ∉ p.1 ∧ Strips strip p.1 p.2 ∧ ¬ DelimLine d p.2)
    {text last after : Str} (he : HereEnd strip d text last after) :
    HereLines strip d (lex cc (linesText (lines.map (·.1)) ++ text))
      (lex cc (linesText (lines.map (·.2)) ++ last)) (lex cc after) := by
  induction lines with
  | nil =>
    simp only [List.map_nil, linesText, List.flatMap_nil, List.nil_append]
    cases he with
    | delim h1 h2 h3 =>
      rw [lex_line hs, lex_empty]
      refine .delim (no_newline h1) ?_
      rw [line_tokens hs ht h2]
      exact isDelim_text.2 h3
    | eofDelim h1 h2 h3 =>
      rw [lex_empty]
      refine .lastDelim (no_newline h1) ?_
      rw [line_tokens hs ht h2]
      exact isDelim_text.2 h3
    | eof h1 h2 h3 =>
      rw [lex_empty, ← line_tokens hs ht h2]
      refine .lastLine (no_newline h1) ?_
      rw [line_tokens hs ht h2]
      exact fun h => h3 (isDelim_text.1 h)
  | cons p lines ih =>
    obtain ⟨h1, h2, h3⟩ := hl p (by simp)
    simp only [List.map_cons, linesText_cons]
    rw [lex_line hs, lex_line hs, ← line_tokens hs ht h2]
    refine .line (no_newline h1) ?_ (ih fun p hp => hl p (by simp [hp]))
    rw [line_tokens hs ht h2]
    exact fun h => h3 (isDelim_text.1 h)

/-! ## The line of the operator -/

/-- What ends a delimiter. -/
theorem delim_end (hs : cc.Sane) {x : Str} (h : Delim cc x) :
    Gram.EndsWord (lex cc x) ∧ ∀ c r, x = c :: r → ¬ Plain cc c := by
  have k1 : ∀ c ∈ "\n;&|<>()".toList, ∃ p ∈ operators, p.1.head? = some c := by decide
  obtain ⟨c, r, rfl, hc⟩ := h
  constructor
  · have hl := lex_lexes cc (c :: r)
    generalize hx : c :: r = x at hl
    intro t l e
    rw [e] at hl
    have key : ∀ p ∈ operators, ∀ c ∈ "\n;&|<>()".toList, p.1.head? = some c → p.2.isWordDelimiter = true := by decide
    have hne : ∀ p ∈ operators, p.1 ≠ [] := by decide
    cases hl with
    | trailingBackslash | escape =>
      cases hx
      rcases hc with hc | hc
      · exact absurd rfl (hs.blank hc.1 hc.2).1
      · exact absurd hc (by decide)
    | @op o _ s _ ho _ =>
      obtain ⟨d, o', he⟩ := List.exists_cons_of_ne_nil (hne _ ho.1)
      replace he : o = d :: o' := he
      subst he
      cases hx
      rcases hc with hc | hc
      · exact absurd ⟨_, ho.1, rfl⟩ (hs.blank hc.1 hc.2).2
      · exact key _ ho.1 _ hc rfl
    | blank => rfl
    | name h1 _ _ _ | literal h1 _ _ _ =>
      cases hx
      rcases hc with hc | hc
      · have := h1.2.2; rw [hc.1] at this; cases this
      · exact absurd (k1 _ hc) h1.2.1
  · rintro _ _ ⟨⟩ hp
    rcases hc with hc | hc
    · have := hp.2.2; rw [hc.1] at this; cases this
    · exact hp.2.1 (k1 _ hc)

theorem tail_delim (hs : cc.Sane) {tail rest : Str} (h : tail = [] ∨ Delim cc tail) (hp : tail.head? ≠ some '(') :
    (∀ c r, tail ++ '\n' :: rest = c :: r → ¬ Plain cc c) ∧
      ∀ t l, lex cc (tail ++ '\n' :: rest) = t :: l → t.isWordDelimiter = true ∧ t ≠ .ParenOpen := by
  have hd : Delim cc (tail ++ '\n' :: rest) := by
    rcases h with rfl | ⟨c, r, rfl, hc⟩
    · exact ⟨_, _, rfl, .inr (by decide)⟩
    · exact ⟨c, _, rfl, hc⟩
  obtain ⟨h1, h2⟩ := delim_end hs hd
  refine ⟨h2, fun t l e => ⟨h1 t l e, ?_⟩⟩
  rintro rfl
  have he := C01_concat_tokens cc (tail ++ '\n' :: rest)
  rw [e, concatTokens_cons] at he
  cases tail with
  | nil => injection he with he _; revert he; decide
  | cons c tail => injection he with he _; subst he; exact hp rfl

/-! ## The theorems -/

/-- The token of the operator. -/
def Spec.hereTok (strip : Bool) : Token := if strip then .DLessDash else .DLess

/-- The number before the operator. -/
def Spec.fdText (fd : Option Nat) : Str := fd.elim [] natDigits

theorem hereTok_spec (strip : Bool) : (hereTok strip = .DLess ∨ hereTok strip = .DLessDash) ∧
    decide (hereTok strip = .DLessDash) = strip ∧ hereOp strip = (hereTok strip).asStr ∧
    ((hereTok strip).asStr, hereTok strip) ∈ operators ∧ hereTok strip ≠ .Backslash ∧ hereTok strip ∈ redirOps := by
  cases strip <;> decide

/-- A descriptor before the operator changes nothing else. -/
theorem here_redirect (hs : cc.Sane) {B : Builder} (b b' : B.State) (strip : Bool) (fd : Option Nat)
    (hfd : ∀ n, fd = some n → n ≤ 65535)
    (src : Str) (l : List Token) (hl : lex cc (hereOp strip ++ src) = hereTok strip :: l) (a) (r : List Token)
    (h : Reads (B := B) (.heredoc fd) b (hereTok strip :: l) a r b') :
    Parses (B := B) .redirect (parserOn (lex cc (fdText fd ++ (hereOp strip ++ src))) b) (some (.inl a)) r b' := by
  obtain ⟨-, -, h3, h4, -, h6⟩ := hereTok_spec strip
  cases fd with
  | none =>
    refine C29_no_descriptor _ [] l (hereTok strip) _ _ _ ?_ .nil h6 (.redirHeredoc h)
    rw [PSt.tokens, parserOn_rest]
    exact hl
  | some n =>
    refine C29_number_is_descriptor _ [] [.Literal (natDigits n)] l (hereTok strip) n _ _ _ ?_ .nil
      (fdToks_digits (hfd n rfl)) h6 (.redirHeredoc h)
    rw [PSt.tokens, parserOn_rest]
    show lex cc (natDigits n ++ _) = _
    rw [lex_digits cc hs n (by rw [h3]; exact fun c => head_opStart h4 _ c), hl]
    rfl

/-- The operator before anything that does not lengthen it. -/
theorem lex_hereOp (hs : cc.Sane) (strip : Bool) {x : Str} (h : strip = false → x.head? ≠ some '-') :
    lex cc (hereOp strip ++ x) = hereTok strip :: lex cc x := by
  obtain ⟨h1, h2, h3, h4, h5, h6⟩ := hereTok_spec strip
  rw [h3]
  refine lex_op cc hs h4 h5 ?_
  intro c hc p hp hpre
  have : ∀ p ∈ operators, ∀ s ∈ [true, false], (hereTok s).asStr <+: p.1 →
      p.1 = (hereTok s).asStr ∨ s = false ∧ p.1 = "<<-".toList := by decide
  have hs' : strip ∈ [true, false] := by cases strip <;> simp
  rcases this p hp strip hs' ((List.prefix_append _ _).trans hpre) with h | ⟨h', h''⟩
  · rw [h] at hpre
    have := hpre.length_le
    rw [List.length_append, List.length_singleton] at this
    omega
  · subst h'
    rw [h''] at hpre
    have : c = '-' := by
      obtain ⟨z, hz⟩ := hpre
      simp [hereTok, Token.asStr] at hz
      exact hz.1
    subst this
    exact h rfl hc

/-- The delimiter does not start with a blank. -/
theorem delim_noBlank (hs : cc.Sane) {b : Bool} {d q rest : Str} (h : WritesDelim cc b d q) (hq : q ≠ []) :
    Gram.NoBlank (lex cc (q ++ rest)) := by
  have key : ∀ {c : Char} {r : Str}, c ≠ '\\' → ¬ Blank cc c → Gram.NoBlank (lex cc (c :: r)) := by
    intro c r h1 h2
    have hl := lex_lexes cc (c :: r)
    generalize lex cc (c :: r) = ts at hl ⊢
    generalize hx : c :: r = x at hl
    have hne : ∀ p ∈ operators, p.1 ≠ [] ∧ (∀ w, p.2 ≠ .Whitespace w) ∧ p.2 ≠ .Backslash := by
      have : ∀ p ∈ operators, p.1 ≠ [] ∧ isVar p.2 = false ∧ p.2 ≠ .Backslash := by decide
      intro p hp
      obtain ⟨g1, g2, g3⟩ := this p hp
      refine ⟨g1, fun w e => ?_, g3⟩
      rw [e] at g2; cases g2
    cases hl with
    | nil => simp [Gram.NoBlank]
    | trailingBackslash | escape => cases hx; exact absurd rfl h1
    | op ho _ =>
      obtain ⟨-, g1, g2⟩ := hne _ ho.1
      exact ⟨fun w r e => by cases e; exact g1 w rfl, fun r e => by cases e; exact g2 rfl⟩
    | @blank c' _ _ _ _ g1 g2 _ _ =>
      cases hx
      exact absurd ⟨g2, by rintro rfl; exact g1 newline_start⟩ h2
    | name | literal => simp [Gram.NoBlank]
  have hbl : ∀ {c : Char}, opStart c → c ≠ '\n' → ¬ Blank cc c := fun h1 h2 h => (hs.blank h.1 h2).2 h1
  cases h with
  | nil => exact absurd rfl hq
  | bare h _ =>
    refine key ?_ fun hb => ?_
    · rintro rfl; exact h.2 (by decide)
    · have := hb.1; rw [h.1] at this; cases this
  | @escaped _ c _ q h1 _ =>
    rw [List.cons_append, List.cons_append, C03_escape_protects_one, lex_single]
    refine ⟨fun w r e => (by cases e), fun r e => ?_⟩
    injection e with _ e
    injection e with e _
    have := single_asStr (lexSingle_spec cc c)
    rw [e] at this
    injection this with this _
    exact h1 this.symm
  | single => exact key (by decide) (hbl (opStart_iff.2 (by decide)) (by decide))
  | double => exact key (by decide) (hbl (opStart_iff.2 (by decide)) (by decide))

theorem writesDelim_ne {b : Bool} {d q : Str} (h : WritesDelim cc b d q) (hd : d ≠ []) : q ≠ [] := by
  rintro rfl; cases h; exact hd rfl

/-- The parts of a here-document as the grammar has them. -/
theorem here_parts (hs : cc.Sane) {strip b : Bool} (ht : strip = true → cc.whitespace '\t' = true)
    {d q : Str} (hd : d ≠ []) (hq : WritesDelim cc b d q)
    {tail : Str} (htail : Spans '\n' tail) (hm : tail = [] ∨ Delim cc tail) (hp : tail.head? ≠ some '(')
    {lines : List (Str × Str)} (hl : ∀ p ∈ lines, '\n' ∉ p.1 ∧ Strips strip p.1 p.2 ∧ ¬ DelimLine d p.2)
    {text last after : Str} (he : HereEnd strip d text last after) :
    ∃ l u l2 saved l3, l = lex cc (q ++ (tail ++ '\n' :: (linesText (lines.map (·.1)) ++ text))) ∧ Gram.NoBlank l ∧
      DelimToks l u l2 ∧ DelimText u b d ∧ RestOfLine l2 saved l3 ∧
      HereLines (hereTok strip = .DLessDash) d l3 (lex cc (linesText (lines.map (·.2)) ++ last)) (lex cc after) ∧
      saved ++ lex cc after = lex cc (tail ++ '\n' :: after) := by
  obtain ⟨k1, k2⟩ := tail_delim (rest := linesText (lines.map (·.1)) ++ text) hs hm hp
  obtain ⟨u, g1, g2, g3⟩ := delim_lex hs k1 k2 _ (Nat.le_refl _) hq
  refine ⟨_, u, _, lex cc tail ++ [.Newline], _, rfl, delim_noBlank hs hq (writesDelim_ne hq hd), by rw [g1]; exact g2, g3,
    tail_reads hs htail _, ?_, by rw [lex_line hs]; simp⟩
  rw [(hereTok_spec strip).2.1]
  exact here_body hs ht d lines hl he

/-- A here-document with a quoted delimiter, after the operator. -/
theorem here_quoted (hs : cc.Sane) {strip : Bool} (ht : strip = true → cc.whitespace '\t' = true) {fd : Option Nat}
    {d q : Str} (hd : d ≠ []) (hq : WritesDelim cc true d q)
    {tail : Str} (htail : Spans '\n' tail) (hm : tail = [] ∨ Delim cc tail) (hp : tail.head? ≠ some '(')
    {lines : List (Str × Str)} (hl : ∀ p ∈ lines, '\n' ∉ p.1 ∧ Strips strip p.1 p.2 ∧ ¬ DelimLine d p.2)
    {text last after : Str} (he : HereEnd strip d text last after) {l : List Token}
    (hsk : Skip l (lex cc (q ++ (tail ++ '\n' :: (linesText (lines.map (·.1)) ++ text))))) :
    Reads (B := DefaultBuilder) (.heredoc fd) () (hereTok strip :: l)
      (.Heredoc fd (.mk (.Single (.Simple (.Literal (linesText (lines.map (·.2)) ++ last))))))
      (lex cc (tail ++ '\n' :: after)) () := by
  obtain ⟨_, u, l2, saved, l3, rfl, g1, g2, g3, g4, g5, g6⟩ := here_parts hs ht hd hq htail hm hp hl he
  rw [← g6]
  exact Reads.heredocQuoted (B := DefaultBuilder) (b := ()) (hereTok_spec strip).1 hsk g2 g3 hd g4 g5
    (w := .mk (.Single (.Simple (.Literal (linesText (lines.map (·.2)) ++ last))))) (b' := ())
    (by rw [C01_concat_tokens]; rfl) rfl

/-- The same with a delimiter that is not quoted. -/
theorem here_unquoted (hs : cc.Sane) {strip : Bool} (ht : strip = true → cc.whitespace '\t' = true) {fd : Option Nat}
    {d q : Str} (hd : d ≠ []) (hq : WritesDelim cc false d q)
    {tail : Str} (htail : Spans '\n' tail) (hm : tail = [] ∨ Delim cc tail) (hp : tail.head? ≠ some '(')
    {lines : List (Str × Str)} (hl : ∀ p ∈ lines, '\n' ∉ p.1 ∧ Strips strip p.1 p.2 ∧ ¬ DelimLine d p.2)
    {text last after : Str} (he : HereEnd strip d text last after) {l : List Token}
    (hsk : Skip l (lex cc (q ++ (tail ++ '\n' :: (linesText (lines.map (·.1)) ++ text)))))
    {ps} (hps : Reads (B := DefaultBuilder) (.interp none) () (lex cc (linesText (lines.map (·.2)) ++ last)) ps [] ()) :
    Reads (B := DefaultBuilder) (.heredoc fd) () (hereTok strip :: l)
      (.Heredoc fd (stringCore.word (hereWord ps))) (lex cc (tail ++ '\n' :: after)) () := by
  obtain ⟨_, u, l2, saved, l3, rfl, g1, g2, g3, g4, g5, g6⟩ := here_parts hs ht hd hq htail hm hp hl he
  rw [← g6]
  exact Reads.heredoc (B := DefaultBuilder) (b := ()) (hereTok_spec strip).1 hsk g2 g3 hd g4 g5 hps
    (w := stringCore.word (hereWord ps)) (b'' := ()) rfl rfl

/-- **C30, quoted delimiter.** The body is exactly the text of the lines up to the delimiter line (or
the end of the input), with nothing expanded or unescaped; the parser goes on with the rest of the
line of the operator, then with what follows the delimiter line. This holds for every delimiter `d`
and every way `q` of quoting it or a part of it, all lines that are not the delimiter, every text after
them, and every rest of the line `tail` in which quotes and parentheses are closed. Missing from the
full property: with `<<-`, lines that have tabs after the leading ones (`Strips`); for them it is false
(`C30_inner_tabs_removed`). -/
theorem C30_quoted_body_partial (hs : cc.Sane) {strip : Bool} (ht : strip = true → cc.whitespace '\t' = true)
    (fd : Option Nat) (hfd : ∀ n, fd = some n → n ≤ 65535) (d q : Str) (hd : d ≠ []) (hq : WritesDelim cc true d q)
    (hq' : strip = false → q.head? ≠ some '-')
    (tail : Str) (htail : Spans '\n' tail) (hm : tail = [] ∨ Delim cc tail) (hp : tail.head? ≠ some '(')
    (lines : List (Str × Str)) (hl : ∀ p ∈ lines, '\n' ∉ p.1 ∧ Strips strip p.1 p.2 ∧ ¬ DelimLine d p.2)
    {text last after : Str} (he : HereEnd strip d text last after) :
    Parses (B := DefaultBuilder) .redirect
      (parserOn (lex cc (fdText fd ++ (hereOp strip ++ (q ++ (tail ++ '\n' ::
        (linesText (lines.map (·.1)) ++ text)))))) ())
      (some (.inl (.Heredoc fd (.mk (.Single (.Simple (.Literal (linesText (lines.map (·.2)) ++ last))))))))
      (lex cc (tail ++ '\n' :: after)) () := by
  have hne := writesDelim_ne hq hd
  refine here_redirect hs (B := DefaultBuilder) () () strip fd hfd _ _ (lex_hereOp hs strip ?_) _ _
    (here_quoted hs ht hd hq htail hm hp hl he (.refl (delim_noBlank hs hq hne)))
  obtain ⟨c, q, rfl⟩ := List.exists_cons_of_ne_nil hne
  exact hq'

/-! ### Unquoted delimiters -/

/-- What text without expansions means in a here-document with an unquoted delimiter: a backslash
before `$`, a backtick, `"`, `\` and a newline is removed, every other character stands for itself.
(A backslash at the very end of the input is not considered; see the findings in DESIGN.md.) -/
def Spec.hereMeaning : Str → Option Str
  | [] => some []
  | '\\' :: c :: s =>
    if c ∈ "$`\"\\\n".toList then (hereMeaning s).map (c :: ·) else (hereMeaning s).map ('\\' :: c :: ·)
  | c :: s => if c = '$' ∨ c = '`' ∨ c = '\\' then none else (hereMeaning s).map (c :: ·)

theorem hereMeaning_plain {x s m : Str} (hx : ∀ c ∈ x, c ∉ ['$', '`', '\\']) (h : hereMeaning (x ++ s) = some m) :
    ∃ m', hereMeaning s = some m' ∧ m = x ++ m' := by
  induction x generalizing m with
  | nil => exact ⟨m, h, rfl⟩
  | cons c x ih =>
    have hc := hx c (by simp)
    simp only [List.mem_cons, List.not_mem_nil, or_false, not_or] at hc
    rw [List.cons_append, hereMeaning.eq_3 _ _ (by rintro d y rfl; exact absurd rfl hc.2.2), if_neg (by tauto)] at h
    cases hm : hereMeaning (x ++ s) with
    | none => rw [hm] at h; cases h
    | some v =>
      rw [hm] at h
      cases h
      obtain ⟨m', h1, rfl⟩ := ih (fun c hc => hx c (by simp [hc])) hm
      exact ⟨m', h1, rfl⟩

theorem here_tokens {C : Type} {s : Str} {ts : List Token} (h : Lexes cc s ts) (hs : cc.Sane) : ∀ m, hereMeaning s = some m →
    ∃ ps, DqText (C := C) none ts ps ∧ partsText ps = m := by
  have run : ∀ {x s : Str} {t : Token} {m : Str} {ts : List Token}, t.asStr = x → (∀ c ∈ x, c ∉ ['$', '`', '\\']) →
      (∀ p, t ≠ .ParamPositional p) → hereMeaning (x ++ s) = some m →
      (∀ m, hereMeaning s = some m → ∃ ps, DqText (C := C) none ts ps ∧ partsText ps = m) →
      ∃ ps, DqText (C := C) none (t :: ts) ps ∧ partsText ps = m := by
    intro x s t m ts hx h1 h2 h3 h4
    obtain ⟨m', h5, rfl⟩ := hereMeaning_plain h1 h3
    obtain ⟨ps, h6, h7⟩ := h4 m' h5
    refine ⟨.inl t.asStr :: ps, .text ?_ h2 (by simp) h6, by rw [partsText, h7, hx]⟩
    have : ∀ t ∈ [Token.Dollar, .Backtick, .Backslash], ∃ c ∈ t.asStr, c ∈ ['$', '`', '\\'] := by decide
    intro ht
    obtain ⟨c, h5, h6⟩ := this t ht
    rw [hx] at h5
    exact h1 c h5 h6
  have hplain : ∀ {c}, Plain cc c → c ∉ ['$', '`', '\\'] := by
    rintro c ⟨h1, h2, -⟩ hc
    simp only [List.mem_cons, List.not_mem_nil, or_false] at hc
    rcases hc with rfl | rfl | rfl
    · exact h2 ⟨(['$'], .Dollar), by decide, rfl⟩
    · exact h2 ⟨(['`'], .Backtick), by decide, rfl⟩
    · exact h1 rfl
  have hblank : ∀ {c}, Blank cc c → c ∉ ['$', '`', '\\'] := by
    rintro c hb hc
    obtain ⟨h1, h2⟩ := hs.blank hb.1 hb.2
    simp only [List.mem_cons, List.not_mem_nil, or_false] at hc
    rcases hc with rfl | rfl | rfl
    · exact h2 ⟨(['$'], .Dollar), by decide, rfl⟩
    · exact h2 ⟨(['`'], .Backtick), by decide, rfl⟩
    · exact h1 rfl
  induction h with
  | nil => intro m h; cases h; exact ⟨[], .nil, rfl⟩
  | trailingBackslash => intro m h; simp [hereMeaning] at h
  | @escape c t s ts hc _ ih =>
    intro m h
    have hstr := single_asStr hc
    rw [hereMeaning] at h
    have hq : ∀ c ∈ "$`\"\\\n".toList, ∀ t, Single cc c t → t ∈ [Token.Dollar, .Backtick, .DoubleQuote, .Backslash, .Newline] := by
      intro c hc t ht
      have hm : (c, ([c] : Str)) ∈ [('$', ['$']), ('`', ['`']), ('"', ['"']), ('\\', ['\\']), ('\n', ['\n'])] := by
        clear ht
        revert hc; revert c; decide
      simp only [List.mem_cons, List.not_mem_nil, or_false, Prod.mk.injEq] at hm
      rcases hm with ⟨rfl, -⟩ | ⟨rfl, -⟩ | ⟨rfl, -⟩ | ⟨rfl, -⟩ | ⟨rfl, -⟩
      · rw [single_unique ht (.op (t := .Dollar) (by decide))]; simp
      · rw [single_unique ht (.op (t := .Backtick) (by decide))]; simp
      · rw [single_unique ht (.op (t := .DoubleQuote) (by decide))]; simp
      · rw [single_unique ht .backslash]; simp
      · rw [single_unique ht (.op (t := .Newline) (by decide))]; simp
    split at h
    · rename_i hcq
      cases hm : hereMeaning s with
      | none => rw [hm] at h; cases h
      | some v =>
        rw [hm] at h
        cases h
        obtain ⟨ps, h1, rfl⟩ := ih v hm
        exact ⟨_, .escaped (hq c hcq t hc) h1, by rw [partsText, hstr]; rfl⟩
    · rename_i hcq
      cases hm : hereMeaning s with
      | none => rw [hm] at h; cases h
      | some v =>
        rw [hm] at h
        cases h
        obtain ⟨ps, h1, rfl⟩ := ih v hm
        have hn : t ∉ [Token.Dollar, .Backtick, .DoubleQuote, .Backslash, .Newline] := by
          intro ht
          have : ∀ t ∈ [Token.Dollar, .Backtick, .DoubleQuote, .Backslash, .Newline], ∀ c ∈ t.asStr, c ∈ "$`\"\\\n".toList := by
            decide
          exact hcq (this t ht c (by rw [hstr]; simp))
        refine ⟨_, .backslash hn (.text ?_ ?_ (by simp) h1), by simp [partsText, hstr]⟩
        · simp only [List.mem_cons, List.not_mem_nil, or_false, not_or] at hn ⊢; tauto
        · rintro p rfl
          cases p <;> simp [Token.asStr] at hstr
  | @op o t s ts ho _ ih =>
    intro m h
    have hops : ∀ p ∈ operators, (∀ c ∈ p.1, c ∉ ['$', '`', '\\']) ∨ p.1.head? = some '$' ∨ p.1.head? = some '`' := by decide
    rcases hops _ ho.1 with h1 | h1
    · refine run (operators_asStr _ ho.1) h1 ?_ h ih
      rintro p rfl
      have := operators_asStr _ ho.1
      refine h1 '$' ?_ (by simp)
      rw [← this]
      cases p <;> simp [Token.asStr]
    · exfalso
      rcases h1 with h1 | h1
      all_goals
        obtain ⟨o', rfl⟩ : ∃ o', o = _ :: o' := List.head?_eq_some_iff.1 h1
        simp [hereMeaning] at h
  | @blank c run' s ts h1 h2 h3 h4 _ ih =>
    intro m h
    refine run (t := .Whitespace (c :: run')) rfl ?_ (by simp) h ih
    intro d hd
    rcases List.mem_cons.1 hd with rfl | hd
    · by_cases hn : d = '\n'
      · subst hn; decide
      · exact hblank ⟨h3, hn⟩
    · exact hblank (h4.1 d hd)
  | @name c run' s ts h1 h2 h3 _ ih =>
    intro m h
    refine run (t := .Name (c :: run')) rfl ?_ (by simp) h ih
    intro d hd
    rcases List.mem_cons.1 hd with rfl | hd
    · exact hplain h1
    · exact hplain (h3.1 d hd).1
  | @literal c run' s ts h1 h2 h3 _ ih =>
    intro m h
    refine run (t := .Literal (c :: run')) rfl ?_ (by simp) h ih
    intro d hd
    rcases List.mem_cons.1 hd with rfl | hd
    · exact hplain h1
    · exact hplain (h3.1 d hd)

/-- The text of one part. -/
def Spec.textPart {P S : Type} : Word Str (SimpleWord Str P S) → Option Str
  | .Simple s => dqPart s
  | _ => none

/-- The text of a word of literal text and escaped characters. -/
def Spec.plainWordText : TopLevelWord Str → Option Str
  | .mk (.Single w) => textPart w
  | .mk (.Concat ws) => (ws.mapM textPart).map List.flatten

def kPart {C : Type} : WordKind C → Str
  | .Simple s => kText s
  | _ => []

def isPart {C : Type} : WordKind C → Bool
  | .Simple s => isText s
  | _ => false

theorem joined_text {C : Type} {l m : List (WordKind C)} (h : Joined JoinWord l m)
    (hl : ∀ w ∈ l, isPart w = true) : (∀ w ∈ m, isPart w = true) ∧ m.flatMap kPart = l.flatMap kPart := by
  induction h with
  | refl => exact ⟨hl, rfl⟩
  | @step l₁ a b c l₂ m hj _ ih =>
    have ha := hl a (by simp)
    cases hj with
    | literal a b =>
      obtain ⟨h1, h2⟩ := ih (by
        intro w hw
        simp only [List.mem_append, List.mem_cons] at hw
        rcases hw with hw | rfl | hw
        · exact hl w (by simp [hw])
        · rfl
        · exact hl w (by simp [hw]))
      refine ⟨h1, h2.trans ?_⟩
      simp [kPart, kText]
    | singleQuoted => cases ha
    | doubleQuoted => cases ha

theorem compress_parts {C : Type} (k : ComplexWordKind C) (h : ∀ w ∈ parts k, isPart w = true) :
    (∀ w ∈ parts (compress k), isPart w = true) ∧ (parts (compress k)).flatMap kPart = (parts k).flatMap kPart := by
  rcases C32_only_joins_neighbours k with hj | ⟨v, v', rfl, -, -⟩
  · exact joined_text hj h
  · exact absurd (h (.DoubleQuoted v) (by simp [parts])) (by simp [isPart])

theorem plain_parts (ws : List (WordKind (TopLevelCommand Str))) (h : ∀ w ∈ ws, isPart w = true) :
    ((ws.map stringCore.partOf).mapM textPart).map List.flatten = some (ws.flatMap kPart) := by
  induction ws with
  | nil => rfl
  | cons w ws ih =>
    have ih := ih fun w hw => h w (by simp [hw])
    have hw := h w (by simp)
    rw [List.map_cons, List.mapM_cons]
    cases hm : (ws.map stringCore.partOf).mapM textPart with
    | none => rw [hm] at ih; cases ih
    | some v =>
      rw [hm] at ih
      have e := Option.some.inj ih
      cases w with
      | Simple s =>
        cases s <;> simp [isPart, isText] at hw <;>
          simp [e, Core.partOf, Core.simpleOf, textPart, dqPart, kPart, kText, stringCore]
      | _ => cases hw

theorem plain_word_text (k : ComplexWordKind (TopLevelCommand Str)) (h : ∀ w ∈ parts k, isPart w = true) :
    plainWordText (stringCore.word k) = some ((parts k).flatMap kPart) := by
  rw [C32_default_builder_compresses]
  obtain ⟨h1, h2⟩ := compress_parts k h
  rw [← h2]
  generalize compress k = k' at h1
  cases k' with
  | Single w =>
    have := plain_parts [w] h1
    simp only [List.map_cons, List.map_nil, List.mapM_cons, List.mapM_nil] at this
    show textPart (stringCore.partOf w) = some ([w].flatMap kPart)
    cases hw : textPart (stringCore.partOf w) with
    | none => rw [hw] at this; cases this
    | some v => rw [hw] at this; simpa using this
  | Concat ws => exact plain_parts ws h1

/-- **C30, unquoted delimiter.** The body is the lines up to the delimiter line (or the end of the
input); in it, a backslash is removed before `$`, a backtick, `"`, `\` and newlines, and everything
else is text. The rest is as for quoted delimiters. Missing: as above, and bodies with expansions at
the level of text (`C30_every_heredoc` covers them at the level of tokens). -/
theorem C30_unquoted_body_partial (hs : cc.Sane) {strip : Bool} (ht : strip = true → cc.whitespace '\t' = true)
    (fd : Option Nat) (hfd : ∀ n, fd = some n → n ≤ 65535)
    (d : Str) (hd : d ≠ []) (hq : WritesDelim cc false d d) (hd' : strip = false → d.head? ≠ some '-')
    (tail : Str) (htail : Spans '\n' tail) (hm : tail = [] ∨ Delim cc tail) (hp : tail.head? ≠ some '(')
    (lines : List (Str × Str)) (hl : ∀ p ∈ lines, '\n' ∉ p.1 ∧ Strips strip p.1 p.2 ∧ ¬ DelimLine d p.2)
    {text last after : Str} (he : HereEnd strip d text last after) (body : Str)
    (hbody : hereMeaning (linesText (lines.map (·.2)) ++ last) = some body) :
    ∃ w, Parses (B := DefaultBuilder) .redirect
      (parserOn (lex cc (fdText fd ++ (hereOp strip ++ (d ++ (tail ++ '\n' ::
        (linesText (lines.map (·.1)) ++ text)))))) ())
      (some (.inl (.Heredoc fd w))) (lex cc (tail ++ '\n' :: after)) () ∧ plainWordText w = some body := by
  obtain ⟨ps, hps, rfl⟩ := here_tokens (C := TopLevelCommand Str) (lex_lexes cc _) hs body hbody
  refine ⟨stringCore.word (hereWord (gather [] ps)), ?_, ?_⟩
  · refine here_redirect hs (B := DefaultBuilder) () () strip fd hfd _ _ (lex_hereOp hs strip ?_) _ _
      (here_unquoted hs ht hd hq htail hm hp hl he (.refl (delim_noBlank hs hq hd)) (.interp (hps.readsHere (B := DefaultBuilder) ())))
    obtain ⟨c, d, rfl⟩ := List.exists_cons_of_ne_nil hd
    exact hd'
  · have hg := hps.gathered []
    have key : ∀ ws : List (SimpleWordKind (TopLevelCommand Str)), (∀ x ∈ ws, isText x = true) →
        (∀ w ∈ parts (hereWord ws), isPart w = true) ∧ (parts (hereWord ws)).flatMap kPart = ws.flatMap kText := by
      intro ws hws
      match ws, hws with
      | [], _ => exact ⟨by simp [hereWord, parts, isPart, isText], by simp [hereWord, parts, kPart, kText]⟩
      | [w], hws => exact ⟨by simpa [hereWord, parts, isPart] using hws, by simp [hereWord, parts, kPart]⟩
      | w :: w' :: ws, hws =>
        refine ⟨?_, by simp [hereWord, parts, kPart, List.flatMap_map]⟩
        simpa [hereWord, parts, isPart] using hws
    obtain ⟨k1, k2⟩ := key _ hg.1
    rw [plain_word_text _ k1, k2, hg.2]
    rfl

end

/-- **C30, conversely.** Whatever the tokens are: if the parser returns a here-document, then after the
operator come (blanks and) a delimiter, the rest of the line and the lines of the body, up to the
first line that is the delimiter or to the end; the parser goes on with the rest of the line and then
with what follows the body. With a quoted delimiter the body is exactly the text of these lines, with
an unquoted one it is what they mean as in double quotes (`Reads (.interp none)`, C25). -/
theorem C30_every_heredoc (s : PSt CIter DefaultBuilder) (fd : Option Nat) (w : TopLevelWord Str) (r : List Token)
    (b' : Unit) (h : Parses (B := DefaultBuilder) .redirect s (some (.inl (.Heredoc fd w))) r b') :
    ∃ pre op l l1 u q delim l2 saved l3 body rest, s.tokens = pre ++ op :: l ∧ (op = .DLess ∨ op = .DLessDash) ∧
      Skip l l1 ∧ DelimToks l1 u l2 ∧ DelimText u q delim ∧ delim ≠ [] ∧ RestOfLine l2 saved l3 ∧
      HereLines (op = .DLessDash) delim l3 body rest ∧ r = saved ++ rest ∧
      (q = true → w = .mk (.Single (.Simple (.Literal (concatTokens body))))) ∧
      (q = false → ∃ b1 b2 ps, Reads (B := DefaultBuilder) (.interp none) b1 body ps [] b2 ∧
        w = stringCore.word (hereWord ps)) := by
  obtain ⟨bs, u, esc, op, l, fd', h1, -, -, -, -, h2⟩ := C29_only_numbers_are_descriptors s _ r b' h
  have hpre : s.tokens = (bs ++ (u ++ esc)) ++ op :: l := by rw [h1]; simp
  generalize s.b = b at h2
  generalize hl : op :: l = l0 at h2
  generalize ha : (Redirect.Heredoc fd w : Redirect (TopLevelWord Str)) = a at h2
  cases h2 with
  | redirPath hm _ _ _ hc =>
    subst ha
    simp only [pathOps, List.mem_cons, List.not_mem_nil, or_false, Prod.mk.injEq] at hm
    rcases hm with ⟨rfl, rfl⟩ | ⟨rfl, rfl⟩ | ⟨rfl, rfl⟩ | ⟨rfl, rfl⟩ | ⟨rfl, rfl⟩ <;> cases hc
  | redirDupDash hm _ _ _ hc =>
    subst ha
    simp only [dupOps, List.mem_cons, List.not_mem_nil, or_false, Prod.mk.injEq] at hm
    rcases hm with ⟨rfl, rfl⟩ | ⟨rfl, rfl⟩ <;> cases hc
  | redirDup hm _ _ _ _ _ hc =>
    subst ha
    simp only [dupOps, List.mem_cons, List.not_mem_nil, or_false, Prod.mk.injEq] at hm
    rcases hm with ⟨rfl, rfl⟩ | ⟨rfl, rfl⟩ <;> cases hc
  | redirHeredoc h2 =>
    cases h2 with
    | heredocQuoted g1 g2 g3 g4 g5 g6 g7 g8 g9 =>
      cases hl
      subst ha
      refine ⟨_, _, _, _, _, _, _, _, _, _, _, _, hpre, g1, g2, g3, g4, g5, g6, g7, rfl, fun _ => ?_, by simp⟩
      cases g8
      cases g9
      rfl
    | heredoc g1 g2 g3 g4 g5 g6 g7 g8 g9 g10 =>
      cases hl
      subst ha
      refine ⟨_, _, _, _, _, _, _, _, _, _, _, _, hpre, g1, g2, g3, g4, g5, g6, g7, rfl, by simp, fun _ => ⟨_, _, _, g8, ?_⟩⟩
      cases g9
      cases g10
      rfl

/-! ## A case that is missing -/

/-- The text of the here-document that `redirect` returns. -/
def hereBodyOf (src : String) : Option Str :=
  match (Method.redirect.run (PSt.new (lex ascii src.toList) () : PSt CIter DefaultBuilder)).1 with
  | .ok (some (.inl (.Heredoc _ w))) => plainWordText w
  | _ => none

/-- C30, a case that is missing: with `<<-` the tabs *inside* a line are removed as well, although only
those at its start should be. -/
theorem C30_inner_tabs_removed : hereBodyOf "<<-'E'\n\ta\tb\nE\n" = some "ab\n".toList := by
  decide +kernel

/-! ## Witnesses -/

/-- `3<<'E' | wc` with two lines, one of them with characters that are special elsewhere. -/
example (cc : CharClass) (hs : cc.Sane) :
    Parses (B := DefaultBuilder) .redirect
      (parserOn (lex cc "3<<'E' | wc\n$x `\n \\\nE\nrest".toList) ())
      (some (.inl (.Heredoc (some 3) (.mk (.Single (.Simple (.Literal "$x `\n \\\n".toList)))))))
      (lex cc " | wc\nrest".toList) () :=
  C30_quoted_body_partial hs (strip := false) (by simp) (some 3) (by simp) ['E'] "'E'".toList (by simp)
    (.single (b := false) (s := ['E']) (d := []) (q := []) (by simp) .nil) (by simp) " | wc".toList
    (by repeat' first | exact .nil | refine .char (by decide) (by decide) (by decide) ?_)
    (.inr ⟨_, _, rfl, .inl ⟨hs.space, by decide⟩⟩) (by decide) [("$x `".toList, "$x `".toList), (" \\".toList, " \\".toList)]
    (by simp [Strips, DelimLine]) (text := "E\nrest".toList) (last := []) (after := "rest".toList)
    (.delim (raw := ['E']) (line := ['E']) (by simp) (by simp [Strips]) (.inl rfl))

/-- `<<-E` with tabs; the input ends without the delimiter. -/
example (cc : CharClass) (hs : cc.Sane) (ht : cc.whitespace '\t' = true) (hE : cc.whitespace 'E' = false) :
    ∃ w, Parses (B := DefaultBuilder) .redirect
      (parserOn (lex cc "<<-E\n\t\ta\\$b\n\tc".toList) ())
      (some (.inl (.Heredoc none w))) (lex cc "\n".toList) () ∧ plainWordText w = some "a$b\nc".toList :=
  C30_unquoted_body_partial hs (strip := true) (fun _ => ht) none (by simp) ['E'] (by simp)
    (.bare ⟨hE, by decide⟩ .nil) (by simp) [] .nil (.inl rfl) (by simp) [("\t\ta\\$b".toList, "a\\$b".toList)]
    (by simp only [List.mem_singleton, forall_eq, Strips, DelimLine]; exact ⟨by decide, ⟨2, by decide, by decide⟩, by decide⟩)
    (text := "\tc".toList) (last := ['c']) (after := [])
    (.eof (by decide) ⟨1, by decide, by decide⟩ (by simp [DelimLine])) _ (by decide)

end Conch
