import Verif.GramErr
import Verif.PropsQuote
/-!
# C25: double quotes and the bodies of here-documents
-/
namespace Conch
open Spec Gram

/-- `DqText u ps`: the tokens `u`, without `$`, backticks and closing quotes, mean the parts `ps` in
double quotes (`d` is the closing quote) or in an unquoted here-document (`d = none`): a backslash
escapes `$`, a backtick, `"`, `\` and a newline; everything else is text. -/
inductive Spec.DqText {C : Type} (d : Option Token) : List Token → List (Str ⊕ SimpleWordKind C) → Prop
  | nil : DqText d [] []
  | escaped {t u ps} : t ∈ [Token.Dollar, .Backtick, .DoubleQuote, .Backslash, .Newline] →
      DqText d u ps → DqText d (.Backslash :: t :: u) (.inr (.Escaped t.asStr) :: ps)
  | backslash {t u ps} : t ∉ [Token.Dollar, .Backtick, .DoubleQuote, .Backslash, .Newline] →
      DqText d (t :: u) ps → DqText d (.Backslash :: t :: u) (.inl ['\\'] :: ps)
  | text {t u ps} : t ∉ [Token.Dollar, .Backtick, .Backslash] → (∀ p, t ≠ .ParamPositional p) →
      d ≠ some t → DqText d u ps → DqText d (t :: u) (.inl t.asStr :: ps)

/-- The text of such parts. -/
def Spec.partsText {C : Type} : List (Str ⊕ SimpleWordKind C) → Str
  | [] => []
  | .inl s :: ps => s ++ partsText ps
  | .inr (.Escaped s) :: ps => s ++ partsText ps
  | .inr _ :: ps => partsText ps

theorem quotable_eq : quotable = [Token.Dollar, .Backtick, .DoubleQuote, .Backslash, .Newline] := rfl

theorem Spec.DqText.partsText_eq {C : Type} {d : Option Token} {u : List Token}
    {ps : List (Str ⊕ SimpleWordKind C)} (h : DqText d u ps) :
    partsText ps = concatTokens (Gram.dqUnquote u) := by
  induction h with
  | nil => rfl
  | @escaped t u ps ht _ ih =>
    rw [← quotable_eq] at ht
    rw [Gram.dqUnquote, if_pos rfl, if_pos ht, concatTokens_cons, ← ih]; rfl
  | @backslash t u ps ht h ih =>
    rw [← quotable_eq] at ht
    rw [Gram.dqUnquote, if_pos rfl, if_neg ht, concatTokens_cons]
    have ht' : t ≠ .Backslash := by rintro rfl; simp [quotable] at ht
    have : Gram.dqUnquote (t :: u) = t :: Gram.dqUnquote u := by
      rcases u with _ | ⟨y, u⟩
      · rfl
      · rw [Gram.dqUnquote, if_neg ht']
    rw [← this, ← ih]; rfl
  | @text t u ps ht _ _ h ih =>
    have ht' : t ≠ .Backslash := by rintro rfl; simp at ht
    have : Gram.dqUnquote (t :: u) = t :: Gram.dqUnquote u := by
      rcases u with _ | ⟨y, u⟩
      · rfl
      · rw [Gram.dqUnquote, if_neg ht']
    rw [this, concatTokens_cons, ← ih]; rfl

section
variable {B : Builder}

theorem Spec.DqText.reads {u : List Token} {ps} (h : DqText (C := B.Command) (some .DoubleQuote) u ps)
    (r : List Token) (b : B.State) :
    Reads (.interpParts (some .DoubleQuote)) b (u ++ .DoubleQuote :: r) ps r b := by
  induction h with
  | nil => exact .interpEnd
  | escaped ht _ ih => exact .interpEscaped (by simp) (.inl ht) ih
  | backslash ht _ ih =>
    refine .interpBackslash (by simp) ?_ (by simp) ih
    rintro t' l' e
    cases e
    refine ⟨ht, ?_⟩
    rintro e
    cases e
    simp at ht
  | text h1 h2 h3 _ ih => exact .interpText h3 h1 h2 ih

theorem Spec.DqText.readsHere {u : List Token} {ps} (h : DqText (C := B.Command) none u ps)
    (b : B.State) : Reads (.interpParts none) b u ps [] b := by
  induction h with
  | nil => exact .interpEof
  | escaped ht _ ih => exact .interpEscaped (by simp) (.inl ht) ih
  | backslash ht _ ih =>
    refine .interpBackslash (by simp) ?_ (by simp) ih
    rintro t' l' e
    cases e
    exact ⟨ht, by simp⟩
  | text h1 h2 h3 _ ih => exact .interpText h3 h1 h2 ih

/-- **C25, double quotes.** Between double quotes, text without expansions is one double quoted word:
a backslash is removed exactly before `$`, a backtick, `"`, `\` and a newline (which are then marked
as escaped); all the rest is literal text, joined. The closing quote ends the quotes. -/
theorem C25_double_quotes (u r : List Token) (ps) (h : DqText (some .DoubleQuote) u ps)
    (hr : Gram.EndsWord r) (b b' : B.State) (w : B.Word)
    (hw : B.call (.word (.Single (.DoubleQuoted (gather [] ps)))) b = (.ok w, b')) :
    Parses .wordPreserveTrailingWhitespace (parserOn (.DoubleQuote :: u ++ .DoubleQuote :: r) b)
      (some w) r b' ∧ partsText ps = concatTokens (Gram.dqUnquote u) := by
  refine ⟨?_, h.partsText_eq⟩
  refine C31_parser_accepts_grammar .wordPreserveTrailingWhitespace trivial _ _ _ _ ?_
  show Reads .wordP b (parserOn (B := B) _ b).tokens (some w) _ b'
  rw [PSt.tokens, parserOn_rest]
  have := Reads.someWord (d := none) (.refl (by simp [Gram.NoBlank])) (by simp)
    (Reads.consPiece (by simp) (.doubleQuoted (.interp (h.reads r b))) (.endWord hr))
  exact .wordPSome this hw

/-- `DqUnclosed b l b'`: what follows an opening double quote and never comes to its closing quote;
expansions on the way are read as usual. A backslash at the end is text. -/
inductive Spec.DqUnclosed : B.State → List Token → B.State → Prop
  | nil {b} : DqUnclosed b [] b
  | lastBackslash {b} : DqUnclosed b [.Backslash] b
  | escaped {b t l b'} : t ∈ [Token.Dollar, .Backtick, .DoubleQuote, .Backslash, .Newline] →
      DqUnclosed b l b' → DqUnclosed b (.Backslash :: t :: l) b'
  | backslash {b t l b'} : t ∉ [Token.Dollar, .Backtick, .DoubleQuote, .Backslash, .Newline] →
      DqUnclosed b (t :: l) b' → DqUnclosed b (.Backslash :: t :: l) b'
  | text {b t l b'} : t ∉ [Token.Dollar, .Backtick, .Backslash, .DoubleQuote] →
      (∀ p, t ≠ .ParamPositional p) → DqUnclosed b l b' → DqUnclosed b (t :: l) b'
  | param {b l w l' b1 b'} : Reads .param b l w l' b1 → DqUnclosed b1 l' b' → DqUnclosed b l b'
  | backtick {b l w l' b1 b'} : Reads .backtick b l w l' b1 → DqUnclosed b1 l' b' →
      DqUnclosed b l b'

theorem Spec.DqUnclosed.fails {b b' : B.State} {l : List Token} (h : DqUnclosed b l b') (N : Nat)
    (hN : l.length ≤ N) (p : SourcePos) (x : InterpSt B.Command) :
    LFails (interpBody (Rec.fix N) (some (.DoubleQuote, .DoubleQuote)) p)
      (fun _ => .Unmatched .DoubleQuote p) x l b [] b' := by
  have eof : ∀ (b : B.State) x, LFails (interpBody (Rec.fix N) (some (.DoubleQuote, .DoubleQuote)) p)
      (fun _ => .Unmatched .DoubleQuote p) x [] b [] b := by
    intro b x
    refine .stop ?_
    unfold interpBody
    refine .peek ?_
    rw [if_neg (by simp)]
    exact FailsAt.nextNil .fail
  induction h generalizing x with
  | nil => exact eof _ _
  | lastBackslash =>
    refine .cont (y := (x.1, x.2 ++ Token.Backslash.asStr)) ?_ (by simp) (eof _ _)
    unfold interpBody
    refine .peekCons ?_
    rw [if_neg (by simp)]
    refine Run.next (.peekNil ?_)
    rw [if_neg (by simp)]
    exact .pure
  | escaped ht _ ih =>
    exact .cont (interpBody_escaped (by simp) (.inl ht) p) (by simp; omega) (ih (by simp at hN; omega) _)
  | backslash ht _ ih =>
    refine .cont (interpBody_backslash (by simp) ?_ (by simp) p) (by simp) (ih (by simp at hN ⊢; omega) _)
    rintro t l' e
    cases e
    refine ⟨ht, ?_⟩
    rintro e
    cases e
    simp at ht
  | @text b t l b' h1 h2 _ ih =>
    refine .cont (interpBody_text ?_ ?_ h2 p) (by simp) (ih (by simp at hN; omega) _)
    · rintro e
      cases e
      simp at h1
    · simp at h1 ⊢; tauto
  | param h _ ih =>
    have hl := h.len.2 trivial
    obtain ⟨t, l', rfl, ht⟩ := h.param_head
    obtain ⟨M, rfl⟩ : ∃ M, N = M + 1 := ⟨N - 1, by simp at hN; omega⟩
    refine .cont (interpBody_param ht ?_ (param_run (Gram.complete h M (by simp only [NT.Fits]; omega))) p) hl
      (ih (by omega) _)
    cases ht' : t <;> simp_all [Token.startsParam]
  | backtick h _ ih =>
    have hl := h.len.2 trivial
    obtain ⟨l', rfl⟩ := h.backtick_head
    exact .cont (interpBody_backtick (by simp) (Gram.complete h N hN) p) hl (ih (by omega) _)

/-- **C25, missing quote.** If the closing quote never comes, the error is `Unmatched` for the double
quote, at the position of the opening quote. -/
theorem C25_missing_quote (s : PSt CIter B) (l : List Token) (b' : B.State)
    (hs : s.tokens = .DoubleQuote :: l) (h : DqUnclosed s.b l b') :
    FailsWith .wordPreserveTrailingWhitespace s (fun p _ => .Unmatched .DoubleQuote p) [] b' := by
  apply failsWith_of
  rw [hs]
  refine run_fails (f := wordPreserve) (Fails.left ?_)
  unfold wordRaw wordRawDelim
  refine .noSkip (by simp [Gram.NoBlank]) (.peek ?_)
  rw [if_neg (by simp)]
  refine .left (.loop ?_)
  unfold wordBody
  refine .peek ?_
  dsimp only [List.head?_cons]
  rw [if_neg (by simp)]
  refine Fails.getPos fun p => ?_
  refine FailsAt.next ?_
  unfold wordInterpolatedRaw
  exact FailsAt.left (FailsAt.left (h.fails _ (by simp; omega) _ _).fails)

end

/-- `StartsExpansion l`: `$`, a positional parameter or a backtick, or (only possible with tokens that
do not come from the lexer) a backslash directly before a positional parameter. -/
inductive Spec.StartsExpansion : List Token → Prop
  | dollar {r} : StartsExpansion (.Dollar :: r)
  | backtick {r} : StartsExpansion (.Backtick :: r)
  | positional {p r} : StartsExpansion (.ParamPositional p :: r)
  | afterBackslash {p r} : StartsExpansion (.Backslash :: .ParamPositional p :: r)

/-- Every token stream after an opening quote comes to the closing quote, or to
an expansion, or to the end of the input, with text and escaped characters before. -/
theorem dq_every_stream (C : Type) (l : List Token) :
    (∃ u ps r, l = u ++ .DoubleQuote :: r ∧ DqText (C := C) (some .DoubleQuote) u ps) ∨
    (∃ u ps r, l = u ++ r ∧ DqText (C := C) (some .DoubleQuote) u ps ∧ StartsExpansion r) ∨
    (∀ {B : Builder} (b : B.State), DqUnclosed b l b) := by
  match l with
  | [] => exact .inr (.inr fun b => .nil)
  | t :: l =>
    by_cases hb : t = .Backslash
    · subst hb
      match l with
      | [] => exact .inr (.inr fun b => .lastBackslash)
      | t :: l =>
        by_cases ht : t ∈ [Token.Dollar, .Backtick, .DoubleQuote, .Backslash, .Newline]
        · rcases dq_every_stream C l with ⟨u, ps, r, rfl, h⟩ | ⟨u, ps, r, rfl, h, h'⟩ | h
          · exact .inl ⟨_, _, r, rfl, .escaped ht h⟩
          · exact .inr (.inl ⟨_, _, r, rfl, .escaped ht h, h'⟩)
          · exact .inr (.inr fun b => .escaped ht (h b))
        · rcases dq_every_stream C (t :: l) with ⟨u, ps, r, e, h⟩ | ⟨u, ps, r, e, h, h'⟩ | h
          · rcases u with _ | ⟨t', u⟩
            · cases e; simp at ht
            · cases e
              exact .inl ⟨_, _, r, rfl, .backslash ht h⟩
          · rcases u with _ | ⟨t'', u⟩
            · subst e
              cases h' with
              | dollar => simp at ht
              | backtick => simp at ht
              | positional => exact .inr (.inl ⟨[], _, _, rfl, .nil, .afterBackslash⟩)
              | afterBackslash => simp at ht
            · cases e
              exact .inr (.inl ⟨_, _, r, rfl, .backslash ht h, h'⟩)
          · exact .inr (.inr fun b => .backslash ht (h b))
    by_cases hq : t = .DoubleQuote
    · exact .inl ⟨[], [], l, by rw [hq]; rfl, .nil⟩
    by_cases he : StartsExpansion (t :: l)
    · exact .inr (.inl ⟨[], [], _, rfl, .nil, he⟩)
    have h1 : t ≠ .Dollar := fun h => he (h ▸ .dollar)
    have h2 : t ≠ .Backtick := fun h => he (h ▸ .backtick)
    have h3 : ∀ p, t ≠ .ParamPositional p := fun p h => he (h ▸ .positional)
    rcases dq_every_stream C l with ⟨u, ps, r, rfl, h⟩ | ⟨u, ps, r, rfl, h, h'⟩ | h
    · exact .inl ⟨_, _, r, rfl, .text (by simp; tauto) h3 (by simpa using Ne.symm hq) h⟩
    · exact .inr (.inl ⟨_, _, r, rfl, .text (by simp; tauto) h3 (by simpa using Ne.symm hq) h, h'⟩)
    · exact .inr (.inr fun b => .text (by simp; tauto) h3 (h b))
termination_by l.length

/-- **C25, all streams.** Whatever comes after an opening quote, `word_preserve_trailing_whitespace`
reads text and escaped characters up to the closing quote, or comes to an expansion, or reports the
opening quote. -/
theorem C25_every_stream (s : PSt CIter B) (l : List Token) (hs : s.tokens = .DoubleQuote :: l) :
    (∃ u ps r, l = u ++ .DoubleQuote :: r ∧ DqText (some .DoubleQuote) u ps ∧
      (Gram.EndsWord r → ∀ w b',
        B.call (.word (.Single (.DoubleQuoted (gather [] ps)))) s.b = (.ok w, b') →
        Parses .wordPreserveTrailingWhitespace s (some w) r b')) ∨
    (∃ u ps r, l = u ++ r ∧ DqText (C := B.Command) (some .DoubleQuote) u ps ∧ StartsExpansion r) ∨
    FailsWith .wordPreserveTrailingWhitespace s (fun p _ => .Unmatched .DoubleQuote p) [] s.b := by
  rcases dq_every_stream B.Command l with ⟨u, ps, r, rfl, h⟩ | h | h
  · refine .inl ⟨u, ps, r, rfl, h, fun hr w b' hw => ?_⟩
    refine C31_parser_accepts_grammar .wordPreserveTrailingWhitespace trivial _ _ _ _ ?_
    change Reads .wordP s.b s.tokens (some w) _ b'
    rw [hs]
    have := Reads.someWord (d := none) (.refl (by simp [Gram.NoBlank])) (by simp)
      (Reads.consPiece (by simp) (.doubleQuoted (.interp (h.reads r s.b))) (.endWord hr))
    exact .wordPSome this hw
  · exact .inr (.inl h)
  · exact .inr (.inr (C25_missing_quote s l s.b hs (h s.b)))

/-! ## Text -/

/-- The characters that are special in double quotes. -/
def Spec.dqChars : List Char := ['$', '`', '"', '\\']

/-- In double quotes, special characters are escaped. -/
def Spec.dqQuoteChar (c : Char) : Str := if c ∈ dqChars then ['\\', c] else [c]

/-- The usual double quoting of a string. -/
def Spec.doubleQuote (s : Str) : Str := ['"'] ++ s.flatMap dqQuoteChar ++ ['"']

/-- Tokens that are not text in double quotes. -/
def Spec.dqActive : Token → Bool
  | .Dollar | .Backtick | .DoubleQuote | .Backslash | .ParamPositional _ => true
  | _ => false

section
variable {cc : CharClass}

theorem special_ops : ∀ c ∈ dqChars, ∀ p ∈ operators, c ∈ p.1 → p.1.head? = some c := by decide

theorem active_ops : ∀ p ∈ operators, dqActive p.2 = true → ∃ c ∈ dqChars, c ∈ p.1 := by decide

theorem special_start : ∀ c ∈ dqChars, opStart c ∨ c = '\\' := by
  have : ∀ c ∈ dqChars, (operators.any fun p => p.1.head? = some c) ∨ c = '\\' := by decide
  intro c hc
  refine (this c hc).imp_left fun h => ?_
  simpa [opStart] using h

/-- Lexing a source up to a special character. -/
theorem lex_to_special (hs : cc.Sane) (c : Char) (hc : c ∈ dqChars) (rest : Str) :
    ∀ (n : Nat) (s : Str), s.length ≤ n → (∀ d ∈ dqChars, d ∉ s) →
    ∃ u, (∀ t ∈ u, dqActive t = false) ∧ concatTokens u = s ∧
      lex cc (s ++ c :: rest) = u ++ lex cc (c :: rest) := by
  intro n
  induction n with
  | zero =>
    intro s hlen hns
    obtain rfl : s = [] := by simpa using hlen
    exact ⟨[], by simp, rfl, rfl⟩
  | succ n ih =>
    intro s hlen hns
    rcases s with _ | ⟨a, r⟩
    · exact ⟨[], by simp, rfl, rfl⟩
    have ha : a ∉ dqChars := fun h => hns a h (by simp)
    have hr : ∀ d ∈ dqChars, d ∉ r := fun d hd h => hns d hd (by simp [h])
    simp only [List.length_cons, Nat.add_le_add_iff_right] at hlen
    have step : ∀ (x : Str) (t : Token), x ≠ [] → t.asStr = x → c ∉ x → dqActive t = false →
        ∀ y ts', x ++ y = (a :: r) ++ c :: rest → Lexes cc y ts' →
        lex cc ((a :: r) ++ c :: rest) = t :: ts' →
        ∃ u, (∀ t ∈ u, dqActive t = false) ∧ concatTokens u = a :: r ∧
          lex cc (a :: r ++ c :: rest) = u ++ lex cc (c :: rest) := by
      intro x t hx ht hxq htq y ts' e hy hl
      obtain ⟨s', h1, rfl⟩ := split_before hxq e
      have hlen' := congrArg List.length h1
      simp only [List.length_cons, List.length_append] at hlen'
      have := List.length_pos_iff.2 hx
      obtain ⟨u, hu1, hu2, hu3⟩ := ih s' (by omega) (fun d hd h => hns d hd (by rw [h1]; simp [h]))
      rw [(C03_tokens_iff_grammar _ _ _).2 hy] at hu3
      subst hu3
      exact ⟨t :: u, by simpa using ⟨htq, hu1⟩, by rw [concatTokens_cons, ht, hu2, h1], hl⟩
    have hstart : opStart c ∨ c = '\\' := special_start c hc
    have hcw : cc.whitespace c = false := (hs.op _ hstart).2 (fun h => by subst h; revert hc; decide)
    have hplain : ¬ Plain cc c := by
      rintro ⟨h1, h2, _⟩
      exact hstart.elim h2 h1
    rcases lexes_cons_inv (lex_lexes cc (a :: (r ++ c :: rest))) with
      ⟨rfl, _, _⟩ | ⟨d, s', t, ts', rfl, _⟩ | ⟨o, s', t, ts', ho, h, hts, hL, hl⟩ |
      ⟨run, s', ts', h1, h2, h3, h, hts, hm, hl⟩ | ⟨run, s', ts', h1, h2, h, hts, hm, hl⟩ |
      ⟨run, s', ts', h1, h2, h, hts, hm, hl⟩
    · exact absurd (by decide) ha
    · exact absurd (by decide) ha
    · obtain ⟨d, ds, r', rfl, _, e⟩ := longestOp_head hL
      cases e
      have hno : ∀ e ∈ dqChars, e ∉ a :: ds := fun e he hm => by
        have := special_ops e he _ hL.1 hm
        cases this
        exact ha he
      refine step (a :: ds) t (by simp) (operators_asStr _ hL.1) (hno c hc) ?_ s' ts' h.symm hl hts
      by_contra hact
      obtain ⟨e, he, hm⟩ := active_ops _ hL.1 (by simpa using hact)
      exact hno e he hm
    · refine step (a :: run) _ (by simp) rfl ?_ rfl s' ts' (by simp [h]) hl hts
      intro hmem
      rcases List.mem_cons.1 hmem with h | h
      · exact ha (h ▸ hc)
      · have := (hm.1 _ h).1; rw [hcw] at this; cases this
    · refine step (a :: run) _ (by simp) rfl ?_ rfl s' ts' (by simp [h]) hl hts
      intro hmem
      rcases List.mem_cons.1 hmem with h | h
      · exact ha (h ▸ hc)
      · exact hplain (hm.1 _ h).1
    · refine step (a :: run) _ (by simp) rfl ?_ rfl s' ts' (by simp [h]) hl hts
      intro hmem
      rcases List.mem_cons.1 hmem with h | h
      · exact ha (h ▸ hc)
      · exact hplain (hm.1 _ h)

theorem lex_dquote (rest : Str) : lex cc ('"' :: rest) = .DoubleQuote :: lex cc rest := by
  have hop : ([('"' : Char)], Token.DoubleQuote) ∈ operators := by decide
  refine C03_longest_operator cc ['"'] rest _ ⟨hop, ⟨_, rfl⟩, fun p hp hpre => ?_⟩
  have hlen : ∀ p ∈ operators, ('"' : Char) ∈ p.1 → p.1 = ['"'] := by decide
  obtain ⟨r, hr⟩ := hpre
  rcases hpl : p.1 with _ | ⟨d, ds⟩
  · simp
  · rw [hpl] at hr
    cases hr
    rw [← hpl, hlen p hp (by simp [hpl])]

/-- The tokens of the special characters. -/
def Spec.dqTokens : List (Char × Token) :=
  [('$', .Dollar), ('`', .Backtick), ('"', .DoubleQuote), ('\\', .Backslash)]

theorem lex_special (c : Char) (hc : c ∈ dqChars) :
    ∃ t, lex cc [c] = [t] ∧ t.asStr = [c] ∧
      t ∈ [Token.Dollar, .Backtick, .DoubleQuote, .Backslash, .Newline] := by
  have h : ∀ c ∈ dqChars, ∃ p ∈ dqTokens, p.1 = c := by decide
  obtain ⟨⟨c, t⟩, hp, rfl⟩ := h c hc
  have h2 : ∀ p ∈ dqTokens, p.2.asStr = [p.1] ∧
      p.2 ∈ [Token.Dollar, .Backtick, .DoubleQuote, .Backslash, .Newline] ∧
      (([p.1], p.2) ∈ operators ∨ p = ('\\', Token.Backslash)) := by decide
  obtain ⟨h1, h3, h4⟩ := h2 _ hp
  refine ⟨t, ?_, h1, h3⟩
  rw [lex_single]
  have hs := lexSingle_spec cc (c, t).1
  rcases h4 with h4 | h4
  · rw [single_unique hs (.op h4)]
  · cases h4
    rw [single_unique hs .backslash]

theorem dqQuoteChar_id : ∀ z : Str, (∀ d ∈ dqChars, d ∉ z) → z.flatMap dqQuoteChar = z := by
  intro z hz
  induction z with
  | nil => rfl
  | cons c z ih =>
    rw [List.flatMap_cons, ih (fun d hd h => hz d hd (by simp [h])), dqQuoteChar,
      if_neg (fun h => hz c h (by simp))]
    rfl

theorem dqText_append {C : Type} {u v : List Token} {ps : List (Str ⊕ SimpleWordKind C)}
    (hu : ∀ t ∈ u, dqActive t = false) (h : DqText (some .DoubleQuote) v ps) :
    DqText (some .DoubleQuote) (u ++ v) (u.map (fun t => .inl t.asStr) ++ ps) ∧
      partsText (u.map (fun t => .inl t.asStr) ++ ps) = concatTokens u ++ partsText ps := by
  induction u with
  | nil => exact ⟨h, rfl⟩
  | cons t u ih =>
    obtain ⟨h1, h2⟩ := ih (fun t ht => hu t (by simp [ht]))
    have ht := hu t (by simp)
    refine ⟨.text ?_ ?_ ?_ h1, ?_⟩
    · rintro h; simp at h; rcases h with rfl | rfl | rfl <;> simp [dqActive] at ht
    · rintro p rfl; simp [dqActive] at ht
    · rintro h; cases h; simp [dqActive] at ht
    · rw [concatTokens_cons, List.append_assoc, ← h2]; rfl

theorem dq_tokens {C : Type} (hs : cc.Sane) (rest : Str) : ∀ (n : Nat) (s : Str), s.length ≤ n →
    ∃ u ps, lex cc (s.flatMap dqQuoteChar ++ '"' :: rest) = u ++ .DoubleQuote :: lex cc rest ∧
      DqText (C := C) (some .DoubleQuote) u ps ∧ partsText ps = s := by
  intro n
  induction n with
  | zero =>
    intro s hl
    obtain rfl : s = [] := by simpa using hl
    exact ⟨[], [], lex_dquote rest, .nil, rfl⟩
  | succ n ih =>
    intro s hl
    by_cases hsp : ∃ c ∈ s, c ∈ dqChars
    · obtain ⟨x, c, y, rfl, hx, hc⟩ : ∃ x c y, s = x ++ c :: y ∧ (∀ d ∈ dqChars, d ∉ x) ∧ c ∈ dqChars := by
        clear hl
        induction s with
        | nil => simp at hsp
        | cons a s ih =>
          by_cases ha : a ∈ dqChars
          · exact ⟨[], a, s, rfl, by simp, ha⟩
          · have : ∃ c ∈ s, c ∈ dqChars := by
              obtain ⟨c, h1, h2⟩ := hsp
              rcases List.mem_cons.1 h1 with rfl | h1
              · exact absurd h2 ha
              · exact ⟨c, h1, h2⟩
            obtain ⟨x, c, y, rfl, h1, h2⟩ := ih this
            refine ⟨a :: x, c, y, rfl, fun d hd hm => ?_, h2⟩
            rcases List.mem_cons.1 hm with rfl | hm
            · exact ha hd
            · exact h1 d hd hm
      simp only [List.length_append, List.length_cons] at hl
      obtain ⟨v, ps, hv, hd, ht⟩ := ih y (by omega)
      obtain ⟨u, hu1, hu2, hu3⟩ := lex_to_special hs '\\' (by decide)
        (c :: (y.flatMap dqQuoteChar ++ '"' :: rest)) x.length x (Nat.le_refl _) hx
      obtain ⟨t, htok, hstr, hmem⟩ := lex_special (cc := cc) c hc
      obtain ⟨h1, h2⟩ := dqText_append hu1 (DqText.escaped hmem hd)
      refine ⟨_, _, ?_, h1, ?_⟩
      · rw [List.flatMap_append, List.flatMap_cons, dqQuoteChar_id x hx, dqQuoteChar, if_pos hc]
        simp only [List.append_assoc, List.cons_append, List.nil_append]
        rw [hu3, C03_escape_protects_one, htok, hv]
        simp
      · rw [h2, hu2, partsText, ht, hstr]; rfl
    · have hx : ∀ d ∈ dqChars, d ∉ s := fun d hd hm => hsp ⟨d, hm, hd⟩
      obtain ⟨u, hu1, hu2, hu3⟩ := lex_to_special hs '"' (by decide) rest s.length s (Nat.le_refl _) hx
      obtain ⟨h1, h2⟩ := dqText_append (C := C) hu1 .nil
      refine ⟨_, _, ?_, h1, ?_⟩
      · rw [dqQuoteChar_id s hx, hu3, lex_dquote, List.append_nil]
      · rw [h2, hu2, partsText, List.append_nil]

end

/-- **C25, round trip.** For every string `s`, its double quoted form (a backslash before `$`, backticks,
`"` and backslashes) is read as one double quoted word of text and escaped characters that spells
`s`. -/
theorem C25_quoting_round_trip {B : Builder} (cc : CharClass) (hs : cc.Sane) (s rest : Str)
    (hr : Gram.EndsWord (lex cc rest)) (b : B.State) :
    ∃ u ps, DqText (some .DoubleQuote) u ps ∧ partsText ps = s ∧
      ∀ w b', B.call (.word (.Single (.DoubleQuoted (gather [] ps)))) b = (.ok w, b') →
      Parses .wordPreserveTrailingWhitespace (parserOn (lex cc (doubleQuote s ++ rest)) b) (some w)
        (lex cc rest) b' := by
  obtain ⟨u, ps, h1, h2, h3⟩ := dq_tokens (C := B.Command) hs rest s.length s (Nat.le_refl _)
  refine ⟨u, ps, h2, h3, fun w b' hw => ?_⟩
  simp only [doubleQuote, List.append_assoc, List.cons_append, List.nil_append]
  rw [lex_dquote, h1]
  exact (C25_double_quotes u _ ps h2 hr b b' w hw).1

/-! ## With the default builder -/

/-- The text of a fragment in double quotes that is text or an escaped character. -/
def Spec.dqPart {P S : Type} : SimpleWord Str P S → Option Str
  | .Literal s => some s
  | .Escaped s => some s
  | _ => none

/-- The text of a double quoted word of text and escaped characters. -/
def Spec.dqWordText : TopLevelWord Str → Option Str
  | .mk (.Single (.DoubleQuoted ss)) => (ss.mapM dqPart).map List.flatten
  | _ => none

/-- Text fragments and their text. -/
def Spec.kText {C : Type} : SimpleWordKind C → Str
  | .Literal s => s
  | .Escaped s => s
  | _ => []

/-- Text or an escaped character. -/
def Spec.isText {C : Type} : SimpleWordKind C → Bool
  | .Literal _ | .Escaped _ => true
  | _ => false

theorem coalesce_text {C : Type} (xs : List (SimpleWordKind C)) (h : ∀ x ∈ xs, isText x = true) :
    (∀ x ∈ Coalesce.collect coalesceSimple xs, isText x = true) ∧
      (Coalesce.collect coalesceSimple xs).flatMap kText = xs.flatMap kText := by
  rw [Coalesce.collect_eq]
  constructor
  · apply merge_forall coalesceSimple _ _ _ xs h
    · intro a b c hc ha hb
      unfold coalesceSimple at hc
      split at hc <;> cases hc
      rfl
    · intro a b l r hc ha hb
      unfold coalesceSimple at hc
      split at hc <;> cases hc
      exact ⟨ha, hb⟩
  · have key : ∀ (xs : List (SimpleWordKind C)) x,
        (mergeFrom coalesceSimple x xs).flatMap kText = (x :: xs).flatMap kText := by
      intro xs
      induction xs with
      | nil => intro x; rfl
      | cons y ys ih =>
        intro x
        unfold mergeFrom
        cases hf : coalesceSimple x y with
        | ok c =>
          unfold coalesceSimple at hf
          split at hf <;> cases hf
          simp only
          rw [ih]
          simp [kText]
        | error q =>
          unfold coalesceSimple at hf
          split at hf <;> cases hf
          simp only
          rw [List.flatMap_cons, ih]
          simp
    cases xs with
    | nil => rfl
    | cons x xs => exact key xs x

theorem Spec.DqText.gathered {C : Type} {d : Option Token} {u : List Token}
    {ps : List (Str ⊕ SimpleWordKind C)} (h : DqText d u ps) : ∀ s,
    (∀ x ∈ gather s ps, isText x = true) ∧ (gather s ps).flatMap kText = s ++ partsText ps := by
  have ht : ∀ s : Str, (∀ x ∈ textOf (C := C) s, isText x = true) ∧
      (textOf (C := C) s).flatMap kText = s := by
    intro s
    unfold textOf
    split
    · rename_i h; simp [h]
    · simp [isText, kText]
  induction h with
  | nil => intro s; simpa [gather, partsText] using ht s
  | escaped _ _ ih =>
    intro s
    obtain ⟨h1, h2⟩ := ht s
    obtain ⟨h3, h4⟩ := ih []
    simp only [gather, partsText]
    refine ⟨?_, by simp [h2, h4, kText]⟩
    intro x hx
    rcases List.mem_append.1 hx with hx | hx
    · exact h1 x hx
    · rcases List.mem_cons.1 hx with rfl | hx
      · rfl
      · exact h3 x hx
  | backslash _ _ ih => intro s; simpa [gather, partsText] using ih (s ++ ['\\'])
  | @text t _ _ _ _ _ _ ih => intro s; simpa [gather, partsText] using ih (s ++ t.asStr)

theorem dq_word {ss : List (SimpleWordKind (TopLevelCommand Str))} (h : ∀ x ∈ ss, isText x = true) :
    dqWordText (stringCore.word (.Single (.DoubleQuoted ss))) = some (ss.flatMap kText) := by
  unfold Core.word
  have key : ∀ n (hn : (ComplexWordKind.Single (.DoubleQuoted ss)).depth ≤ n),
      dqWordText (stringCore.wordD n (.Single (.DoubleQuoted ss)) hn) = some (ss.flatMap kText) := by
    intro n hn
    cases n with
    | zero => simp [ComplexWordKind.depth] at hn
    | succ n =>
      obtain ⟨h1, h2⟩ := coalesce_text ss h
      simp only [Core.wordD]
      have : ∀ k (hk : k.depth ≤ n + 1), k = .Single (.DoubleQuoted (Coalesce.collect coalesceSimple ss)) →
          dqWordText (stringCore.ofWord (stringCore.mapComplex (stringCore.wordD n) k hk)) =
            some (ss.flatMap kText) := by
        rintro _ hk rfl
        rw [← h2]
        generalize Coalesce.collect coalesceSimple ss = ts at h1 hk
        show ((ts.pmap (stringCore.mapSimple (stringCore.wordD n)) _).mapM dqPart).map List.flatten = _
        generalize_proofs hp
        clear h2 hk
        induction ts with
        | nil => rfl
        | cons t ts ih =>
          have ih := ih (fun x hx => h1 x (by simp [hx])) (fun x hx => hp x (by simp [hx]))
          have ht := h1 t (by simp)
          rw [List.pmap_cons, List.mapM_cons]
          cases hm : (ts.pmap (stringCore.mapSimple (stringCore.wordD n))
              (fun x hx => hp x (by simp [hx]))).mapM dqPart with
          | none => rw [hm] at ih; cases ih
          | some v =>
            rw [hm] at ih
            have e := Option.some.inj ih
            cases t <;> simp [isText] at ht <;> simp [e, Core.mapSimple, dqPart, kText, stringCore]
      exact this _ _ rfl
  exact key _ _

/-- **C25, default builder.** For every string `s`, parsing its double quoted form gives a double quoted
word with the text `s`; what follows is left. -/
theorem C25_quoted_text (cc : CharClass) (hs : cc.Sane) (s rest : Str)
    (hr : Gram.EndsWord (lex cc rest)) :
    ∃ w, Parses (B := DefaultBuilder) .wordPreserveTrailingWhitespace
      (parserOn (lex cc (doubleQuote s ++ rest)) ()) (some w) (lex cc rest) () ∧
      dqWordText w = some s := by
  obtain ⟨u, ps, h1, h2, h3⟩ := C25_quoting_round_trip (B := DefaultBuilder) cc hs s rest hr ()
  refine ⟨_, h3 _ _ rfl, ?_⟩
  have hg := h1.gathered []
  have := dq_word hg.1
  rw [hg.2, h2] at this
  exact this

/-- The hypotheses are met: ``a\b \$`` in double quotes, and a missing quote. -/
example : DqText (C := Unit) (some .DoubleQuote)
    [.Name ['a'], .Backslash, .Name ['b'], .Whitespace [' '], .Backslash, .Dollar]
    [.inl ['a'], .inl ['\\'], .inl ['b'], .inl [' '], .inr (.Escaped ['$'])] :=
  .text (by simp) (by simp) (by simp) (.backslash (by simp) (.text (by simp) (by simp) (by simp)
    (.text (by simp) (by simp) (by simp) (.escaped (by simp) .nil))))

example : DqUnclosed (B := DefaultBuilder) () [.Name ['a'], .Backslash, .DoubleQuote] () :=
  .text (by simp) (by simp) (.escaped (by simp) .nil)

example : String.ofList (doubleQuote "say \"$x\"".toList) = "\"say \\\"\\$x\\\"\"" := by decide

end Conch
