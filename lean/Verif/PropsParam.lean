import Verif.PropsQuote
/-!
# C26: displaying a parameter and parsing it back
-/
namespace Conch
open Spec Gram

/-- Parameters as `Parameter<String>` should be: a variable has a name (as the lexer reads them) and
a positional parameter is a `u32`. -/
def Spec.ValidParam (cc : CharClass) : Parameter Str → Prop
  | .Var v => Shape cc (.Name v)
  | .Positional n => n < 2 ^ 32
  | _ => True

theorem number_append (base : Nat) (ds : List Nat) (d : Nat) :
    number base (ds ++ [d]) = number base ds * base + d := by
  simp [number]

/-- The decimal digits of `n` denote `n`. -/
theorem digits_natDigits (n : Nat) : ∃ ds, Digits 10 (natDigits n) ds ∧ number 10 ds = n := by
  induction n using Nat.strongRecOn with
  | _ n ih =>
    have hdig : ∀ d, d < 10 → (Nat.digitChar d, d) ∈ digitTable := by decide
    unfold natDigits
    rw [Nat.toDigits_eq_if (by decide)]
    split
    · refine ⟨[n], ⟨by simp, ?_⟩, by simp [number]⟩
      rintro p hp
      simp at hp
      subst hp
      exact ⟨hdig n ‹_›, ‹_›⟩
    · rename_i hn
      obtain ⟨ds, ⟨hl, hd⟩, he⟩ := ih (n / 10) (by omega)
      change (Nat.toDigits 10 (n / 10)).length = _ at hl
      change ∀ p ∈ (Nat.toDigits 10 (n / 10)).zip ds, _ at hd
      refine ⟨ds ++ [n % 10], ⟨by simpa using hl, ?_⟩, ?_⟩
      · intro p hp
        rw [List.zip_append hl] at hp
        simp only [List.mem_append, List.zip_cons_cons, List.zip_nil_right, List.mem_singleton] at hp
        rcases hp with hp | rfl
        · exact hd p hp
        · exact ⟨hdig _ (Nat.mod_lt _ (by decide)), Nat.mod_lt _ (by decide)⟩
      · rw [number_append, he]; omega

theorem natDigits_isDigit {n : Nat} {c : Char} (h : c ∈ natDigits n) : isDigit c = true := by
  have := Nat.isDigit_of_mem_toDigits (by decide) (by decide) h
  simp only [Char.isDigit, Bool.and_eq_true, decide_eq_true_eq] at this
  simp only [isDigit, Bool.and_eq_true, decide_eq_true_eq]
  exact this

section
variable {cc : CharClass}

theorem lit_shape (hs : cc.Sane) (n : Nat) : Shape cc (.Literal (natDigits n)) := by
  have hne : natDigits n ≠ [] := Nat.toDigits_ne_nil
  have hd : ∀ c ∈ natDigits n, isDigit c = true := fun c hc => natDigits_isDigit hc
  generalize natDigits n = s at hne hd
  obtain ⟨c, r, rfl⟩ := List.exists_cons_of_ne_nil hne
  refine ⟨c, r, rfl, ?_, fun d h => ?_⟩
  · rintro (h | h)
    · have := hd c (by simp); rw [h] at this; revert this; decide
    · rw [hs.digit c (hd c (by simp))] at h; cases h
  · have := hs.plain (c := d) (by simp [CharClass.nameChar, hd d h])
    exact ⟨this.2.2, this.1, this.2.1⟩

/-- A source that starts with a digit does not start with a word delimiter. -/
theorem head_not_digit (hs : cc.Sane) {rest : Str} (hr : Gram.EndsWord (lex cc rest)) {c : Char}
    (hc : rest.head? = some c) : isDigit c = false := by
  rw [← Bool.not_eq_true]
  intro hd
  rcases rest with _ | ⟨d, r⟩
  · cases hc
  cases hc
  have hp := hs.plain (c := c) (by simp [CharClass.nameChar, hd])
  rcases lexes_cons_inv (lex_lexes cc (c :: r)) with ⟨rfl, _⟩ | ⟨_, _, _, _, rfl, _⟩ | ⟨_, _, _, _, ho, _⟩ |
      ⟨_, _, _, _, _, hw, _⟩ | ⟨_, _, _, _, _, _, h, _⟩ | ⟨_, _, _, _, _, _, h, _⟩
  · exact hp.1 rfl
  · exact hp.1 rfl
  · exact hp.2.1 ho
  · rw [hp.2.2] at hw; cases hw
  · have := hr _ _ h; cases this
  · have := hr _ _ h; cases this

theorem lex_cons (hs : cc.Sane) {t : Token} {s : Str} (h : Shape cc t) (hb : t ≠ .Backslash)
    (he : ∀ c, s.head? = some c → Ends cc t c) : lex cc (t.asStr ++ s) = t :: lex cc s :=
  (C03_tokens_iff_grammar _ _ _).2 (lexes_cons hs h hb he (lex_lexes cc s))

/-- Operators that are not the start of a longer one. -/
def closedOps : List Token :=
  [.At, .Star, .Pound, .Question, .Dash, .Bang, .CurlyOpen, .CurlyClose, .ParamPositional .Zero,
   .ParamPositional .One, .ParamPositional .Two, .ParamPositional .Three, .ParamPositional .Four,
   .ParamPositional .Five, .ParamPositional .Six, .ParamPositional .Seven, .ParamPositional .Eight,
   .ParamPositional .Nine]

theorem lex_closed (hs : cc.Sane) {t : Token} (ht : t ∈ closedOps) (s : Str) :
    lex cc (t.asStr ++ s) = t :: lex cc s := by
  have h1 : ∀ t ∈ closedOps, t ≠ Token.Backslash := by decide
  have h2 : ∀ t ∈ closedOps, (t.asStr, t) ∈ operators := by decide
  have h3 : ∀ t ∈ closedOps, ∀ p ∈ operators, t.asStr.isPrefixOf p.1 → p.1.length ≤ t.asStr.length := by decide
  have h4 : ∀ t ∈ closedOps, isVar t = false := by decide
  refine lex_cons hs ?_ (h1 t ht) fun c _ => ?_
  · have := h2 t ht; have h4 := h4 t ht
    cases t <;> first | exact .inl this | cases h4
  · have key : ∀ p ∈ operators, ¬ t.asStr ++ [c] <+: p.1 := by
      intro p hp hpre
      have := h3 t ht p hp (by simpa using (List.prefix_append _ _).trans hpre)
      have := hpre.length_le
      simp at this; omega
    have h4 := h4 t ht
    cases t <;> first | exact key | cases h4

theorem dollar_ends {c : Char} (h : isDigit c = false) : Ends cc .Dollar c := by
  have key : ∀ p ∈ operators, ['$'].isPrefixOf p.1 → p.1 = ['$'] ∨ ∃ d ∈ ['0','1','2','3','4','5','6','7','8','9'], p.1 = ['$', d] := by
    decide
  intro p hp hpre
  change ['$', c] <+: p.1 at hpre
  have hd : ∀ d ∈ ['0','1','2','3','4','5','6','7','8','9'], isDigit d = true := by decide
  rcases key p hp (by simpa using (List.prefix_append ['$'] [c]).trans hpre) with h' | ⟨d, hd', h'⟩
  · have := hpre.length_le; rw [h'] at this; simp at this
  · rw [h'] at hpre
    obtain ⟨r, hr⟩ := hpre
    cases hr
    rw [hd _ hd'] at h; cases h

theorem lex_dollar (hs : cc.Sane) {s : Str} (h : ∀ c, s.head? = some c → isDigit c = false) :
    lex cc ('$' :: s) = .Dollar :: lex cc s :=
  lex_cons hs (t := .Dollar) (.inl (by decide)) (by simp) fun c hc => dollar_ends (h c hc)

/-- The tokens of a displayed parameter, read by the grammar. -/
theorem display_reads {B : Builder} (hs : cc.Sane) (p : Parameter Str) (hp : ValidParam cc p)
    (rest : Str) (hr : ∀ c, rest.head? = some c → isDigit c = false) (b : B.State) :
    Reads .param b (lex cc (p.display ++ rest)) (.Param p) (lex cc rest) b ∧
      ∃ t r, lex cc (p.display ++ rest) = t :: r ∧ t.isWordDelimiter = false ∧ t ≠ .Pound ∧
        (∀ w, t ≠ .Whitespace w) ∧ t ≠ .Backslash := by
  have special : ∀ (t : Token), t ∈ closedOps → (∀ c r, t.asStr = c :: r → isDigit c = false) → (t, p) ∈ specialParams →
      p.display = '$' :: t.asStr → Reads .param b (lex cc (p.display ++ rest)) (.Param p) (lex cc rest) b ∧
      ∃ t r, lex cc (p.display ++ rest) = t :: r ∧ t.isWordDelimiter = false ∧ t ≠ .Pound ∧
        (∀ w, t ≠ .Whitespace w) ∧ t ≠ .Backslash := by
    intro t ht hd hsp he
    have hne : ∀ t ∈ closedOps, t.asStr ≠ [] := by decide
    have : lex cc (p.display ++ rest) = .Dollar :: t :: lex cc rest := by
      rw [he, List.cons_append, lex_dollar hs, lex_closed hs ht]
      intro c hc
      obtain ⟨d, r, h⟩ := List.exists_cons_of_ne_nil (hne t ht)
      rw [h] at hc; cases hc
      exact hd _ _ h
    rw [this]
    exact ⟨.parameter (.special hsp), _, _, rfl, rfl, by simp, by simp, by simp⟩
  have braces : ∀ (t : Token), t ≠ .Backslash → Shape cc t → Ends cc t '}' → ParamIn t p →
      p.display = ['$', '{'] ++ t.asStr ++ ['}'] → Reads .param b (lex cc (p.display ++ rest)) (.Param p) (lex cc rest) b ∧
      ∃ t r, lex cc (p.display ++ rest) = t :: r ∧ t.isWordDelimiter = false ∧ t ≠ .Pound ∧
        (∀ w, t ≠ .Whitespace w) ∧ t ≠ .Backslash := by
    intro t hb hsh hend hin he
    have : lex cc (p.display ++ rest) = .Dollar :: .CurlyOpen :: t :: .CurlyClose :: lex cc rest := by
      rw [he]
      simp only [List.append_assoc, List.cons_append, List.nil_append]
      have h1 : '{' :: (t.asStr ++ '}' :: rest) = Token.CurlyOpen.asStr ++ (t.asStr ++ '}' :: rest) := rfl
      have h2 : '}' :: rest = Token.CurlyClose.asStr ++ rest := rfl
      rw [lex_dollar hs (by intro c hc; cases hc; decide), h1, lex_closed hs (by decide),
        lex_cons hs hsh hb (by intro c hc; cases hc; exact hend), h2, lex_closed hs (by decide)]
    rw [this]
    exact ⟨.braced hin .curlyEnd, _, _, rfl, rfl, by simp, by simp, by simp⟩
  have hcurly : opStart '}' := ⟨_, show (['}'], Token.CurlyClose) ∈ operators by decide, rfl⟩
  cases p with
  | At => exact special .At (by decide) (by intro c r h; cases h; decide) (by simp [specialParams]) rfl
  | Star => exact special .Star (by decide) (by intro c r h; cases h; decide) (by simp [specialParams]) rfl
  | Pound => exact special .Pound (by decide) (by intro c r h; cases h; decide) (by simp [specialParams]) rfl
  | Question => exact special .Question (by decide) (by intro c r h; cases h; decide) (by simp [specialParams]) rfl
  | Dash => exact special .Dash (by decide) (by intro c r h; cases h; decide) (by simp [specialParams]) rfl
  | Bang => exact special .Bang (by decide) (by intro c r h; cases h; decide) (by simp [specialParams]) rfl
  | Dollar =>
    have : lex cc (Parameter.Dollar.display ++ rest) = .Dollar :: .Dollar :: lex cc rest := by
      rw [show Parameter.Dollar.display ++ rest = '$' :: '$' :: rest from rfl,
        lex_dollar hs (by intro c hc; cases hc; decide), lex_dollar hs hr]
    rw [this]
    exact ⟨.parameter (.special (by simp [specialParams])), _, _, rfl, rfl, by simp, by simp, by simp⟩
  | Var v =>
    refine braces (.Name v) (by simp) hp ?_ (.name .var) rfl
    show cc.nameChar '}' = false
    rw [← Bool.not_eq_true]
    exact fun h => (hs.plain h).2.1 hcurly
  | Positional n =>
    by_cases hn : n ≤ 9
    · have key : ∀ n, n ≤ 9 → ∃ q, Token.ParamPositional q ∈ closedOps ∧ q.asNum = n ∧
          (Parameter.Positional n : Parameter Str).display = (Token.ParamPositional q).asStr := by
        intro n hn
        have : ∀ n < 10, ∃ q ∈ [Positional.Zero, .One, .Two, .Three, .Four, .Five, .Six, .Seven, .Eight, .Nine],
            Token.ParamPositional q ∈ closedOps ∧ q.asNum = n ∧
            (Parameter.Positional n : Parameter Str).display = (Token.ParamPositional q).asStr := by decide
        obtain ⟨q, _, h⟩ := this n (by omega)
        exact ⟨q, h⟩
      obtain ⟨q, h1, h2, h3⟩ := key n hn
      rw [h3, lex_closed hs h1]
      have := Reads.positional (B := B) (b := b) (p := q) (r := lex cc rest)
      rw [h2] at this
      exact ⟨this, _, _, rfl, rfl, by simp, by simp, by simp⟩
    · obtain ⟨ds, hd, he⟩ := digits_natDigits n
      refine braces (.Literal (natDigits n)) (by simp) (lit_shape hs n) ?_ ?_ ?_
      · intro h; exact h.2.1 hcurly
      · have hne : natDigits n ≠ [] := Nat.toDigits_ne_nil
        have hS : Signed 10 (natDigits n) (n : Int) := by
          have := Signed.plain (base := 10) hne hd
          rwa [he] at this
        have := ParamIn.number hS (by simp only [ValidParam] at hp; omega) (by
          intro h
          have := natDigits_isDigit (List.mem_of_head? h)
          revert this; decide)
        simpa using this
      · show (if n ≤ 9 then _ else _) = _
        rw [if_neg hn]; rfl

end

/-- **C26, `parameter`.** Parsing a displayed parameter gives the builder that same parameter, and
leaves what follows (which must not start with a digit: `$$` directly before `1` is something
else). -/
theorem C26_display_parse_parameter {B : Builder} (cc : CharClass) (hs : cc.Sane) (p : Parameter Str)
    (hp : ValidParam cc p) (rest : Str) (hr : ∀ c, rest.head? = some c → isDigit c = false)
    (b b' : B.State) (w : B.Word) (hw : B.call (.word (.Single (.Simple (.Param p)))) b = (.ok w, b')) :
    Parses .parameter (parserOn (lex cc (p.display ++ rest)) b) w (lex cc rest) b' := by
  refine C31_parser_accepts_grammar .parameter trivial _ _ _ _ ?_
  refine ⟨.Param p, b, ?_, hw⟩
  rw [PSt.tokens, parserOn_rest]
  exact (display_reads hs p hp rest hr b).1

/-- **C26, `word`.** The same as a word of its own. -/
theorem C26_display_parse_word {B : Builder} (cc : CharClass) (hs : cc.Sane) (p : Parameter Str)
    (hp : ValidParam cc p) (rest : Str) (hr : Gram.EndsWord (lex cc rest))
    (b b' : B.State) (w : B.Word) (hw : B.call (.word (.Single (.Simple (.Param p)))) b = (.ok w, b')) :
    Parses .wordPreserveTrailingWhitespace (parserOn (lex cc (p.display ++ rest)) b) (some w) (lex cc rest) b' := by
  refine C31_parser_accepts_grammar .wordPreserveTrailingWhitespace trivial _ _ _ _ ?_
  show Reads .wordP b (parserOn (B := B) _ b).tokens (some w) _ b'
  rw [PSt.tokens, parserOn_rest]
  obtain ⟨h1, t, r, h2, h3, h4, h5, h6⟩ := display_reads hs p hp rest (fun c hc => head_not_digit hs hr hc) b
  rw [h2] at h1 ⊢
  have hn : Gram.NoBlank (t :: r) := ⟨fun w r' h => h5 w (List.cons.inj h).1, fun r' h => h6 (List.cons.inj h).1⟩
  exact .wordPSome (.someWord (ws := [.Simple (.Param p)]) (.refl hn) (fun r' h => h4 (List.cons.inj h).1)
    (.consPiece (by simp) (.pieceParam h1) (.endWord hr))) hw

/-- **C26, default builder.** The default builder returns exactly the parameter. -/
theorem C26_display_round_trip (cc : CharClass) (hs : cc.Sane) (p : Parameter Str) (hp : ValidParam cc p) :
    Parses (B := DefaultBuilder) .word (parserOn (lex cc p.display) ()) (some (.mk (.Single (.Simple (.Param p))))) [] () := by
  have hw : DefaultBuilder.call (.word (.Single (.Simple (.Param p)))) () =
      (.ok (.mk (.Single (.Simple (.Param p)))), ()) := by
    have : ∀ p : Parameter Str, mapParam (T := Str) id p = p := by intro p; cases p <;> rfl
    have h2 : stringCore.word (.Single (.Simple (.Param p))) =
        .mk (.Single (.Simple (.Param (mapParam id p)))) := rfl
    rw [this] at h2
    exact congrArg (fun x => (BOut.ok x, ())) h2
  refine C31_parser_accepts_grammar .word trivial _ _ _ _ ?_
  refine .word (l' := []) ?_ ⟨[], rfl, .nil, by simp [Gram.NoBlank]⟩
  rw [PSt.tokens, parserOn_rest]
  have hn : lex cc ([] : Str) = [] := rfl
  have hr : Gram.EndsWord (lex cc []) := by rw [hn]; intro t r h; cases h
  obtain ⟨h1, t, r, h2, h3, h4, h5, h6⟩ := display_reads (B := DefaultBuilder) hs p hp [] (by simp) ()
  rw [List.append_nil] at h1 h2
  rw [h2] at h1 ⊢
  have hb : Gram.NoBlank (t :: r) := ⟨fun w r' h => h5 w (List.cons.inj h).1, fun r' h => h6 (List.cons.inj h).1⟩
  exact .wordPSome (.someWord (ws := [.Simple (.Param p)]) (.refl hb) (fun r' h => h4 (List.cons.inj h).1)
    (.consPiece (by simp) (.pieceParam h1) (.endWord hr))) hw

example : ValidParam ascii (.Var "foo_1".toList) ∧ ValidParam ascii (.Positional 4294967295) :=
  ⟨⟨'f', "oo_1".toList, rfl, by decide, by decide⟩, by simp [ValidParam]⟩

end Conch
