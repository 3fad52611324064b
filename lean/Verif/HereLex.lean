import Verif.LexAppend
import Verif.PropsDquote
import Verif.HereText
import Verif.PropsParam
/-!
# Lexing the first line of a here-document (C30)
-/
namespace Conch
open Spec Gram

section
variable {cc : CharClass}

theorem token_chars {u : List Token} {x : Str} (h : concatTokens u = x) {t : Token} (ht : t ∈ u) :
    ∀ c ∈ t.asStr, c ∈ x := by
  intro c hc
  rw [← h]
  exact List.mem_flatMap.2 ⟨t, ht, hc⟩

theorem lex_chars {x : Str} {t : Token} (ht : t ∈ lex cc x) : ∀ c ∈ t.asStr, c ∈ x :=
  token_chars (C01_concat_tokens cc x) ht

theorem lex_empty : lex cc [] = [] := (C03_tokens_iff_grammar _ _ _).2 .nil

theorem no_newline {raw : Str} (h : '\n' ∉ raw) : ∀ t ∈ lex cc raw, t ≠ .Newline := by
  rintro t ht rfl
  exact h (lex_chars ht '\n' (by simp [Token.asStr]))

/-- Characters that only start tokens. -/
def Spec.Starter (c : Char) : Prop := c ∉ ";&|<->0123456789".toList

theorem starter_ops {p : Str × Token} (hp : p ∈ operators) {x y : Str} {c : Char} (h : p.1 = x ++ c :: y)
    (hx : x ≠ []) : ¬ Starter c := by
  have key : ∀ p ∈ operators, ∀ c ∈ p.1.tail, c ∈ ";&|<->0123456789".toList := by decide
  obtain ⟨d, x, rfl⟩ := List.exists_cons_of_ne_nil hx
  intro hc
  exact hc (key p hp c (by rw [h]; simp))

/-- Text without backslashes is lexed on its own if what follows starts a new token. -/
theorem lex_break (s : Str) (c : Char) (rest : Str) (h1 : '\\' ∉ s) (hp : ¬ Plain cc c)
    (hst : Starter c) (hb : Blank cc c → ∀ d ∈ s, cc.whitespace d = false) :
    lex cc (s ++ c :: rest) = lex cc s ++ lex cc (c :: rest) := by
  rw [C03_tokens_iff_grammar]
  have h := lex_lexes cc s
  generalize lex cc s = ts at h
  induction h with
  | nil => exact lex_lexes cc _
  | trailingBackslash => simp at h1
  | escape h _ ih => simp at h1
  | op h _ ih =>
    rename_i o t s ts _
    rw [List.append_assoc]
    have := longestOp_append (c := c) (rest := rest) h fun p hp hpre => by
      exfalso
      obtain ⟨d, ds, r, rfl, -⟩ := longestOp_head h
      obtain ⟨z, hz⟩ := hpre
      exact starter_ops hp (x := d :: ds ++ s) (y := z) (c := c) (by rw [← hz]; simp) (by simp) hst
    rw [List.append_assoc] at this
    exact .op this (ih (fun h => h1 (by simp [h])) (fun g d hd => hb g d (by simp [hd])))
  | blank g1 g2 g3 g4 _ ih =>
    rw [List.append_assoc]
    refine .blank g1 g2 g3 (maximalRun_append g4 (fun h => ?_))
      (ih (fun h => h1 (by simp [h])) (fun g d hd => hb g d (by simp [hd])))
    rw [hb h _ (List.mem_append_left _ (List.mem_cons_self ..))] at g3; cases g3
  | name g1 g2 g3 _ ih =>
    rw [List.append_assoc]
    exact .name g1 g2 (maximalRun_append g3 (fun h => hp h.1))
      (ih (fun h => h1 (by simp [h])) (fun g d hd => hb g d (by simp [hd])))
  | literal g1 g2 g3 _ ih =>
    rw [List.append_assoc]
    exact .literal g1 g2 (maximalRun_append g3 hp)
      (ih (fun h => h1 (by simp [h])) (fun g d hd => hb g d (by simp [hd])))

/-- Text of characters that start no longer operators, before anything that is not an ordinary character. -/
theorem lex_bare (s : Str) (hs : ∀ c ∈ s, Bare cc c) (c : Char) (rest : Str) (hp : ¬ Plain cc c) :
    lex cc (s ++ c :: rest) = lex cc s ++ lex cc (c :: rest) := by
  rw [C03_tokens_iff_grammar]
  have h := lex_lexes cc s
  generalize lex cc s = ts at h
  induction h with
  | nil => exact lex_lexes cc _
  | trailingBackslash => exact absurd (by decide) (hs '\\' (by simp)).2
  | escape h _ ih => exact absurd (by decide) (hs '\\' (by simp)).2
  | op h _ ih =>
    rename_i o t s ts _
    rw [List.append_assoc]
    have := longestOp_append (c := c) (rest := rest) h fun p hp hpre => by
      exfalso
      obtain ⟨d, ds, r, rfl, -⟩ := longestOp_head h
      have key : ∀ p ∈ operators, 1 < p.1.length → ∀ d ∈ p.1.head?, d ∈ "\n;&|<>()'\"`\\$".toList := by decide
      obtain ⟨z, hz⟩ := hpre
      have hl : 1 < p.1.length := by
        rw [← hz]; simp only [List.length_append, List.length_cons, List.length_nil]; omega
      exact (hs d (by simp)).2 (key p hp hl d (by rw [← hz]; simp))
    rw [List.append_assoc] at this
    exact .op this (ih fun c hc => hs c (by simp [hc]))
  | blank _ _ h => rw [(hs _ (by simp)).1] at h; cases h
  | name g1 g2 g3 _ ih =>
    rw [List.append_assoc]
    exact .name g1 g2 (maximalRun_append g3 (fun h => hp h.1)) (ih fun c hc => hs c (by simp [hc]))
  | literal g1 g2 g3 _ ih =>
    rw [List.append_assoc]
    exact .literal g1 g2 (maximalRun_append g3 hp) (ih fun c hc => hs c (by simp [hc]))

/-! ## The rest of the line -/

/-- The closing characters and their tokens. -/
def closers : List (Char × Token) :=
  [('\n', .Newline), ('"', .DoubleQuote), ('`', .Backtick), (')', .ParenClose), ('}', .CurlyClose)]

/-- Operators of one character that are not part of longer ones. -/
theorem lex_lone (hs : cc.Sane) {c : Char} {t : Token} (h : ([c], t) ∈ operators)
    (hc : ∀ p ∈ operators, p.1.head? = some c → p.1 = [c]) (rest : Str) : lex cc (c :: rest) = t :: lex cc rest := by
  have e : t.asStr = [c] := operators_asStr _ h
  have := lex_op cc hs (s := rest) (t := t) (by rw [e]; exact h) (by
    rintro rfl
    have : ∀ p ∈ operators, p.2 ≠ .Backslash := by decide
    exact this _ h rfl) (by
    intro d hd p hp hpre
    rw [e] at hpre
    have hh : p.1.head? = some c := by
      obtain ⟨z, hz⟩ := hpre
      rw [← hz]; rfl
    rw [hc p hp hh] at hpre
    have := hpre.length_le
    simp at this)
  rwa [e] at this

theorem closer_spec : ∀ p ∈ closers, ([p.1], p.2) ∈ operators ∧ (∀ q ∈ operators, q.1.head? = some p.1 → q.1 = [p.1]) ∧
    p.1 ∉ ";&|<->0123456789".toList ∧ p.2 ≠ .SingleQuote ∧ (p.2 = .DoubleQuote → p.1 = '"') ∧ p.1 ≠ '{' ∧
    p.2.asStr = [p.1] ∧ p.2 ≠ .CurlyOpen ∧ isDigit p.1 = false ∧ p.2 ∉ [Token.Backslash, .Dollar] := by decide

/-- What interrupts ordinary text. -/
def breakers : Str := "\\$`('\"\n)}".toList

theorem breaker_notPlain {c : Char} (h : c ∈ breakers) : ¬ Plain cc c := by
  rintro ⟨h1, h2, -⟩
  have : ∀ c ∈ breakers, c = '\\' ∨ ∃ p ∈ operators, p.1.head? = some c := by decide
  rcases this c h with rfl | h
  · exact h1 rfl
  · exact h2 h

theorem lex_breaker (hs : cc.Sane) (s : Str) (c : Char) (rest : Str) (h1 : '\\' ∉ s) (hc : c ∈ breakers) :
    lex cc (s ++ c :: rest) = lex cc s ++ lex cc (c :: rest) := by
  refine lex_break s c rest h1 (breaker_notPlain hc) ?_ ?_
  · have : ∀ c ∈ breakers, c ∉ ";&|<->0123456789".toList := by decide
    exact this c hc
  · intro hb
    have : ∀ c ∈ breakers, c = '\\' ∨ ∃ p ∈ operators, p.1.head? = some c := by decide
    have h2 := hs.blank hb.1 hb.2
    rcases this c hc with rfl | h
    · exact absurd rfl h2.1
    · exact absurd h h2.2

/-- The tokens of ordinary text. -/
theorem ordinary_toks {e : Char} {k : Token} (hk : (e, k) ∈ closers) {p : Str}
    (hp : ∀ x ∈ p, x ≠ e ∧ x ∉ "\\$`(".toList ∧ (e ≠ '"' → x ∉ "'\"".toList)) {t : Token} (ht : t ∈ lex cc p) :
    t ≠ k ∧ Ordinary (some k) t := by
  have hc := fun c hc => hp c (lex_chars ht c hc)
  have hsp := closer_spec _ hk
  have no : ∀ {k' : Token} {c : Char}, k'.asStr = [c] → (c ∈ "\\$`(".toList ∨ c = e ∨ (e ≠ '"' ∧ c ∈ "'\"".toList)) → t ≠ k' := by
    rintro k' c e1 e2 rfl
    obtain ⟨h1, h2, h3⟩ := hc c (by rw [e1]; simp)
    rcases e2 with e2 | e2 | e2
    · exact h2 e2
    · exact h1 e2
    · exact h3 e2.1 e2.2
  refine ⟨no hsp.2.2.2.2.2.2.1 (.inr (.inl rfl)), no (c := '\\') rfl (.inl (by decide)), no (c := '$') rfl (.inl (by decide)), ?_⟩
  rintro c' ho
  generalize t = t' at *
  cases ho with
  | backtick => exact no (c := '`') rfl (.inl (by decide)) rfl
  | squote h =>
    refine no (c := '\'') rfl (.inr (.inr ⟨?_, by decide⟩)) rfl
    rintro rfl
    have key : ∀ p ∈ closers, p.1 = '"' → p.2 = .DoubleQuote := by decide
    exact h (congrArg some (key _ hk rfl))
  | dquote =>
    by_cases he : e = '"'
    · exact no (c := '"') rfl (.inr (.inl he.symm)) rfl
    · exact no (c := '"') rfl (.inr (.inr ⟨he, by decide⟩)) rfl
  | paren => exact no (c := '(') rfl (.inl (by decide)) rfl

theorem body_plain {k : Token} (hk : k ≠ .SingleQuote) {u v : List Token} (h : ∀ t ∈ u, t ≠ k ∧ Ordinary (some k) t)
    (hv : Body k (anywhere v)) : Body k (anywhere (u ++ v)) := by
  induction u with
  | nil => exact hv
  | cons t u ih =>
    exact .plain (t := (⟨0, 1, 1⟩, t)) hk (h t (by simp)).1 (h t (by simp)).2 (ih fun t ht => h t (by simp [ht]))

theorem body_squote {u : List Token} (h : ∀ t ∈ u, t ≠ .SingleQuote) : Body .SingleQuote (anywhere u) := by
  induction u with
  | nil => exact .nil
  | cons t u ih => exact .quoted (h t (by simp)) (ih fun t ht => h t (by simp [ht]))

/-- Ordinary text up to what interrupts it. -/
theorem spans_split {e : Char} {s : Str} (h : Spans e s) :
    ∃ p s', s = p ++ s' ∧ (∀ x ∈ p, x ≠ e ∧ x ∉ "\\$`(".toList ∧ (e ≠ '"' → x ∉ "'\"".toList)) ∧ Spans e s' ∧
      (s' = [] ∨ ∃ c r, s' = c :: r ∧ c ∈ "\\$`('\"".toList) ∧ ((∃ c r, s = c :: r ∧ c ≠ e ∧ c ∉ "\\$`(".toList ∧ (e ≠ '"' → c ∉ "'\"".toList)) → p ≠ []) := by
  induction h with
  | nil => exact ⟨[], [], rfl, by simp, .nil, .inl rfl, by rintro ⟨c, r, h, -⟩; cases h⟩
  | char h1 h2 h3 _ ih =>
    obtain ⟨p, s', rfl, h4, h5, h6, -⟩ := ih
    refine ⟨_ :: p, s', rfl, ?_, h5, h6, by simp⟩
    intro x hx
    rcases List.mem_cons.1 hx with rfl | hx
    · exact ⟨h1, h2, h3⟩
    · exact h4 x hx
  | escaped h _ => exact ⟨[], _, rfl, by simp, .escaped h, .inr ⟨_, _, rfl, by decide⟩, by rintro ⟨c, r, h, -, h', -⟩; cases h; exact absurd (by decide) h'⟩
  | quoted h1 h2 h _ =>
    exact ⟨[], _, rfl, by simp, .quoted h1 h2 h, .inr ⟨_, _, rfl, by decide⟩, by rintro ⟨c, r, h, -, -, h'⟩; cases h; exact absurd (by decide) (h' h1)⟩
  | nested h1 h2 h3 h4 _ _ =>
    refine ⟨[], _, rfl, by simp, .nested h1 h2 h3 h4, .inr ⟨_, _, rfl, ?_⟩, ?_⟩
    · have : ∀ p ∈ [('"', '"'), ('`', '`'), ('(', ')')], p.1 ∈ "\\$`('\"".toList := by decide
      exact this _ h1
    · rintro ⟨c, r, h, h5, h6, h'⟩
      cases h
      simp only [List.mem_cons, List.not_mem_nil, or_false, Prod.mk.injEq] at h1
      rcases h1 with ⟨rfl, rfl⟩ | ⟨rfl, rfl⟩ | ⟨rfl, rfl⟩
      · exact absurd (by decide) (h' h2)
      · exact absurd (by decide) h6
      · exact absurd (by decide) h6
  | braces h1 h2 _ _ => exact ⟨[], _, rfl, by simp, .braces h1 h2, .inr ⟨_, _, rfl, by decide⟩, by rintro ⟨c, r, h, -, h', -⟩; cases h; exact absurd (by decide) h'⟩
  | dollar h1 h2 _ => exact ⟨[], _, rfl, by simp, .dollar h1 h2, .inr ⟨_, _, rfl, by decide⟩, by rintro ⟨c, r, h, -, h', -⟩; cases h; exact absurd (by decide) h'⟩

theorem digit_param {d : Char} (h : isDigit d = true) : ∃ p : Positional, (Token.ParamPositional p).asStr = ['$', d] ∧
    ((Token.ParamPositional p).asStr, Token.ParamPositional p) ∈ operators ∧
    ∀ {s : Str} (c : Char), s.head? = some c → ∀ p' ∈ operators, ¬ (Token.ParamPositional p).asStr ++ [c] <+: p'.1 := by
  have hd : d ∈ "0123456789".toList := by
    simp only [isDigit, Bool.and_eq_true, decide_eq_true_eq] at h
    have h3 : 48 ≤ d.toNat ∧ d.toNat ≤ 57 := h
    have h4 : ∀ m, m ≤ 57 → 48 ≤ m → Char.ofNat m ∈ "0123456789".toList := by decide
    have := h4 d.toNat h3.2 h3.1
    rwa [Char.ofNat_toNat] at this
  have key : ∀ d ∈ "0123456789".toList, ∃ q ∈ operators, q.1 = ['$', d] ∧ q.2.asStr = ['$', d] := by decide
  obtain ⟨q, h1, h2, h3⟩ := key d hd
  have hpos : ∀ q ∈ operators, q.1.head? = some '$' → q.1.length = 2 → ∃ p, q.2 = .ParamPositional p := by
    have : ∀ q ∈ operators, q.1.head? = some '$' → q.1.length = 2 → (match q.2 with | .ParamPositional _ => true | _ => false) = true := by decide
    intro q h1 h2 h3
    have := this q h1 h2 h3
    generalize q.2 = t at this
    cases t <;> first | exact ⟨_, rfl⟩ | cases this
  obtain ⟨p, hp⟩ := hpos q h1 (by rw [h2]; rfl) (by rw [h2]; rfl)
  rw [hp] at h3
  refine ⟨p, h3, ?_, ?_⟩
  · rw [h3, ← h2, ← hp]; exact h1
  · intro s c _ p' hp' hpre
    have : ∀ p ∈ operators, p.1.length = 3 → p.1.head? = some '<' := by decide
    have hl : ∀ p ∈ operators, p.1.length ≤ 3 := by decide
    rw [h3] at hpre
    have h5 := hpre.length_le
    have h6 := hl p' hp'
    have h7 := this p' hp' (by simp at h5; omega)
    obtain ⟨z, hz⟩ := hpre
    rw [← hz] at h7
    cases h7

theorem spans_lex (hs : cc.Sane) : ∀ (n : Nat) {e : Char} {k : Token} (_ : (e, k) ∈ closers) {s : Str}, s.length ≤ n → Spans e s →
    ∀ rest, ∃ xs, lex cc (s ++ e :: rest) = xs ++ k :: lex cc rest ∧ Body k (anywhere xs) := by
  intro n
  induction n with
  | zero =>
    intro e k hk s hl _ rest
    obtain rfl : s = [] := by simpa using hl
    have h := closer_spec _ hk
    exact ⟨[], lex_lone hs h.1 h.2.1 rest, .nil⟩
  | succ n ih =>
    intro e k hk s hl h rest
    have hsp := closer_spec _ hk
    have hsq : k ≠ .SingleQuote := hsp.2.2.2.1
    have hk' : k = .DoubleQuote ↔ e = '"' := by
      have key : ∀ p ∈ closers, p.2 = .DoubleQuote ↔ p.1 = '"' := by decide
      exact key _ hk
    by_cases hst : ∃ c r, s = c :: r ∧ c ≠ e ∧ c ∉ "\\$`(".toList ∧ (e ≠ '"' → c ∉ "'\"".toList)
    · obtain ⟨p, s', rfl, h1, h2, h3, h4⟩ := spans_split h
      have hp := h4 hst
      have hlen : s'.length ≤ n := by
        have := List.length_pos_of_ne_nil hp
        rw [List.length_append] at hl; omega
      obtain ⟨xs, g1, g2⟩ := ih hk hlen h2 rest
      refine ⟨lex cc p ++ xs, ?_, body_plain hsq (fun t ht => ordinary_toks hk h1 ht) g2⟩
      have hb : '\\' ∉ p := fun hb => (h1 _ hb).2.1 (by decide)
      have : ∃ c r, s' ++ e :: rest = c :: r ∧ c ∈ breakers := by
        rcases h3 with rfl | ⟨c, r, rfl, hc⟩
        · refine ⟨e, rest, rfl, ?_⟩
          have key : ∀ p ∈ closers, p.1 ∈ breakers := by decide
          exact key _ hk
        · refine ⟨c, _, rfl, ?_⟩
          have key : ∀ c ∈ "\\$`('\"".toList, c ∈ breakers := by decide
          exact key _ hc
      obtain ⟨c, r, h5, h6⟩ := this
      rw [List.append_assoc, h5, lex_breaker hs p c r hb h6, ← h5, g1, List.append_assoc]
    · cases h with
      | nil => exact ⟨[], lex_lone hs hsp.1 hsp.2.1 rest, .nil⟩
      | char h1 h2 h3 _ => exact absurd ⟨_, _, rfl, h1, h2, h3⟩ hst
      | @escaped _ x s h =>
        obtain ⟨xs, g1, g2⟩ := ih hk (by simp at hl; omega) h rest
        refine ⟨.Backslash :: lexSingle cc x :: xs, ?_, .escape hsq g2⟩
        rw [List.cons_append, List.cons_append, C03_escape_protects_one, lex_single, g1]; rfl
      | @quoted _ q s h1 h2 h3 =>
        simp only [List.length_cons, List.length_append] at hl
        obtain ⟨xs, g1, g2⟩ := ih hk (by omega) h3 rest
        obtain ⟨u, hu1, hu2, hu3⟩ := lex_to_quote hs (s ++ e :: rest) _ q (Nat.le_refl _) h2
        refine ⟨.SingleQuote :: (u ++ .SingleQuote :: xs), ?_, ?_⟩
        · simp only [List.cons_append, List.append_assoc]
          rw [lex_quote hs, hu3, g1]
        · have := Body.nested (c := k) (o := (⟨0, 1, 1⟩, .SingleQuote)) (q := ⟨0, 1, 1⟩) hsq (fun e => hsq e.symm)
            (.squote fun e => h1 (hk'.1 (by injection e))) (body_squote hu1) g2
          simpa [anywhere] using this
      | @nested _ o c q s h1 h2 h3 h4 =>
        simp only [List.length_cons, List.length_append] at hl
        obtain ⟨xs, g1, g2⟩ := ih hk (by omega) h4 rest
        obtain ⟨ko, kc, ho, ho2, hop, hcl⟩ : ∃ ko kc, ([o], ko) ∈ operators ∧ (∀ p ∈ operators, p.1.head? = some o → p.1 = [o]) ∧
            (∀ c, Opens c ko kc) ∧ (c, kc) ∈ closers := by
          simp only [List.mem_cons, List.not_mem_nil, or_false, Prod.mk.injEq] at h1
          rcases h1 with ⟨rfl, rfl⟩ | ⟨rfl, rfl⟩ | ⟨rfl, rfl⟩
          · exact ⟨.DoubleQuote, .DoubleQuote, by decide, by decide, fun _ => .dquote, by decide⟩
          · exact ⟨.Backtick, .Backtick, by decide, by decide, fun _ => .backtick, by decide⟩
          · exact ⟨.ParenOpen, .ParenClose, by decide, by decide, fun _ => .paren, by decide⟩
        obtain ⟨ys, g3, g4⟩ := ih hcl (by omega) h3 (s ++ e :: rest)
        refine ⟨ko :: (ys ++ kc :: xs), ?_, ?_⟩
        · simp only [List.cons_append, List.append_assoc]
          rw [lex_lone hs ho ho2, g3, g1]
        · have hne : ko ≠ k := by
            rintro rfl
            have e1 : ko.asStr = [o] := operators_asStr _ ho
            rw [hsp.2.2.2.2.2.2.1] at e1
            injection e1 with e1
            exact h2 e1
          have := Body.nested (c := k) (o := (⟨0, 1, 1⟩, ko)) (q := ⟨0, 1, 1⟩) hsq hne (hop _) g4 g2
          simpa [anywhere] using this
      | @braces _ q s h1 h2 =>
        simp only [List.length_cons, List.length_append] at hl
        obtain ⟨xs, g1, g2⟩ := ih hk (by omega) h2 rest
        obtain ⟨ys, g3, g4⟩ := ih (e := '}') (k := .CurlyClose) (by decide) (by omega) h1 (s ++ e :: rest)
        refine ⟨.Dollar :: .CurlyOpen :: (ys ++ .CurlyClose :: xs), ?_, ?_⟩
        · simp only [List.cons_append, List.append_assoc]
          rw [lex_dollar hs (by intro c hc; cases hc; decide), lex_lone hs (c := '{') (t := .CurlyOpen) (by decide) (by decide), g3, g1]
        · have := Body.brace (c := k) (p := ⟨0, 1, 1⟩) (q := ⟨0, 1, 1⟩) (r := ⟨0, 1, 1⟩) hsq g4 g2
          simpa [anywhere] using this
      | @dollar _ s h1 h2 =>
        have hl' : s.length ≤ n := by simpa using hl
        by_cases hd : ∃ d s', s = d :: s' ∧ isDigit d = true
        · obtain ⟨d, s, rfl, hd⟩ := hd
          obtain ⟨p, hp1, hp2, hp3⟩ := digit_param hd
          have h3 : Spans e s := by
            have key : ∀ c ∈ "\\'\"`($".toList, isDigit c = false := by decide
            have no : ∀ {c}, c ∈ "\\'\"`($".toList → isDigit c = true → False := fun h1 h2 => by rw [key _ h1] at h2; cases h2
            cases h2 with
            | char _ _ _ h => exact h
            | nested h3 _ _ _ =>
              have : ∀ p ∈ [('"', '"'), ('`', '`'), ('(', ')')], p.1 ∈ "\\'\"`($".toList := by decide
              exact (no (this (_, _) h3) hd).elim
            | _ => exact (no (by decide) hd).elim
          obtain ⟨xs, g1, g2⟩ := ih hk (by simp at hl'; omega) h3 rest
          refine ⟨.ParamPositional p :: xs, ?_, ?_⟩
          · have := lex_op cc hs (s := s ++ e :: rest) hp2 (by simp) hp3
            rw [hp1] at this
            simp only [List.cons_append, List.nil_append] at this ⊢
            rw [this, g1]
          · refine .plain (t := (⟨0, 1, 1⟩, .ParamPositional p)) hsq ?_ ⟨by simp, by simp, by rintro c' ho; cases ho⟩ g2
            rintro rfl
            have : ∀ q ∈ closers, q.2.asStr.length = 1 := by decide
            have := this _ hk
            rw [hp1] at this; cases this
        · obtain ⟨xs, g1, g2⟩ := ih hk hl' h2 rest
          refine ⟨.Dollar :: xs, ?_, .dollar hsq ?_ g2⟩
          · rw [List.cons_append, lex_dollar hs ?_, g1]; rfl
            intro c hc
            cases s with
            | nil => cases hc; exact hsp.2.2.2.2.2.2.2.2.1
            | cons d s =>
              cases hc
              rw [← Bool.not_eq_true]
              exact fun h => hd ⟨_, _, rfl, h⟩
          · intro hh
            cases xs with
            | nil => cases hh
            | cons x xs =>
              have hx : x = .CurlyOpen := by simpa [anywhere] using hh
              subst hx
              have := C01_concat_tokens cc (s ++ e :: rest)
              rw [g1, List.cons_append, concatTokens_cons] at this
              cases s with
              | nil => injection this with this _; exact hsp.2.2.2.2.2.1 this.symm
              | cons d s => injection this with this _; subst this; exact h1 rfl

/-- Positions do not matter. -/
theorem body_anywhere {k : Token} {xs : List PTok} (h : Body k xs) : Body k (anywhere (xs.map (·.2))) := by
  induction h with
  | nil => exact .nil
  | quoted h _ ih => exact .quoted h ih
  | plain h1 h2 h3 _ ih => exact .plain h1 h2 h3 ih
  | escape h _ ih => exact .escape h ih
  | nested h1 h2 h3 _ _ ih1 ih2 =>
    have := Body.nested (o := (⟨0, 1, 1⟩, _)) (q := ⟨0, 1, 1⟩) h1 h2 h3 ih1 ih2
    simpa [anywhere] using this
  | brace h1 _ _ ih1 ih2 =>
    have := Body.brace (p := ⟨0, 1, 1⟩) (q := ⟨0, 1, 1⟩) (r := ⟨0, 1, 1⟩) h1 ih1 ih2
    simpa [anywhere] using this
  | @dollar c p xs h1 h2 _ ih =>
    refine .dollar h1 ?_ ih
    cases xs with
    | nil => simp [anywhere]
    | cons x xs => simpa [anywhere] using h2

/-- What can stand before the newline of a line is the rest of a line. -/
theorem body_line (r : List Token) : ∀ (n : Nat) (xs : List PTok), xs.length ≤ n → Body .Newline xs →
    RestOfLine (xs.map (·.2) ++ .Newline :: r) (xs.map (·.2) ++ [.Newline]) r := by
  have op : ∀ {t c}, Opens (some .Newline) t c → Opens none t c := by
    intro t c h
    cases h with
    | backtick => exact .backtick
    | squote => exact .squote (by simp)
    | dquote => exact .dquote
    | paren => exact .paren
  have po : ∀ {t c}, Opens none t c → Opens (some .Newline) t c := by
    intro t c h
    cases h with
    | backtick => exact .backtick
    | squote => exact .squote (by simp)
    | dquote => exact .dquote
    | paren => exact .paren
  intro n
  induction n with
  | zero =>
    intro xs hl _
    obtain rfl : xs = [] := by simpa using hl
    exact .newline
  | succ n ih =>
    intro xs hl h
    generalize hk : Token.Newline = k at h
    cases h with
    | nil => subst hk; exact .newline
    | quoted => cases hk
    | @plain _ t xs h1 h2 h3 h4 =>
      subst hk
      exact .cons (u := [t.2]) (by simp) (by rintro u' e; injection e with e _; exact h2 e)
        (.plain ⟨h3.1, h3.2.1, fun c' ho => h3.2.2 c' (po ho)⟩) (ih xs (by simpa using hl) h4)
    | @escape _ p t xs h1 h2 =>
      subst hk
      exact .cons (u := [.Backslash, t.2]) (by simp) (by simp) .escape (ih xs (by simp at hl; omega) h2)
    | @nested _ c' o ys q xs h1 h2 h3 h4 h5 =>
      subst hk
      simp only [List.length_cons, List.length_append] at hl
      have hu := TopUnit.nested (o := (⟨0, 1, 1⟩, o.2)) (q := ⟨0, 1, 1⟩) (rest := anywhere (xs.map (·.2) ++ .Newline :: r))
        (op h3) (body_anywhere h4)
      have := RestOfLine.cons (u := o.2 :: (ys.map (·.2) ++ [c'])) (by simp) (by rintro u' e; injection e with e _; exact h2 e)
        (by simpa [anywhere] using hu) (ih xs (by omega) h5)
      simpa using this
    | @brace _ p q r' ys xs h1 h2 h3 =>
      subst hk
      simp only [List.length_cons, List.length_append] at hl
      have hu := TopUnit.brace (p := ⟨0, 1, 1⟩) (q := ⟨0, 1, 1⟩) (r := ⟨0, 1, 1⟩) (rest := anywhere (xs.map (·.2) ++ .Newline :: r))
        (body_anywhere h2)
      have := RestOfLine.cons (u := .Dollar :: .CurlyOpen :: (ys.map (·.2) ++ [.CurlyClose])) (by simp) (by simp)
        (by simpa [anywhere] using hu) (ih xs (by omega) h3)
      simpa using this
    | @dollar _ p xs h1 h2 h3 =>
      subst hk
      have hl : xs.length ≤ n := by simpa using hl
      by_cases hp : xs.head?.map (·.2) = some .ParenOpen
      · generalize hk : Token.Newline = k at h3
        cases h3 with
        | nil => cases hp
        | quoted => cases hk
        | @plain _ t _ _ _ h _ =>
          subst hk
          have hp : t.2 = Token.ParenOpen := by simpa using hp
          have := h.2.2 .ParenClose
          rw [hp] at this
          exact absurd .paren this
        | escape => cases hp
        | @nested _ c' o ys q xs _ _ h3 h4 h5 =>
          subst hk
          have hp : o.2 = Token.ParenOpen := by simpa using hp
          obtain ⟨po, o⟩ := o
          obtain rfl : o = Token.ParenOpen := hp
          cases h3
          simp only [List.length_cons, List.length_append] at hl
          have hu := TopUnit.dollarParen (p := ⟨0, 1, 1⟩) (q := ⟨0, 1, 1⟩) (r := ⟨0, 1, 1⟩) (rest := anywhere (xs.map (·.2) ++ .Newline :: r))
            (body_anywhere h4)
          have := RestOfLine.cons (u := .Dollar :: .ParenOpen :: (ys.map (·.2) ++ [.ParenClose])) (by simp) (by simp)
            (by simpa [anywhere] using hu) (ih xs (by omega) h5)
          simpa using this
        | brace => cases hp
        | dollar => cases hp
      · refine .cons (u := [.Dollar]) (by simp) (by simp) (.dollar ?_ ?_) (ih xs hl h3)
        all_goals
          cases xs with
          | nil => simp [anywhere]
          | cons x xs => first | simpa [anywhere] using h2 | simpa [anywhere] using hp

/-- The rest of the line of a here-document. -/
theorem tail_reads (hs : cc.Sane) {tail : Str} (h : Spans '\n' tail) (rest : Str) :
    RestOfLine (lex cc (tail ++ '\n' :: rest)) (lex cc tail ++ [.Newline]) (lex cc rest) := by
  obtain ⟨xs, h1, h2⟩ := spans_lex hs _ (e := '\n') (k := .Newline) (by decide) (Nat.le_refl _) h rest
  have := body_line (lex cc rest) _ _ (Nat.le_refl _) h2
  have e : (anywhere xs).map (·.2) = xs := by simp [anywhere, Function.comp_def]
  rw [e, ← h1] at this
  rw [lex_line hs] at h1
  have := List.append_cancel_right (as := lex cc tail) h1
  subst this
  rwa [lex_line hs] at *

/-! ## Delimiters -/

/-- A delimiter, up to what ends it. -/
theorem delim_split {b : Bool} {d q : Str} (h : WritesDelim cc b d q) :
    ∃ p d' q', d = p ++ d' ∧ q = p ++ q' ∧ (∀ c ∈ p, Bare cc c) ∧ WritesDelim cc b d' q' ∧
      (q' = [] ∨ ∃ c r, q' = c :: r ∧ c ∈ "\\'\"".toList) ∧ ((∃ c r, q = c :: r ∧ Bare cc c) → p ≠ []) := by
  have no : ∀ {c}, c ∈ "\\'\"".toList → ¬ Bare cc c := by
    have : ∀ c ∈ "\\'\"".toList, c ∈ "\n;&|<>()'\"`\\$".toList := by decide
    intro c h1 h2
    exact h2.2 (this _ h1)
  induction h with
  | nil => exact ⟨[], [], [], rfl, rfl, by simp, .nil, .inl rfl, by rintro ⟨c, r, h, -⟩; cases h⟩
  | bare h1 _ ih =>
    obtain ⟨p, d', q', rfl, rfl, h2, h3, h4, -⟩ := ih
    refine ⟨_ :: p, d', q', rfl, rfl, ?_, h3, h4, by simp⟩
    intro x hx
    rcases List.mem_cons.1 hx with rfl | hx
    · exact h1
    · exact h2 x hx
  | escaped h1 h2 _ =>
    exact ⟨[], _, _, rfl, rfl, by simp, .escaped h1 h2, .inr ⟨_, _, rfl, by decide⟩, by rintro ⟨c, r, h, h'⟩; cases h; exact absurd h' (no (by decide))⟩
  | single h1 h2 _ =>
    exact ⟨[], _, _, rfl, rfl, by simp, .single h1 h2, .inr ⟨_, _, rfl, by decide⟩, by rintro ⟨c, r, h, h'⟩; cases h; exact absurd h' (no (by decide))⟩
  | double h1 h2 _ =>
    exact ⟨[], _, _, rfl, rfl, by simp, .double h1 h2, .inr ⟨_, _, rfl, by decide⟩, by rintro ⟨c, r, h, h'⟩; cases h; exact absurd h' (no (by decide))⟩

theorem bare_token {p : Str} (hp : ∀ c ∈ p, Bare cc c) {t : Token} (ht : t ∈ lex cc p) :
    t.isWordDelimiter = false ∧ Ordinary none t := by
  have hc := fun c hc => (hp c (lex_chars ht c hc))
  have hsh := C02_token_shapes cc p t ht
  have fixed : ∀ p ∈ operators, (∀ c ∈ p.1, c ∉ "\n;&|<>()'\"`\\$".toList) → p.2.isWordDelimiter = false ∧
    p.2 ∉ [Token.Backslash, .Dollar, .SingleQuote, .DoubleQuote, .Backtick, .ParenOpen] := by decide
  have ord : t ∉ [Token.Backslash, .Dollar, .SingleQuote, .DoubleQuote, .Backtick, .ParenOpen] → Ordinary none t := by
    intro h
    simp only [List.mem_cons, List.not_mem_nil, or_false, not_or] at h
    refine ⟨h.1, h.2.1, ?_⟩
    rintro c' ho
    cases ho <;> simp_all
  by_cases hb : t = .Backslash
  · subst hb; exact absurd (by decide) (hc '\\' (by decide)).2
  by_cases hw : ∃ w, t = .Whitespace w
  · obtain ⟨w, rfl⟩ := hw
    obtain ⟨c, w, rfl⟩ := List.exists_cons_of_ne_nil hsh.1
    have h1 := (hsh.2 c (by simp)).1
    rw [(hc c (by simp [Token.asStr])).1] at h1
    cases h1
  by_cases hv : ∃ w, t = .Name w ∨ t = .Literal w
  · obtain ⟨w, rfl | rfl⟩ := hv <;> exact ⟨rfl, ord (by simp)⟩
  have : (t.asStr, t) ∈ operators := by
    cases t <;> first
      | (rcases hsh with hsh | hsh <;> first | exact hsh | exact absurd hsh hb)
      | exact hsh | exact absurd ⟨_, rfl⟩ hw | exact absurd ⟨_, .inl rfl⟩ hv | exact absurd ⟨_, .inr rfl⟩ hv
  have := fixed _ this (fun c h => (hc c h).2)
  exact ⟨this.1, ord this.2⟩

theorem delim_plain {u l v r : List Token} {b : Bool} {d : Str} (h : ∀ t ∈ u, t.isWordDelimiter = false ∧ Ordinary none t)
    (h1 : DelimToks l v r) (h2 : DelimText v b d) : DelimToks (u ++ l) (u ++ v) r ∧ DelimText (u ++ v) b (concatTokens u ++ d) := by
  induction u with
  | nil => exact ⟨h1, h2⟩
  | cons t u ih =>
    obtain ⟨h3, h4⟩ := ih fun t ht => h t (by simp [ht])
    obtain ⟨h5, h6⟩ := h t (by simp)
    refine ⟨.cons (u := [t]) (by simp) (by rintro _ _ e; cases e; exact .inl h5) (.plain h6) h3, ?_⟩
    rw [concatTokens_cons, List.append_assoc]
    refine .plain ?_ h4
    simp only [List.mem_cons, List.not_mem_nil, or_false, not_or]
    refine ⟨h6.1, ?_, ?_, ?_⟩ <;> rintro rfl
    · exact h6.2.2 _ (.squote (by simp))
    · exact h6.2.2 _ .dquote
    · exact h6.2.2 _ .backtick

theorem squote_unit {u : List Token} (h : ∀ t ∈ u, t ≠ .SingleQuote) (l : List PTok) :
    TopUnit (anywhere (.SingleQuote :: (u ++ [.SingleQuote]))) l := by
  have := TopUnit.nested (c := .SingleQuote) (o := (⟨0, 1, 1⟩, .SingleQuote)) (q := ⟨0, 1, 1⟩) (rest := l)
    (.squote (by simp)) (body_squote h)
  simpa [anywhere] using this

theorem dquote_unit {u : List Token} (h : Body .DoubleQuote (anywhere u)) (l : List PTok) :
    TopUnit (anywhere (.DoubleQuote :: (u ++ [.DoubleQuote]))) l := by
  have := TopUnit.nested (c := .DoubleQuote) (o := (⟨0, 1, 1⟩, .DoubleQuote)) (q := ⟨0, 1, 1⟩) (rest := l) .dquote h
  simpa [anywhere] using this

theorem dqUnquote_id {u : List Token} (h : ∀ t ∈ u, t ≠ .Backslash) : Gram.dqUnquote u = u := by
  induction u with
  | nil => rfl
  | cons t u ih =>
    cases u with
    | nil => rfl
    | cons t' u =>
      rw [Gram.dqUnquote, if_neg (h t (by simp)), ih fun t ht => h t (by simp [ht])]

theorem delim_lex (hs : cc.Sane) {rest : Str} (hp : ∀ c r, rest = c :: r → ¬ Plain cc c)
    (hr : ∀ t l, lex cc rest = t :: l → t.isWordDelimiter = true ∧ t ≠ .ParenOpen) :
    ∀ (n : Nat) {b : Bool} {d q : Str}, q.length ≤ n → WritesDelim cc b d q →
    ∃ u, lex cc (q ++ rest) = u ++ lex cc rest ∧ DelimToks (u ++ lex cc rest) u (lex cc rest) ∧ DelimText u b d := by
  intro n
  induction n with
  | zero =>
    intro b d q hl h
    obtain rfl : q = [] := by simpa using hl
    cases h
    exact ⟨[], rfl, .nil hr, .nil⟩
  | succ n ih =>
    intro b d q hl h
    by_cases hb : ∃ c r, q = c :: r ∧ Bare cc c
    · obtain ⟨p, d', q', rfl, rfl, h1, h2, h3, h4⟩ := delim_split h
      have hpos := List.length_pos_of_ne_nil (h4 hb)
      rw [List.length_append] at hl
      obtain ⟨u, g1, g2, g3⟩ := ih (by omega) h2
      have := delim_plain (fun t ht => bare_token h1 ht) g2 g3
      rw [C01_concat_tokens] at this
      refine ⟨lex cc p ++ u, ?_, by rw [List.append_assoc]; exact this.1, this.2⟩
      rw [List.append_assoc, List.append_assoc, ← g1]
      cases hq : q' ++ rest with
      | nil => rw [lex_empty, List.append_nil, List.append_nil]
      | cons c r =>
        refine lex_bare p h1 c r ?_
        rcases h3 with rfl | ⟨c', r', rfl, hc⟩
        · exact hp _ _ hq
        · cases hq
          exact breaker_notPlain (by have key : ∀ c ∈ "\\'\"".toList, c ∈ breakers := by decide
                                     exact key _ hc)
    · cases h with
      | nil => exact ⟨[], rfl, .nil hr, .nil⟩
      | bare h1 _ => exact absurd ⟨_, _, rfl, h1⟩ hb
      | @escaped _ c d q h1 h2 =>
        obtain ⟨u, g1, g2, g3⟩ := ih (by simp at hl; omega) h2
        refine ⟨.Backslash :: lexSingle cc c :: u, ?_, ?_, ?_⟩
        · rw [List.cons_append, List.cons_append, C03_escape_protects_one, lex_single, g1]; rfl
        · exact .cons (u := [.Backslash, lexSingle cc c]) (by simp) (by rintro _ _ e; cases e; exact .inl rfl) .escape g2
        · have := DelimText.escaped (t := lexSingle cc c) g3
          rw [single_asStr (lexSingle_spec cc c)] at this
          exact this
      | @single _ s d q h1 h2 =>
        simp only [List.length_cons, List.length_append] at hl
        obtain ⟨u, g1, g2, g3⟩ := ih (by omega) h2
        obtain ⟨v, hv1, hv2, hv3⟩ := lex_to_quote hs (q ++ rest) _ s (Nat.le_refl _) h1
        refine ⟨.SingleQuote :: (v ++ .SingleQuote :: u), ?_, ?_, ?_⟩
        · simp only [List.cons_append, List.append_assoc]
          rw [lex_quote hs, hv3, g1]
        · have := DelimToks.cons (u := .SingleQuote :: (v ++ [.SingleQuote])) (by simp)
            (by rintro _ _ e; cases e; exact .inl rfl) (squote_unit hv1 _) g2
          simpa using this
        · have := DelimText.single hv1 g3
          rw [hv2] at this
          simpa using this
      | @double _ s d q h1 h2 =>
        simp only [List.length_cons, List.length_append] at hl
        obtain ⟨u, g1, g2, g3⟩ := ih (by omega) h2
        have hord : ∀ x ∈ s, x ≠ '"' ∧ x ∉ "\\$`(".toList ∧ ('"' ≠ '"' → x ∉ "'\"".toList) := by
          intro x hx
          have := h1 x hx
          refine ⟨?_, ?_, by simp⟩
          · rintro rfl; exact this (by decide)
          · intro h; exact this (by clear this hx; revert x; decide)
        have hbs : '\\' ∉ s := fun h => h1 _ h (by decide)
        have ht := fun t ht => ordinary_toks (cc := cc) (e := '"') (k := .DoubleQuote) (by decide) hord (t := t) ht
        refine ⟨.DoubleQuote :: (lex cc s ++ .DoubleQuote :: u), ?_, ?_, ?_⟩
        · simp only [List.cons_append, List.append_assoc]
          rw [lex_lone hs (c := '"') (t := .DoubleQuote) (by decide) (by decide), lex_breaker hs s '"' _ hbs (by decide),
            lex_lone hs (c := '"') (t := .DoubleQuote) (by decide) (by decide), g1]
        · have hbody : Body .DoubleQuote (anywhere (lex cc s)) := by
            have := body_plain (k := .DoubleQuote) (v := []) (by simp) ht .nil
            rwa [List.append_nil] at this
          have := DelimToks.cons (u := .DoubleQuote :: (lex cc s ++ [.DoubleQuote])) (by simp)
            (by rintro _ _ e; cases e; exact .inl rfl) (dquote_unit hbody _) g2
          simpa using this
        · have hbody : Body .DoubleQuote (anywhere (lex cc s)) := by
            have := body_plain (k := .DoubleQuote) (v := []) (by simp) ht .nil
            rwa [List.append_nil] at this
          have := DelimText.double hbody g3
          rw [dqUnquote_id fun t h => (ht t h).2.1, C01_concat_tokens] at this
          simpa using this

end
end Conch
