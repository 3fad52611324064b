import Verif.RoundLex
/-!
# Arithmetic expressions read back (C39)
-/
namespace Conch
open Spec Gram

theorem natDigits_head {n : Nat} (h : 0 < n) : (natDigits n).head? ≠ some '0' := by
  induction n using Nat.strongRecOn with
  | _ n ih =>
    unfold natDigits
    rw [Nat.toDigits_eq_if (by decide)]
    split
    · have : ∀ d, d < 10 → 0 < d → Nat.digitChar d ≠ '0' := by decide
      simpa using this n ‹_› h
    · have := ih (n / 10) (by omega) (by omega)
      have hne : natDigits (n / 10) ≠ [] := Nat.toDigits_ne_nil
      change (natDigits (n / 10) ++ _).head? ≠ _
      obtain ⟨c, r, hc⟩ := List.exists_cons_of_ne_nil hne
      rw [hc] at this ⊢
      simpa using this

theorem natDigits_numeral (n : Nat) : Numeral (natDigits n) n := by
  obtain ⟨ds, hd, he⟩ := digits_natDigits n
  have hne : natDigits n ≠ [] := Nat.toDigits_ne_nil
  rcases Nat.eq_zero_or_pos n with rfl | h
  · have e : natDigits 0 = ['0'] := rfl
    rw [e]
    refine .oct (by intro x r h; cases h) rfl ?_
    exact Signed.plain (base := 8) (s := ['0']) (ds := [0]) (by simp) ⟨rfl, by
      intro p hp; simp at hp; subst hp; decide⟩
  · have := Signed.plain (base := 10) hne hd
    rw [he] at this
    exact .dec (natDigits_head h) this

section
variable {cc : CharClass}

/-- The operators are lexed as their tokens before a blank. -/
def Spec.OpToks (op : List Token) : Prop :=
  match op with
  | [t] => (t.asStr, t) ∈ operators ∧ ∀ p ∈ operators, ¬ t.asStr ++ [' '] <+: p.1
  | [t, u] => (t.asStr, t) ∈ operators ∧ (u.asStr, u) ∈ operators ∧
      (∃ c, u.asStr = [c] ∧ ∀ p ∈ operators, ¬ t.asStr ++ [c] <+: p.1) ∧ ∀ p ∈ operators, ¬ u.asStr ++ [' '] <+: p.1
  | _ => False

theorem lex_opToks (hs : cc.Sane) {op : List Token} (h : OpToks op) (rest : Str) :
    lex cc (concatTokens op ++ ' ' :: rest) = op ++ lex cc (' ' :: rest) := by
  unfold OpToks at h
  split at h
  · rename_i t
    rw [concatTokens_cons, concatTokens, List.flatMap_nil, List.append_nil]
    exact lex_token hs t ' ' rest h.1 h.2
  · rename_i t u
    obtain ⟨h1, h2, ⟨c, hc, h3⟩, h4⟩ := h
    rw [concatTokens_cons, concatTokens_cons, concatTokens, List.flatMap_nil, List.append_nil, List.append_assoc]
    have e := lex_token hs u ' ' rest h2 h4
    rw [hc, List.cons_append, List.nil_append, lex_token hs t c _ h1 h3]
    rw [hc, List.cons_append, List.nil_append] at e
    rw [e]; rfl
  · exact h.elim

/-- Text that is lexed to `u` when a blank follows. -/
def Txt (cc : CharClass) (s : Str) (u : List Token) : Prop :=
  (∀ r, Gram.NoBlank (u ++ r)) ∧ ∀ rest, lex cc (s ++ ' ' :: rest) = u ++ lex cc (' ' :: rest)

theorem Txt.glue (hs : cc.Sane) {s s' : Str} {u u' : List Token} (h : Txt cc s u) (h' : Txt cc s' u') (hu : u ≠ []) :
    Txt cc (s ++ ' ' :: s') (u ++ .Whitespace [' '] :: u') := by
  refine ⟨fun r => ?_, fun rest => ?_⟩
  · rw [List.append_assoc]; exact h.1 _
  · rw [List.append_assoc, List.cons_append, h.2, List.append_assoc, List.cons_append, ← h'.2,
      lex_space hs (by rw [h'.2]; exact h'.1 _)]

theorem txt_op (hs : cc.Sane) {op : List Token} (h : OpToks op) : Txt cc (concatTokens op) op := by
  refine ⟨fun r => ?_, lex_opToks hs h⟩
  rcases op with _ | ⟨t, op⟩
  · exact h.elim
  · have h' : (t.asStr, t) ∈ operators := by
      unfold OpToks at h
      split at h
      · rename_i e; cases e; exact h.1
      · rename_i e; cases e; exact h.1
      · exact h.elim
    constructor
    · rintro w r' e; injection e with e _; subst e; revert h'; clear * -
      intro h; have : ∀ p ∈ operators, ∀ w, p.2 ≠ .Whitespace w := by
        intro p hp w e
        have : ∀ p ∈ operators, (match p.2 with | .Whitespace _ => false | _ => true) = true := by decide
        have := this p hp
        rw [e] at this; cases this
      exact this _ h w rfl
    · rintro r' e; injection e with e _; subst e; revert h'; decide

theorem txt_name (hs : cc.Sane) {x : Str} (hx : Shape cc (.Name x)) : Txt cc x [.Name x] :=
  ⟨fun r => by simp [Gram.NoBlank], fun rest => lex_name hs hx ' ' rest (.inr hs.space)⟩

/-- The tokens of an operand: they start neither with a blank nor with a sign nor with `)`. -/
def Operand (u : List Token) : Prop :=
  ∃ t r, u = t :: r ∧ ((∃ x, t = .Name x) ∨ (∃ x, t = .Literal x) ∨ t = .ParenOpen)

theorem Operand.ne {u : List Token} (h : Operand u) : u ≠ [] := by
  obtain ⟨t, u, rfl, _⟩ := h; simp

/-- What is claimed of an expression: its text is lexed to `u`, which is read as `a`. -/
def ArithReads (cc : CharClass) (a : DefaultArithmetic) : Prop :=
  ∃ u, Operand u ∧ Expr .munch .primary (anywhere u) a ∧ Txt cc (arithText a) u

theorem anywhere_append (u v : List Token) : anywhere (u ++ v) = anywhere u ++ anywhere v := by
  simp [anywhere]

theorem anywhere_cons (t : Token) (v : List Token) : anywhere (t :: v) = (⟨0, 1, 1⟩, t) :: anywhere v := rfl

/-- A blank. -/
abbrev wsp : Token := .Whitespace [' ']

theorem blanks_wsp : Spec.Blanks (anywhere [wsp]) := .ws .nil

/-- An expression in parentheses. -/
theorem paren_reads (hs : cc.Sane) {s : Str} {u : List Token} {lvl : Level} {a : DefaultArithmetic}
    (ht : Txt cc s u) (hu : u ≠ []) (h : Expr .munch lvl (anywhere (wsp :: u)) a) {t : Str} (e : t = "( ".toList ++ s ++ " )".toList) :
    ∃ u, Operand u ∧ Expr .munch .primary (anywhere u) a ∧ Txt cc t u := by
  refine ⟨([.ParenOpen] ++ wsp :: u) ++ wsp :: [.ParenClose], ⟨_, _, rfl, by simp⟩, ?_, ?_⟩
  · have := Expr.paren (sep := .munch) (bs := []) (p := ⟨0, 1, 1⟩) (q := ⟨0, 1, 1⟩) .nil (up_seq h) blanks_wsp
    simpa [anywhere] using this
  · have h1 : Txt cc ['('] [.ParenOpen] := txt_op hs (op := [.ParenOpen]) (by unfold OpToks; decide)
    have h2 : Txt cc [')'] [.ParenClose] := txt_op hs (op := [.ParenClose]) (by unfold OpToks; decide)
    have := (h1.glue hs ht (by simp)).glue hs h2 (by simp)
    rw [e]
    simpa using this

theorem spaced {u : List Token} {a : DefaultArithmetic} (h : Expr .munch .primary (anywhere u) a) (lvl : Level) :
    Expr .munch lvl (anywhere (wsp :: u)) a := primary_up (primary_blanks blanks_wsp h) lvl

theorem noSign_wsp (u : List Token) : NoSign (anywhere (wsp :: u)) := by
  intro p r; constructor <;> intro h <;> cases h

theorem bin_reads (hs : cc.Sane) {lvl : Level} {op : List Token} {mk : BinMk} {a b : DefaultArithmetic}
    (h : (op, mk) ∈ binOps lvl) (ho : OpToks op) (ha : ArithReads cc a) (hb : ArithReads cc b)
    (e : arithText (mk a b) = binText (concatTokens op) (arithText a) (arithText b)) : ArithReads cc (mk a b) := by
  obtain ⟨u, u1, u2, u3⟩ := ha
  obtain ⟨v, v1, v2, v3⟩ := hb
  refine paren_reads hs (s := arithText a ++ ' ' :: concatTokens op ++ ' ' :: arithText b)
    (u := u ++ wsp :: op ++ wsp :: v) (lvl := lvl) ?_ (by simp) ?_ ?_
  · have hop := txt_op hs ho
    have := (u3.glue hs hop u1.ne).glue hs v3 (by simp)
    simpa using this
  · have hc : ((anywhere op).map (·.2), mk) ∈ binOps lvl := by simpa [anywhere, Function.comp_def] using h
    have := Expr.bin (sep := .munch) (lvl := lvl) hc (spaced u2 lvl) blanks_wsp (spaced v2 lvl.tighter)
      (munch_bin (mk := mk) hc (noSign_wsp v))
    simpa [anywhere] using this
  · rw [e]; simp [binText]

theorem arith_reads (hs : cc.Sane) {a : DefaultArithmetic} (h : ArithOk cc a) : ArithReads cc a := by
  induction h with
  | @var x hx => exact ⟨[.Name x], ⟨_, _, rfl, by simp⟩, .var (bs := []) .nil .name, by rw [arithText]; exact txt_name hs hx⟩
  | @literal n h0 h1 =>
    have hn : ((n.toNat : Nat) : Int) = n := by omega
    refine ⟨[.Literal (natDigits n.toNat)], ⟨_, _, rfl, by simp⟩, ?_, ?_⟩
    · have := natDigits_numeral n.toNat
      rw [hn] at this
      exact .literal (bs := []) .nil this (by unfold InRange; omega)
    · rw [arithText]
      refine ⟨fun r => by simp [Gram.NoBlank], fun rest => ?_⟩
      refine lex_cons hs (t := .Literal (natDigits n.toNat)) (lit_shape hs _) (by simp) fun c hc hp => ?_
      cases hc
      have := hp.2.2
      rw [hs.space] at this; cases this
  | @incr mk x hmk hx =>
    have hn := txt_name hs hx
    have hpp : Txt cc ['+', '+'] [.Plus, .Plus] := txt_op hs (op := [.Plus, .Plus]) (by unfold OpToks; exact ⟨by decide, by decide, ⟨'+', rfl, by decide⟩, by decide⟩)
    have hmm : Txt cc ['-', '-'] [.Dash, .Dash] := txt_op hs (op := [.Dash, .Dash]) (by unfold OpToks; exact ⟨by decide, by decide, ⟨'-', rfl, by decide⟩, by decide⟩)
    simp only [List.mem_cons, List.not_mem_nil, or_false] at hmk
    rcases hmk with rfl | rfl | rfl | rfl
    · refine paren_reads hs (hn.glue hs hpp (by simp)) (by simp) (lvl := .primary) ?_ (by rw [arithText]; simp)
      exact Expr.postIncr (p := ⟨0, 1, 1⟩) (q := ⟨0, 1, 1⟩) blanks_wsp .name blanks_wsp
    · refine paren_reads hs (hn.glue hs hmm (by simp)) (by simp) (lvl := .primary) ?_ (by rw [arithText]; simp)
      exact Expr.postDecr (p := ⟨0, 1, 1⟩) (q := ⟨0, 1, 1⟩) blanks_wsp .name blanks_wsp
    · refine paren_reads hs (hpp.glue hs hn (by simp)) (by simp) (lvl := .unary) ?_ (by rw [arithText]; simp)
      exact Expr.preIncr (p := ⟨0, 1, 1⟩) (q := ⟨0, 1, 1⟩) blanks_wsp blanks_wsp .name
    · refine paren_reads hs (hmm.glue hs hn (by simp)) (by simp) (lvl := .unary) ?_ (by rw [arithText]; simp)
      exact Expr.preDecr (p := ⟨0, 1, 1⟩) (q := ⟨0, 1, 1⟩) blanks_wsp blanks_wsp .name
  | @un mk a hmk _ ih =>
    obtain ⟨u, u1, u2, u3⟩ := ih
    simp only [List.mem_cons, List.not_mem_nil, or_false] at hmk
    rcases hmk with rfl | rfl | rfl | rfl
    · have ho : Txt cc ['+'] [.Plus] := txt_op hs (op := [.Plus]) (by unfold OpToks; decide)
      refine paren_reads hs (ho.glue hs u3 (by simp)) (by simp) (lvl := .unary) ?_ (by rw [arithText]; simp)
      exact Expr.plus (p := ⟨0, 1, 1⟩) blanks_wsp (spaced u2 .unary) (noSign_wsp u)
    · have ho : Txt cc ['-'] [.Dash] := txt_op hs (op := [.Dash]) (by unfold OpToks; decide)
      refine paren_reads hs (ho.glue hs u3 (by simp)) (by simp) (lvl := .unary) ?_ (by rw [arithText]; simp)
      exact Expr.minus (p := ⟨0, 1, 1⟩) blanks_wsp (spaced u2 .unary) (noSign_wsp u)
    · have ho : Txt cc ['!'] [.Bang] := txt_op hs (op := [.Bang]) (by unfold OpToks; decide)
      refine paren_reads hs (ho.glue hs u3 (by simp)) (by simp) (lvl := .unary) ?_ (by rw [arithText]; simp)
      exact Expr.not (p := ⟨0, 1, 1⟩) blanks_wsp (spaced u2 .unary)
    · have ho : Txt cc ['~'] [.Tilde] := txt_op hs (op := [.Tilde]) (by unfold OpToks; decide)
      refine paren_reads hs (ho.glue hs u3 (by simp)) (by simp) (lvl := .unary) ?_ (by rw [arithText]; simp)
      exact Expr.bitNot (p := ⟨0, 1, 1⟩) blanks_wsp (spaced u2 .unary)
  | @bin mk a b hmk _ _ ih1 ih2 =>
    have two : ∀ {t : Token}, (t.asStr, t) ∈ operators → (∀ p ∈ operators, ¬ t.asStr ++ ['='] <+: p.1) →
        OpToks [t, .Equals] := fun h1 h2 => ⟨h1, by decide, ⟨'=', rfl, h2⟩, by decide⟩
    simp only [List.mem_cons, List.not_mem_nil, or_false] at hmk
    rcases hmk with rfl | rfl | rfl | rfl | rfl | rfl | rfl | rfl | rfl | rfl | rfl | rfl | rfl | rfl | rfl | rfl | rfl | rfl | rfl
    · obtain ⟨u, u1, u2, u3⟩ := ih1
      obtain ⟨v, v1, v2, v3⟩ := ih2
      have ho : Txt cc ['*', '*'] [.Star, .Star] := txt_op hs (op := [.Star, .Star]) (by unfold OpToks; exact ⟨by decide, by decide, ⟨'*', rfl, by decide⟩, by decide⟩)
      refine paren_reads hs ((u3.glue hs ho u1.ne).glue hs v3 (by simp)) (by simp) (lvl := .pow) ?_ (by rw [arithText]; simp [binText])
      have := Expr.pow (sep := .munch) (p := ⟨0, 1, 1⟩) (q := ⟨0, 1, 1⟩) (spaced u2 .unary) blanks_wsp (spaced v2 .pow)
      simpa [anywhere] using this
    · exact bin_reads hs (lvl := .mult) (op := [.Star]) (by simp [binOps]) (by unfold OpToks; decide) ih1 ih2 (by rw [arithText]; rfl)
    · exact bin_reads hs (lvl := .mult) (op := [.Slash]) (by simp [binOps]) (by unfold OpToks; decide) ih1 ih2 (by rw [arithText]; rfl)
    · exact bin_reads hs (lvl := .mult) (op := [.Percent]) (by simp [binOps]) (by unfold OpToks; decide) ih1 ih2 (by rw [arithText]; rfl)
    · exact bin_reads hs (lvl := .add) (op := [.Plus]) (by simp [binOps]) (by unfold OpToks; decide) ih1 ih2 (by rw [arithText]; rfl)
    · exact bin_reads hs (lvl := .add) (op := [.Dash]) (by simp [binOps]) (by unfold OpToks; decide) ih1 ih2 (by rw [arithText]; rfl)
    · exact bin_reads hs (lvl := .shift) (op := [.DLess]) (by simp [binOps]) (by unfold OpToks; decide) ih1 ih2 (by rw [arithText]; rfl)
    · exact bin_reads hs (lvl := .shift) (op := [.DGreat]) (by simp [binOps]) (by unfold OpToks; decide) ih1 ih2 (by rw [arithText]; rfl)
    · exact bin_reads hs (lvl := .rel) (op := [.Less]) (by simp [binOps]) (by unfold OpToks; decide) ih1 ih2 (by rw [arithText]; rfl)
    · exact bin_reads hs (lvl := .rel) (op := [.Less, .Equals]) (by simp [binOps]) (two (by decide) (by decide)) ih1 ih2 (by rw [arithText]; rfl)
    · exact bin_reads hs (lvl := .rel) (op := [.Great]) (by simp [binOps]) (by unfold OpToks; decide) ih1 ih2 (by rw [arithText]; rfl)
    · exact bin_reads hs (lvl := .rel) (op := [.Great, .Equals]) (by simp [binOps]) (two (by decide) (by decide)) ih1 ih2 (by rw [arithText]; rfl)
    · exact bin_reads hs (lvl := .eq) (op := [.Equals, .Equals]) (by simp [binOps]) (two (by decide) (by decide)) ih1 ih2 (by rw [arithText]; rfl)
    · exact bin_reads hs (lvl := .eq) (op := [.Bang, .Equals]) (by simp [binOps]) (two (by decide) (by decide)) ih1 ih2 (by rw [arithText]; rfl)
    · exact bin_reads hs (lvl := .bitAnd) (op := [.Amp]) (by simp [binOps]) (by unfold OpToks; decide) ih1 ih2 (by rw [arithText]; rfl)
    · exact bin_reads hs (lvl := .bitXor) (op := [.Caret]) (by simp [binOps]) (by unfold OpToks; decide) ih1 ih2 (by rw [arithText]; rfl)
    · exact bin_reads hs (lvl := .bitOr) (op := [.Pipe]) (by simp [binOps]) (by unfold OpToks; decide) ih1 ih2 (by rw [arithText]; rfl)
    · exact bin_reads hs (lvl := .and) (op := [.AndIf]) (by simp [binOps]) (by unfold OpToks; decide) ih1 ih2 (by rw [arithText]; rfl)
    · exact bin_reads hs (lvl := .or) (op := [.OrIf]) (by simp [binOps]) (by unfold OpToks; decide) ih1 ih2 (by rw [arithText]; rfl)
  | @ternary a b c _ _ _ ih1 ih2 ih3 =>
    obtain ⟨u, u1, u2, u3⟩ := ih1
    obtain ⟨v, v1, v2, v3⟩ := ih2
    obtain ⟨w, w1, w2, w3⟩ := ih3
    have hq : Txt cc ['?'] [.Question] := txt_op hs (op := [.Question]) (by unfold OpToks; decide)
    have hc : Txt cc [':'] [.Colon] := txt_op hs (op := [.Colon]) (by unfold OpToks; decide)
    refine paren_reads hs ((((u3.glue hs hq u1.ne).glue hs v3 (by simp)).glue hs hc (by simp)).glue hs w3 (by simp))
      (by simp) (lvl := .ternary) ?_ (by rw [arithText]; simp)
    have := Expr.ternary (sep := .munch) (p := ⟨0, 1, 1⟩) (q := ⟨0, 1, 1⟩) (spaced u2 .or) blanks_wsp (spaced v2 .ternary) blanks_wsp
      (spaced w2 .ternary)
    simpa [anywhere] using this
  | @assign x a hx _ ih =>
    obtain ⟨u, u1, u2, u3⟩ := ih
    have he : Txt cc ['='] [.Equals] := txt_op hs (op := [.Equals]) (by unfold OpToks; decide)
    refine paren_reads hs (((txt_name hs hx).glue hs he (by simp)).glue hs u3 (by simp)) (by simp) (lvl := .assign) ?_
      (by rw [arithText]; simp)
    have := Expr.assign (sep := .munch) (p := ⟨0, 1, 1⟩) (ws := anywhere [wsp]) blanks_wsp (.name (p := ⟨0, 1, 1⟩) (x := x))
      (by intro t ht; simp [anywhere] at ht; exact ⟨[' '], by rw [ht]⟩) (spaced u2 .assign)
    simpa [anywhere] using this
  | @seq as hl _ ih =>
    have key : ∀ as : List DefaultArithmetic, as ≠ [] → (∀ a ∈ as, ArithReads cc a) →
        ∃ u, u ≠ [] ∧ Items .munch (anywhere (wsp :: u)) as ∧ Txt cc (arithTexts as) u := by
      intro as
      induction as with
      | nil => intro h; exact absurd rfl h
      | cons a as ih =>
        intro _ h
        obtain ⟨u, u1, u2, u3⟩ := h a (by simp)
        rcases as with _ | ⟨c, as⟩
        · exact ⟨u, u1.ne, .one (spaced u2 _), by rw [arithTexts]; exact u3⟩
        · obtain ⟨v, v1, v2, v3⟩ := ih (by simp) (fun x hx => h x (by simp [hx]))
          have hc : Txt cc [','] [.Comma] := txt_op hs (op := [.Comma]) (by unfold OpToks; decide)
          refine ⟨u ++ wsp :: [.Comma] ++ wsp :: v, ?_, ?_, ?_⟩
          · simp
          · have := Items.cons (sep := .munch) (p := ⟨0, 1, 1⟩) (spaced u2 _) blanks_wsp v2
            simpa [anywhere] using this
          · rw [arithTexts]
            · have := (u3.glue hs hc u1.ne).glue hs v3 (by simp)
              simpa using this
            · simp
    obtain ⟨u, u1, u2, u3⟩ := key as (by rintro rfl; simp at hl) ih
    exact paren_reads hs u3 u1 (.seq u2 hl) (by rw [arithText])

end
end Conch
