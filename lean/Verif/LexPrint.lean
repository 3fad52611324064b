import Verif.PropsLexer
/-!
# Which token lists the lexer yields (C04), and lexing what is written from tokens
-/
namespace Conch
open Spec

/-- What the Unicode tables behind `char::is_alphabetic` and `char::is_whitespace` promise about the
characters with a meaning: no operator character and no backslash is alphabetic; none of them but
the newline is whitespace; letters, digits and `_` are not whitespace; digits are not letters; the
space is whitespace. -/
structure CharClass.Sane (cc : CharClass) : Prop where
  op : ∀ c, opStart c ∨ c = '\\' →
    cc.alphabetic c = false ∧ (c ≠ '\n' → cc.whitespace c = false)
  word : ∀ c, cc.nameChar c = true → cc.whitespace c = false
  digit : ∀ c, isDigit c = true → cc.alphabetic c = false
  space : cc.whitespace ' ' = true

/-- The token `t` ends before the character `c`. -/
def Spec.Ends (cc : CharClass) : Token → Char → Prop
  | .Name _, c => cc.nameChar c = false
  | .Literal _, c => ¬ Plain cc c
  | .Whitespace _, c => ¬ Blank cc c
  | t, c => ∀ p ∈ operators, ¬ t.asStr ++ [c] <+: p.1

/-- Token lists that can be written down: every token has the shape of its kind, and its text ends
where the next token starts; a backslash is the last token or takes a token of one character. -/
inductive Spec.Printable (cc : CharClass) : List Token → Prop
  | nil : Printable cc []
  | lastBackslash : Printable cc [.Backslash]
  | escape {t ts} : Shape cc t → t.asStr.length = 1 → Printable cc ts →
      Printable cc (.Backslash :: t :: ts)
  | cons {t ts} : t ≠ .Backslash → Shape cc t →
      (∀ c, (concatTokens ts).head? = some c → Ends cc t c) → Printable cc ts →
      Printable cc (t :: ts)

theorem concatTokens_cons (t : Token) (ts : List Token) :
    concatTokens (t :: ts) = t.asStr ++ concatTokens ts := rfl

theorem concatTokens_append (ts us : List Token) :
    concatTokens (ts ++ us) = concatTokens ts ++ concatTokens us := by
  simp [concatTokens]

section
variable {cc : CharClass}

theorem not_opStart_word {c : Char} (hc : isDigit c = true ∨ c = '_') : ¬ opStart c ∧ c ≠ '\\' := by
  rcases hc with hc | rfl
  · constructor
    · rw [opStart_iff]
      intro h
      simp only [isDigit, Bool.and_eq_true, decide_eq_true_eq] at hc
      have key : ∀ d ∈ ['\n', '!', '~', '#', '*', '?', '%', '-', '=', '+', ':', '@', '^', '/', ',', '\'',
          '"', '`', '(', ')', '{', '}', '[', ']'] ++ [';', '&', '|', '<', '>', '$'], ¬ ('0' ≤ d ∧ d ≤ '9') := by
        decide
      exact key c (List.mem_append.2 h) hc
    · rintro rfl; revert hc; decide
  · constructor
    · rw [opStart_iff]; decide
    · decide

theorem CharClass.Sane.plain (hs : cc.Sane) {c : Char} (h : cc.nameChar c = true) : Plain cc c := by
  have hw := hs.word c h
  have key : ¬ opStart c ∧ c ≠ '\\' := by
    simp only [CharClass.nameChar, CharClass.nameStart, Bool.or_eq_true, beq_iff_eq] at h
    rcases h with h | rfl | h
    · exact not_opStart_word (.inl h)
    · exact not_opStart_word (.inr rfl)
    · constructor
      · intro ho; rw [(hs.op c (.inl ho)).1] at h; cases h
      · intro ho; rw [(hs.op c (.inr ho)).1] at h; cases h
  exact ⟨key.2, key.1, hw⟩

theorem CharClass.Sane.blank (hs : cc.Sane) {c : Char} (h : cc.whitespace c = true) (hn : c ≠ '\n') :
    c ≠ '\\' ∧ ¬ opStart c := by
  constructor
  · intro ho; rw [(hs.op c (.inr ho)).2 hn] at h; cases h
  · intro ho; rw [(hs.op c (.inl ho)).2 hn] at h; cases h

/-- A token of the right shape at the start of the source. -/
theorem lexes_cons (hs : cc.Sane) {t : Token} {s : Str} {ts : List Token} (h : Shape cc t)
    (hb : t ≠ .Backslash) (he : ∀ c, s.head? = some c → Ends cc t c) (hl : Lexes cc s ts) :
    Lexes cc (t.asStr ++ s) (t :: ts) := by
  by_cases hv : isVar t = true
  · cases t <;> first | (exfalso; simp [isVar] at hv; done) | skip
    · obtain ⟨hne, hall⟩ := h
      rename_i w
      obtain ⟨c, w, rfl⟩ := List.exists_cons_of_ne_nil hne
      have h1 := hall c (by simp)
      have h2 := hs.blank h1.1 h1.2
      exact Lexes.blank h2.1 h2.2 h1.1 ⟨fun d hd => hall d (by simp [hd]), he⟩ hl
    · obtain ⟨c, w, rfl, h1, hall⟩ := h
      have hp : ∀ d ∈ c :: w, Plain cc d := fun d hd => ⟨(hall d hd).2.1, (hall d hd).2.2, (hall d hd).1⟩
      refine Lexes.literal (hp c (by simp)) ?_ ⟨fun d hd => hp d (by simp [hd]), he⟩ hl
      rw [← Bool.not_eq_true, nameStart_iff]; exact h1
    · obtain ⟨c, w, rfl, h1, hall⟩ := h
      have hc : cc.nameStart c = true := nameStart_iff.2 h1
      have hd : ∀ d ∈ w, cc.nameChar d = true := fun d hd => nameChar_iff.2 (hall d hd)
      refine Lexes.name (hs.plain (by simp [CharClass.nameChar, hc])) hc
        ⟨fun d h => ⟨hs.plain (hd d h), hd d h⟩, fun d h => ?_⟩ hl
      have := he d h
      simp only [Ends] at this
      simp [this]
  · have hop : (t.asStr, t) ∈ operators := by
      cases t <;> simp only [Shape, isVar, not_true, ne_eq, reduceCtorEq, not_false_eq_true, or_false] at h hv hb ⊢ <;> exact h
    refine Lexes.op ⟨hop, ⟨_, rfl⟩, fun p hp hpre => ?_⟩ hl
    by_contra hlt
    have hend : ∀ c, s.head? = some c → ∀ p ∈ operators, ¬ t.asStr ++ [c] <+: p.1 := by
      intro c hc
      have := he c hc
      cases t <;> simp only [isVar, not_true] at hv <;> exact this
    rcases s with _ | ⟨c, s⟩
    · have := hpre.length_le; simp at this; omega
    · refine hend c rfl p hp (List.prefix_of_prefix_length_le (l₃ := t.asStr ++ c :: s) ⟨s, by simp⟩ hpre (by simp; omega))

theorem single_of_shape (hs : cc.Sane) {t : Token} (h : Shape cc t) (h1 : t.asStr.length = 1) :
    ∃ c, t.asStr = [c] ∧ Single cc c t := by
  obtain ⟨c, hc⟩ := List.length_eq_one_iff.1 h1
  refine ⟨c, hc, ?_⟩
  by_cases hv : isVar t = true
  · cases t <;> first | (exfalso; simp [isVar] at hv; done) | skip
    · obtain ⟨hne, hall⟩ := h
      cases hc
      have h1 := hall c (by simp)
      have h2 := hs.blank h1.1 h1.2
      exact .blank h2.1 h2.2 h1.1
    · obtain ⟨c, w, rfl, g1, hall⟩ := h
      cases hc
      have hall := hall c (by simp)
      exact .literal ⟨hall.2.1, hall.2.2, hall.1⟩ (by rw [← Bool.not_eq_true, nameStart_iff]; exact g1)
    · obtain ⟨c, w, rfl, g1, hall⟩ := h
      cases hc
      have hc := nameStart_iff.2 g1
      exact .name (hs.plain (by simp [CharClass.nameChar, hc])) hc
  · by_cases hb : t = .Backslash
    · subst hb; cases hc; exact .backslash
    · refine .op ?_
      rw [← hc]
      cases t <;> simp only [Shape, isVar, not_true, ne_eq, reduceCtorEq, not_false_eq_true, or_false] at h hv hb ⊢ <;> exact h

theorem printable_lexes (hs : cc.Sane) {ts : List Token} (h : Printable cc ts) :
    Lexes cc (concatTokens ts) ts := by
  induction h with
  | nil => exact .nil
  | lastBackslash => exact .trailingBackslash
  | escape h1 h2 _ ih =>
    obtain ⟨c, hc, hS⟩ := single_of_shape hs h1 h2
    rw [concatTokens_cons, concatTokens_cons, hc]
    exact .escape hS ih
  | cons h1 h2 h3 _ ih => exact lexes_cons hs h2 h1 h3 ih

theorem lexes_printable (hs : cc.Sane) {s : Str} {ts : List Token} (h : Lexes cc s ts) : Printable cc ts := by
  have hcat : ∀ {s ts}, Lexes cc s ts → concatTokens ts = s := fun {s ts} h => by
    rw [← (C03_tokens_iff_grammar cc s ts).2 h]; exact C01_concat_tokens cc s
  induction h with
  | nil => exact .nil
  | trailingBackslash => exact .lastBackslash
  | escape h1 _ ih => exact .escape (single_shape h1) (by rw [single_asStr h1]; rfl) ih
  | @op o t s ts h1 h2 ih =>
    have hb : ∀ p ∈ operators, p.2 ≠ Token.Backslash := by decide
    refine .cons (hb _ h1.1) (operators_shape cc _ h1.1) (fun c hc => ?_) ih
    have hno := operators_noWord _ h1.1
    have ha := operators_asStr _ h1.1
    rw [hcat h2] at hc
    have key : ∀ p ∈ operators, ¬ t.asStr ++ [c] <+: p.1 := by
      simp only at ha
      rw [ha]
      intro p hp hpre
      -- every character of `o` and the next one: the operators are closed enough
      have closed : ∀ q ∈ operators, ∀ p ∈ operators, ∀ c, q.1 ++ [c] <+: p.1 →
          ∃ p' ∈ operators, p'.1 = q.1 ++ [c] := by
        intro q hq p hp c hpre
        have h3 : ∀ q ∈ operators, ∀ p ∈ operators, q.1.isPrefixOf p.1 → q.1.length < p.1.length →
          ∃ p' ∈ operators, p'.1 = p.1.take (q.1.length + 1) := by decide +kernel
        have hpq : q.1 <+: p.1 := (List.prefix_append _ _).trans hpre
        have hlen := hpre.length_le
        simp at hlen
        obtain ⟨p', hp', e⟩ := h3 q hq p hp (by simpa using hpq) (by omega)
        refine ⟨p', hp', e.trans ?_⟩
        obtain ⟨r, hr⟩ := hpre
        rw [← hr, List.take_append_of_le_length (by simp), List.take_of_length_le (by simp)]
      obtain ⟨p', hp', e⟩ := closed _ h1.1 p hp c hpre
      cases s with
      | nil => cases hc
      | cons d s =>
        cases hc
        have := h1.2.2 p' hp' (by rw [e]; exact ⟨s, by simp⟩)
        rw [e] at this
        simp at this
        omega
    revert key hno
    cases t <;> intro hno key <;> first | exact key | cases hno
  | @blank c run s ts h1 h2 h3 h4 h5 ih =>
    refine .cons (by simp) ⟨by simp, fun d hd => ?_⟩ (fun d hd => ?_) ih
    · rcases List.mem_cons.1 hd with rfl | hd
      · exact ⟨h3, ne_nl_of_not_opStart h2⟩
      · exact h4.1 d hd
    · rw [hcat h5] at hd; exact h4.2 d hd
  | @name c run s ts h1 h2 h3 h4 ih =>
    refine .cons (by simp) ⟨_, _, rfl, nameStart_iff.1 h2, fun d hd => nameChar_iff.1 (h3.1 d hd).2⟩
      (fun d hd => ?_) ih
    rw [hcat h4] at hd
    have := h3.2 d hd
    simp only [Ends]
    rw [← Bool.not_eq_true]
    exact fun hn => this ⟨hs.plain hn, hn⟩
  | @literal c run s ts h1 h2 h3 h4 ih =>
    refine .cons (by simp) ⟨_, _, rfl, by rw [← nameStart_iff, h2]; simp, fun d hd => ?_⟩
      (fun d hd => ?_) ih
    · have : Plain cc d := by
        rcases List.mem_cons.1 hd with rfl | hd
        · exact h1
        · exact h3.1 d hd
      exact ⟨this.2.2, this.1, this.2.1⟩
    · rw [hcat h4] at hd; exact h3.2 d hd

end

/-- **C04.** A token list is what the lexer yields for its own text iff it can be written down. -/
theorem C04_relex (cc : CharClass) (hs : cc.Sane) (ts : List Token) :
    lex cc (concatTokens ts) = ts ↔ Printable cc ts :=
  ⟨fun h => lexes_printable hs (h ▸ lex_lexes cc (concatTokens ts)),
    fun h => (C03_tokens_iff_grammar cc _ _).2 (printable_lexes hs h)⟩

/-- **C04.** The token lists the lexer can yield are exactly those. -/
theorem C04_lexer_image (cc : CharClass) (hs : cc.Sane) (ts : List Token) :
    (∃ src, lex cc src = ts) ↔ Printable cc ts :=
  ⟨fun ⟨src, h⟩ => lexes_printable hs (h ▸ lex_lexes cc src), fun h => ⟨_, (C04_relex cc hs ts).2 h⟩⟩

/-- ASCII is sane. -/
theorem ascii_sane : ascii.Sane := by
  constructor
  · intro c hc
    rcases hc with hc | rfl
    · rw [opStart_iff] at hc
      have key : ∀ d ∈ ['\n', '!', '~', '#', '*', '?', '%', '-', '=', '+', ':', '@', '^', '/', ',', '\'',
          '"', '`', '(', ')', '{', '}', '[', ']'] ++ [';', '&', '|', '<', '>', '$'],
          ascii.alphabetic d = false ∧ (d ≠ '\n' → ascii.whitespace d = false) := by
        decide
      exact key c (List.mem_append.2 hc)
    · decide
  · intro c hc
    simp only [CharClass.nameChar, CharClass.nameStart, ascii, isDigit, Char.isAlpha, Char.isUpper, Char.isLower,
      Bool.or_eq_true, Bool.and_eq_true, decide_eq_true_eq, beq_iff_eq] at hc ⊢
    rw [← Bool.not_eq_true]
    intro hw
    simp only [Char.isWhitespace, Bool.or_eq_true, decide_eq_true_eq] at hw
    rcases hw with ((rfl | rfl) | rfl) | rfl <;> revert hc <;> decide
  · intro c hc
    simp only [isDigit, Bool.and_eq_true, decide_eq_true_eq] at hc
    have h1 : c.val.toNat ≤ 57 := hc.2
    simp only [ascii, Char.isAlpha, Char.isUpper, Char.isLower, Bool.or_eq_false_iff, Bool.and_eq_false_iff, decide_eq_false_iff_not]
    constructor
    · rintro ⟨h, _⟩; have h2 : 65 ≤ c.val.toNat := h; omega
    · left; intro h; have h2 : 97 ≤ c.val.toNat := h; omega
  · decide

example : Printable ascii [.Name ['a'], .DLess, .Backslash, .Dash, .Literal ['1']] :=
  (C04_lexer_image ascii ascii_sane _).1 ⟨"a<<\\-1".toList, by decide⟩
/-- `<<` directly before `-` cannot be written down. -/
example : ¬ Printable ascii [.DLess, .Dash] := by
  rw [← C04_relex _ ascii_sane]; decide

end Conch
