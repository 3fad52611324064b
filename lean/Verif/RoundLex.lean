import Verif.SyntaxEqns
import Verif.PropsHeredoc
import Verif.PropsAssign
/-!
# Lexing the text of a program (C39)
-/
namespace Conch
open Spec Gram

section
variable {cc : CharClass}

theorem lex_nil : lex cc [] = [] := (C03_tokens_iff_grammar _ _ _).2 .nil

theorem lex_newline (rest : Str) : lex cc ('\n' :: rest) = .Newline :: lex cc rest :=
  (C03_tokens_iff_grammar _ _ _).2 (newline_lexes rest)

/-- An operator that is not continued. -/
theorem lex_token (hs : cc.Sane) (t : Token) (c : Char) (rest : Str)
    (h : (t.asStr, t) ∈ operators) (hc : ∀ p ∈ operators, ¬ t.asStr ++ [c] <+: p.1) :
    lex cc (t.asStr ++ c :: rest) = t :: lex cc (c :: rest) := by
  refine lex_op cc hs h ?_ fun d hd => ?_
  · rintro rfl; revert h; decide
  · cases hd; exact hc

theorem lex_end (hs : cc.Sane) (t : Token) (rest : Str) (h : (t.asStr, t) ∈ operators)
    (hc : ∀ p ∈ operators, t.asStr <+: p.1 → p.1 = t.asStr) :
    lex cc (t.asStr ++ rest) = t :: lex cc rest := by
  refine lex_op cc hs h ?_ fun d hd p hp hpre => ?_
  · rintro rfl; revert h; decide
  · have := hc p hp ((List.prefix_append _ _).trans hpre)
    rw [this] at hpre
    have := hpre.length_le
    simp at this; omega

theorem not_nameChar (hs : cc.Sane) {c : Char} (h : opStart c ∨ cc.whitespace c = true) : cc.nameChar c = false := by
  rw [← Bool.not_eq_true]
  intro hn
  have := hs.plain hn
  rcases h with h | h
  · exact this.2.1 h
  · rw [this.2.2] at h; cases h

/-- A name. -/
theorem lex_name (hs : cc.Sane) {x : Str} (hx : Shape cc (.Name x)) (c : Char) (rest : Str)
    (hc : opStart c ∨ cc.whitespace c = true) :
    lex cc (x ++ c :: rest) = .Name x :: lex cc (c :: rest) := by
  refine lex_cons hs (t := .Name x) hx (by simp) fun d hd => ?_
  cases hd
  exact not_nameChar hs hc

theorem latin_name (hl : Latin cc) {x : Str} (hx : x ≠ [] ∧ ∀ c ∈ x, c ∈ "abcdefghijklmnopqrstuvwxyz".toList) :
    Shape cc (.Name x) := by
  obtain ⟨hne, hall⟩ := hx
  obtain ⟨c, w, rfl⟩ := List.exists_cons_of_ne_nil hne
  refine ⟨c, w, rfl, ?_, fun d hd => ?_⟩
  · exact .inr (hl c (hall c (by simp)))
  · exact .inr (.inl (hl d (hall d (by simp [hd]))))

/-- A reserved word and a blank. -/
theorem lex_kw (hs : cc.Sane) (hl : Latin cc) (w : Str) (rest : Str)
    (hw : w ≠ [] ∧ ∀ c ∈ w, c ∈ "abcdefghijklmnopqrstuvwxyz".toList) (hb : Gram.NoBlank (lex cc rest)) :
    lex cc (w ++ ' ' :: rest) = .Name w :: .Whitespace [' '] :: lex cc rest := by
  rw [lex_name hs (latin_name hl hw) ' ' rest (.inr hs.space), lex_space hs hb]

end
end Conch
