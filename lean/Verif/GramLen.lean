import Verif.Grammar
import Verif.GramRun
import Verif.ScanLemmas
/-!
# What is read gets shorter
-/
namespace Conch.Gram
open Conch

theorem Skip.le {l r : List Token} (h : Skip l r) : r.length ≤ l.length := by
  obtain ⟨bs, rfl, -⟩ := h; simp

theorem OptLine.le {l r : List Token} {n} (h : OptLine l n r) : r.length ≤ l.length := by
  cases h with
  | some h => have := h.lt; omega
  | none h _ => exact h.le

theorem Lines.le {l r : List Token} {n} (h : Lines l n r) : r.length ≤ l.length := by
  induction h with
  | nil h _ => exact h.le
  | cons h _ ih => have := h.lt; omega

theorem Keyword.lt {w : Str} {l r : List Token} (h : Keyword w l r) : r.length < l.length := by
  obtain ⟨t, rfl⟩ := h.cons; simp

theorem Kw.lt {w : Str} {l r : List Token} (h : Kw w l r) : r.length < l.length := by
  obtain ⟨l', h, hk⟩ := h
  have := h.le; have := hk.lt; omega

theorem DelimToks.le {l u r : List Token} (h : DelimToks l u r) : r.length ≤ l.length := by
  induction h with
  | nil _ => simp
  | cons _ _ _ _ ih => simp; omega

theorem RestOfLine.le {l u r : List Token} (h : RestOfLine l u r) :
    u.length + r.length = l.length := by
  induction h with
  | eof => simp
  | newline => simp; omega
  | cons _ _ _ _ ih => simp; omega

theorem stripLine_le (c : List Token) : (stripLine c).length ≤ c.length := by
  have hu : ∀ w, (untab w).length ≤ 1 := by intro w; unfold untab; dsimp only; split <;> simp
  induction c using stripLine.induct with
  | case1 => simp [stripLine]
  | case2 w => simpa [stripLine] using hu w
  | case3 w t r ih => have := hu w; simp [stripLine]; omega
  | case4 t r h1 h2 ih => rw [stripLine]; simpa using ih; all_goals assumption

theorem HereLines.le {s d} {l u r : List Token} (h : HereLines s d l u r) :
    u.length + r.length ≤ l.length := by
  have hl : ∀ c, (lineOf s c).length ≤ c.length := by
    intro c; unfold lineOf; split
    · exact stripLine_le c
    · simp
  induction h with
  | delim => simp; omega
  | @line c _ _ _ _ _ _ ih => have := hl c; simp; omega
  | lastDelim => simp
  | @lastLine c _ _ => simpa using hl c

theorem SepAfter.le {l r : List Token} {s c} (h : SepAfter l s c r) : r.length ≤ l.length := by
  cases h with
  | semi h => have := h.le; simp; omega
  | amp h => have := h.le; simp; omega
  | newline h _ => have := h.lt; omega
  | other h _ _ => exact h.le

theorem Parens.lt {l r : List Token} (h : Parens l r) : r.length < l.length := by
  obtain ⟨l', rfl, h⟩ := h; have := h.le; simp at *; omega

/-- Whether reading `a` consumes at least one token. -/
@[reducible] def NT.Consumes {B : Builder} : (n : NT) → n.Res B → Prop
  | .pieces _, a | .words, a | .redirects, a | .args, a | .andOrRest, a => a ≠ []
  | .rawWord _, a | .wordP, a | .word, a | .redirect, a | .top, a => a ≠ none
  | .interpParts d, _ | .interp d, _ => d ≠ none
  | .group _, a => a.commands ≠ []
  | .assigns, a => a ≠ ([], none)
  | .arms, a => a.1 ≠ []
  | .forWords _, _ | .fnStart _, _ => False
  | _, _ => True

theorem unescape_le (u : List Token) : (unescape u).length ≤ u.length := by
  unfold unescape
  have := unescape_length (anywhere u)
  simpa [anywhere] using this

theorem wordOf_ne {C : Type} {ws : List (WordKind C)} (h : wordOf ws ≠ none) : ws ≠ [] := by
  rintro rfl; exact h rfl

theorem Reads.len {B : Builder} {n : NT} {b : B.State} {l} {a : n.Res B} {r b'}
    (h : Reads n b l a r b') : r.length ≤ l.length ∧ (n.Consumes a → r.length < l.length) := by
  induction h
  all_goals dsimp only [NT.Consumes] at *
  all_goals try grind [→ Skip.le, → OptLine.le, → Lines.le, → Kw.lt, → Keyword.lt, → DelimToks.le, → RestOfLine.le,
    → HereLines.le, → SepAfter.le, → Parens.lt, unescape_le]
  case someWord h _ _ ih =>
    have := h.le
    exact ⟨by omega, fun h' => by have := ih.2 (wordOf_ne h'); omega⟩

/-! ## Heads of readings, proper delimiters -/

theorem proper_paren : Delims.Proper parenDelim := by simp [Delims.Proper, parenDelim]
theorem proper_brace : Delims.Proper braceDelim := by simp [Delims.Proper, braceDelim]
theorem proper_word (ws : List Str) : Delims.Proper (wordDelim ws) := by simp [Delims.Proper, wordDelim]
theorem proper_arm : Delims.Proper armDelim := by simp [Delims.Proper, armDelim]
theorem proper_no : Delims.Proper noDelim := by simp [Delims.Proper, noDelim]

theorem Reads.param_head {B : Builder} {b : B.State} {l r a b'} (h : Reads .param b l a r b') :
    ∃ t l', l = t :: l' ∧ t.startsParam = true := by
  cases h <;> exact ⟨_, _, rfl, rfl⟩

theorem Reads.backtick_head {B : Builder} {b : B.State} {l r a b'} (h : Reads .backtick b l a r b') :
    ∃ l', l = .Backtick :: l' := by
  cases h; exact ⟨_, rfl⟩

end Conch.Gram
