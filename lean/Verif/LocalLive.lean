import Verif.GramLen
/-!
# Tokens that are still to be read

`live z l` is the length of `l` if the token `z` (if there is one) is in `l`, else 0.
-/
namespace Conch.Gram
open Conch

/-- The number of tokens, or 0 if the token `z` is not among them. -/
def live (z : Option Token) (l : List Token) : Nat :=
  match z with
  | none => l.length
  | some k => if k ∈ l then l.length else 0

section
variable {z : Option Token} {l r : List Token}

@[simp] theorem live_none : live none l = l.length := rfl

@[simp] theorem live_nil : live z [] = 0 := by cases z <;> simp [live]

theorem live_le : live z l ≤ l.length := by
  cases z <;> simp only [live]
  · exact Nat.le_refl _
  · split <;> omega

/-- `r` is part of `l`. -/
def Part (r l : List Token) : Prop := r.length ≤ l.length ∧ ∀ t ∈ r, t ∈ l

theorem Part.live (h : Part r l) : live z r ≤ live z l := by
  cases z with
  | none => exact h.1
  | some k =>
    have := h.1
    have := h.2 k
    simp only [Gram.live]
    split <;> split <;> first | omega | simp_all

theorem Part.append {v : List Token} : Part r (v ++ r) := ⟨by simp, by simp +contextual⟩

theorem Part.cons {t : Token} : Part r (t :: r) := .append (v := [t])

theorem Part.trans {l' : List Token} (h : Part r l) (h' : Part l l') : Part r l' :=
  ⟨Nat.le_trans h.1 h'.1, fun t ht => h'.2 t (h.2 t ht)⟩

theorem Part.refl : Part r r := ⟨Nat.le_refl _, fun _ h => h⟩

theorem live_cons {t : Token} : live z l ≤ live z (t :: l) := Part.cons.live

theorem live_append {v : List Token} : live z l ≤ live z (v ++ l) := Part.append.live

theorem Skip.part (h : Skip l r) : Part r l := by obtain ⟨bs, rfl, _⟩ := h; exact .append

theorem Keyword.part {w : Str} (h : Keyword w l r) : Part r l := by
  rcases h.1 with rfl | rfl <;> exact .cons

theorem Kw.part {w : Str} (h : Kw w l r) : Part r l := by
  obtain ⟨l', h1, h2⟩ := h; exact h2.part.trans h1.part

theorem Line.part {n : Nl} (h : Line l n r) : Part r l := by
  cases h with
  | @newline bs _ hb => exact .trans .cons .append
  | @comment bs cs _ hb hc =>
    have := Part.append (v := bs ++ .Pound :: cs ++ [.Newline]) (r := r)
    simpa using this
  | lastComment => exact ⟨by simp, by simp⟩

theorem OptLine.part {n : Option Nl} (h : OptLine l n r) : Part r l := by
  cases h with
  | some h => exact h.part
  | none h _ => exact h.part

theorem Lines.part {n : List Nl} (h : Lines l n r) : Part r l := by
  induction h with
  | nil h _ => exact h.part
  | cons h _ ih => exact ih.trans h.part

theorem Parens.part (h : Parens l r) : Part r l := by
  obtain ⟨l1, rfl, h⟩ := h
  exact (Part.cons.trans h.part).trans .cons

theorem SepAfter.part {k c} (h : SepAfter l k c r) : Part r l := by
  cases h with
  | semi h => exact h.part.trans .cons
  | amp h => exact h.part.trans .cons
  | newline h _ => exact h.part
  | other h _ _ => exact h.part

theorem DelimToks.append {u : List Token} (h : DelimToks l u r) : l = u ++ r := by
  induction h with
  | nil _ => rfl
  | cons _ _ _ _ ih => simp [ih]

theorem RestOfLine.append {u : List Token} (h : RestOfLine l u r) : l = u ++ r := by
  induction h with
  | eof => rfl
  | newline => rfl
  | cons _ _ _ _ ih => simp [ih]

theorem HereLines.part {s d} {u : List Token} (h : HereLines s d l u r) : Part r l := by
  induction h with
  | delim _ _ => exact .trans .cons .append
  | line _ _ _ ih => exact ih.trans (.trans .cons .append)
  | lastDelim => exact ⟨by simp, by simp⟩
  | lastLine => exact ⟨by simp, by simp⟩

theorem Part.after {v : List Token} (h : Part r l) : Part (v ++ r) (v ++ l) :=
  ⟨by have := h.1; simp; omega, by
    intro t ht; rw [List.mem_append] at *; exact ht.imp_right (h.2 t)⟩

theorem here_part {t : Token} {s d} {l1 l2 l3 u saved body : List Token} (h1 : Skip l l1) (h2 : DelimToks l1 u l2)
    (h3 : RestOfLine l2 saved l3) (h4 : HereLines s d l3 body r) : Part (saved ++ r) (t :: l) := by
  have h5 : Part (saved ++ r) l2 := by rw [h3.append]; exact h4.part.after
  have h6 : Part l2 l1 := by rw [h2.append]; exact .append
  exact ((h5.trans h6).trans h1.part).trans .cons

end

theorem Reads.part {B : Builder} {n : NT} {b : B.State} {l} {a : n.Res B} {r b'}
    (h : Reads n b l a r b') : Part r l := by
  refine ⟨h.len.1, ?_⟩
  induction h
  case heredocQuoted h1 h2 _ _ h3 h4 _ _ => exact (here_part h1 h2 h3 h4).2
  case heredoc h1 h2 _ _ h3 h4 _ _ _ _ => exact (here_part h1 h2 h3 h4).2
  case caseCommand h1 h2 h3 h4 h5 h6 h7 h8 ih1 ih2 =>
    exact fun t ht => h1.part.2 t (ih1 t (h3.part.2 t (h4.part.2 t (h5.part.2 t (ih2 t (h7.part.2 t (h8.part.2 t ht)))))))
  all_goals
    intro t ht
    grind [→ Skip.part, → Keyword.part, → Kw.part, → OptLine.part, → Lines.part, → Parens.part, → SepAfter.part, Part]

theorem Reads.live {B : Builder} {z : Option Token} {n : NT} {b : B.State} {l} {a : n.Res B} {r b'}
    (h : Reads n b l a r b') : live z r ≤ live z l := h.part.live

end Conch.Gram
