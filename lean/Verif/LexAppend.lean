import Verif.PropsRedirect
/-!
# Lexing a text in two parts
-/
namespace Conch
open Spec Gram

section
variable {cc : CharClass}

theorem newline_op {p : Str × Token} (hp : p ∈ operators) (h : '\n' ∈ p.1) : p.1 = ['\n'] := by
  have : ∀ p ∈ operators, '\n' ∈ p.1 → p.1 = ['\n'] := by decide
  exact this p hp h

theorem newline_start : opStart '\n' := opStart_iff.2 (by decide)

/-- An operator of the longer text that is none of the shorter one reaches into what follows. -/
theorem prefix_or {p x y : Str} {c : Char} (h : p <+: x ++ c :: y) : p <+: x ∨ (x ++ [c]) <+: p := by
  by_cases hl : p.length ≤ x.length
  · exact .inl (List.prefix_of_prefix_length_le h (List.prefix_append _ _) hl)
  · exact .inr (List.prefix_of_prefix_length_le (by simp) h (by simp; omega))

theorem longestOp_append {s o : Str} {t : Token} {c : Char} {rest : Str} (h : LongestOp s o t)
    (hno : ∀ p ∈ operators, (s ++ [c]) <+: p.1 → p.1.length ≤ o.length) :
    LongestOp (s ++ c :: rest) o t :=
  ⟨h.1, h.2.1.trans (List.prefix_append _ _), fun p hp hpre =>
    (prefix_or hpre).elim (h.2.2 p hp) (hno p hp)⟩

theorem maximalRun_append {Q : Char → Prop} {run s rest : Str} {c : Char} (h : MaximalRun Q run s)
    (hc : ¬ Q c) : MaximalRun Q run (s ++ c :: rest) := by
  refine ⟨h.1, fun d hd => ?_⟩
  cases s with
  | nil => cases hd; exact hc
  | cons e s => exact h.2 d hd

theorem newline_lexes (rest : Str) : Lexes cc ('\n' :: rest) (.Newline :: lex cc rest) := by
  refine Lexes.op (o := ['\n']) ⟨by decide, List.prefix_append _ _, fun p hp hpre => ?_⟩ (lex_lexes cc rest)
  by_cases hn : '\n' ∈ p.1
  · rw [newline_op hp hn]
  · have hne : ∀ p ∈ operators, p.1 ≠ [] := by decide
    obtain ⟨d, ds, hd⟩ := List.exists_cons_of_ne_nil (hne p hp)
    rw [hd] at hpre hn
    obtain ⟨z, hz⟩ := hpre
    cases hz
    simp at hn

/-- **Lines are lexed on their own**: a newline always ends a token, also after a backslash. -/
theorem lex_line (hs : cc.Sane) (s rest : Str) :
    lex cc (s ++ '\n' :: rest) = lex cc s ++ .Newline :: lex cc rest := by
  rw [C03_tokens_iff_grammar]
  have h := lex_lexes cc s
  generalize lex cc s = ts at h
  have hnc : cc.nameChar '\n' = false := by
    have := (hs.op '\n' (.inl newline_start)).1
    simp only [CharClass.nameChar, CharClass.nameStart, this]
    decide
  have hnp : ¬ Plain cc '\n' := fun h => h.2.1 newline_start
  induction h with
  | nil => exact newline_lexes rest
  | trailingBackslash =>
    have h := lexSingle_spec cc '\n'
    have e : lexSingle cc '\n' = .Newline := by
      have h1 := lex_single cc '\n'
      have h2 := (C03_tokens_iff_grammar cc ['\n'] _).2 (newline_lexes [])
      rw [h1] at h2
      exact (List.cons.inj h2).1
    rw [e] at h
    exact .escape h (lex_lexes cc rest)
  | escape h _ ih => exact .escape h ih
  | op h _ ih =>
    rw [List.append_assoc]
    rename_i o t s ts _
    have := longestOp_append (c := '\n') (rest := rest) h fun p hp hpre => by
      rw [newline_op hp (hpre.subset (by simp))]
      obtain ⟨d, ds, r, rfl, -⟩ := longestOp_head h
      simp
    rw [List.append_assoc] at this
    exact .op this ih
  | blank h1 h2 h3 h4 _ ih =>
    rw [List.append_assoc]
    exact .blank h1 h2 h3 (maximalRun_append h4 (fun h => h.2 rfl)) ih
  | name h1 h2 h3 _ ih =>
    rw [List.append_assoc]
    exact .name h1 h2 (maximalRun_append h3 (fun h => hnp h.1)) ih
  | literal h1 h2 h3 _ ih =>
    rw [List.append_assoc]
    exact .literal h1 h2 (maximalRun_append h3 hnp) ih

/-- The operators with a metacharacter inside start with one. -/
theorem meta_op : ∀ p ∈ operators, (∃ c ∈ metachars, c ∈ p.1) → ∀ c, p.1.head? = some c → c ∈ metachars := by
  have : ∀ p ∈ operators, (metachars.any fun c => p.1.contains c) → ∀ c ∈ p.1.head?, c ∈ metachars := by decide
  intro p hp ⟨c, hc, hcp⟩ d hd
  exact this p hp (by simp only [List.any_eq_true]; exact ⟨c, hc, by simpa using hcp⟩) d hd

/-- Text without backslashes, blanks and metacharacters, up to a metacharacter. -/
theorem lex_word (hs : cc.Sane) (s rest : Str) (h1 : '\\' ∉ s) (h2 : ∀ c ∈ s, cc.whitespace c = false)
    (h3 : ∀ c ∈ s, c ∉ metachars) (hr : ∀ c, rest.head? = some c → c ∈ metachars) :
    lex cc (s ++ rest) = lex cc s ++ lex cc rest := by
  cases rest with
  | nil =>
    have : lex cc [] = [] := (C03_tokens_iff_grammar _ _ _).2 .nil
    rw [this, List.append_nil, List.append_nil]
  | cons m rest =>
  replace hr := hr m rfl
  rw [C03_tokens_iff_grammar]
  have h := lex_lexes cc s
  generalize lex cc s = ts at h
  have hnp : ¬ Plain cc m := by
    rintro ⟨-, h1, h2⟩
    rcases meta_start hr with rfl | h
    · rw [hs.space] at h2; cases h2
    · exact h1 h
  induction h with
  | nil => exact lex_lexes cc _
  | trailingBackslash => simp at h1
  | escape h _ ih => simp at h1
  | op h _ ih =>
    rename_i o t s ts _
    rw [List.append_assoc]
    have := longestOp_append (c := m) (rest := rest) h fun p hp hpre => by
      exfalso
      obtain ⟨d, ds, r, rfl, -⟩ := longestOp_head h
      refine h3 d (by simp) (meta_op p hp ⟨m, hr, hpre.subset (by simp)⟩ d ?_)
      obtain ⟨z, hz⟩ := hpre
      rw [← hz]; rfl
    rw [List.append_assoc] at this
    exact .op this (ih (fun h => h1 (by simp [h])) (fun c hc => h2 c (by simp [hc])) (fun c hc => h3 c (by simp [hc])))
  | blank _ _ h => rw [h2 _ (by simp)] at h; cases h
  | name g1 g2 g3 _ ih =>
    rw [List.append_assoc]
    exact .name g1 g2 (maximalRun_append g3 (fun h => hnp h.1))
      (ih (fun h => h1 (by simp [h])) (fun c hc => h2 c (by simp [hc])) (fun c hc => h3 c (by simp [hc])))
  | literal g1 g2 g3 _ ih =>
    rw [List.append_assoc]
    exact .literal g1 g2 (maximalRun_append g3 hnp)
      (ih (fun h => h1 (by simp [h])) (fun c hc => h2 c (by simp [hc])) (fun c hc => h3 c (by simp [hc])))

end
end Conch
