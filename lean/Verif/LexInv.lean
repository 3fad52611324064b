import Verif.LexProofs
/-!
# The specified token sequence is unique; consequences
-/
namespace Conch
open Spec

theorem not_opStart_backslash : ¬ opStart '\\' := by
  rw [opStart_iff]; decide

theorem longestOp_head {s o : Str} {t : Token} (h : LongestOp s o t) :
    ∃ d ds r, o = d :: ds ∧ opStart d ∧ s = d :: r := by
  have := longestOp_ne h
  obtain ⟨d, ds, rfl⟩ := List.exists_cons_of_ne_nil this
  obtain ⟨r, rfl⟩ := h.2.1
  exact ⟨d, ds, ds ++ r, rfl, ⟨_, h.1, rfl⟩, rfl⟩

theorem longestOp_unique {s o o' : Str} {t t' : Token} (h : LongestOp s o t)
    (h' : LongestOp s o' t') : o = o' ∧ t = t' := by
  have h1 := h.2.2 _ h'.1 h'.2.1
  have h2 := h'.2.2 _ h.1 h.2.1
  have : o = o' := List.IsPrefix.eq_of_length (List.prefix_of_prefix_length_le h.2.1 h'.2.1 h2)
    (Nat.le_antisymm h2 h1)
  subst this
  refine ⟨rfl, ?_⟩
  have key : ∀ p ∈ operators, ∀ q ∈ operators, p.1 = q.1 → p.2 = q.2 := by decide
  exact key _ h.1 _ h'.1 rfl

theorem maximalRun_unique {Q : Char → Prop} {r s r' s' : Str} (h : MaximalRun Q r s)
    (h' : MaximalRun Q r' s') (e : r ++ s = r' ++ s') : r = r' ∧ s = s' := by
  induction r generalizing r' with
  | nil =>
    cases r' with
    | nil => exact ⟨rfl, by simpa using e⟩
    | cons c r' =>
      simp at e
      exact absurd (h'.1 c (by simp)) (h.2 c (by simp [e]))
  | cons c r ih =>
    cases r' with
    | nil =>
      simp at e
      exact absurd (h.1 c (by simp)) (h'.2 c (by simp [← e]))
    | cons c' r' =>
      simp at e
      obtain ⟨rfl, e⟩ := e
      obtain ⟨rfl, rfl⟩ := ih ⟨fun d hd => h.1 d (by simp [hd]), h.2⟩
        ⟨fun d hd => h'.1 d (by simp [hd]), h'.2⟩ e
      exact ⟨rfl, rfl⟩

theorem single_unique {cc : CharClass} {c : Char} {t t' : Token} (h : Single cc c t)
    (h' : Single cc c t') : t = t' := by
  have ops : ∀ {c t}, ([c], t) ∈ operators → opStart c := fun h => ⟨_, h, rfl⟩
  have key : ∀ p ∈ operators, ∀ q ∈ operators, p.1 = q.1 → p.2 = q.2 := by decide
  rcases h with _ | h | ⟨h1, h2, h3⟩ | ⟨⟨h1, h2, h3⟩, h4⟩ | ⟨⟨h1, h2, h3⟩, h4⟩ <;>
  rcases h' with _ | g | ⟨g1, g2, g3⟩ | ⟨⟨g1, g2, g3⟩, g4⟩ | ⟨⟨g1, g2, g3⟩, g4⟩ <;>
  first
  | rfl
  | exact key _ h _ g rfl
  | exact absurd (ops h) not_opStart_backslash
  | exact absurd (ops g) not_opStart_backslash
  | exact absurd (ops h) g2
  | exact absurd (ops g) h2
  | exact absurd rfl h1
  | exact absurd rfl g1
  | (rw [h4] at g4; cases g4; done)
  | (rw [h3] at g3; cases g3; done)

/-- What a source starting with `c` can look like. -/
theorem lexes_cons_inv {cc : CharClass} {c : Char} {r : Str} {ts : List Token}
    (h : Lexes cc (c :: r) ts) :
    (c = '\\' ∧ r = [] ∧ ts = [.Backslash]) ∨
    (∃ d s t ts', c = '\\' ∧ r = d :: s ∧ ts = .Backslash :: t :: ts' ∧ Single cc d t ∧
      Lexes cc s ts') ∨
    (∃ o s t ts', opStart c ∧ c :: r = o ++ s ∧ ts = t :: ts' ∧ LongestOp (c :: r) o t ∧
      Lexes cc s ts') ∨
    (∃ run s ts', c ≠ '\\' ∧ ¬ opStart c ∧ cc.whitespace c = true ∧ r = run ++ s ∧
      ts = .Whitespace (c :: run) :: ts' ∧ MaximalRun (Blank cc) run s ∧ Lexes cc s ts') ∨
    (∃ run s ts', Plain cc c ∧ cc.nameStart c = true ∧ r = run ++ s ∧
      ts = .Name (c :: run) :: ts' ∧
      MaximalRun (fun d => Plain cc d ∧ cc.nameChar d = true) run s ∧ Lexes cc s ts') ∨
    (∃ run s ts', Plain cc c ∧ cc.nameStart c = false ∧ r = run ++ s ∧
      ts = .Literal (c :: run) :: ts' ∧ MaximalRun (Plain cc) run s ∧ Lexes cc s ts') := by
  generalize hs : c :: r = src at h
  cases h with
  | nil => cases hs
  | trailingBackslash => cases hs; exact .inl ⟨rfl, rfl, rfl⟩
  | escape h1 h2 => cases hs; exact .inr (.inl ⟨_, _, _, _, rfl, rfl, rfl, h1, h2⟩)
  | op h1 h2 =>
    obtain ⟨d, ds, r', rfl, hd, e⟩ := longestOp_head h1
    have : c = d := by
      have := hs.trans e
      exact (List.cons.inj this).1
    subst this
    refine .inr (.inr (.inl ⟨_, _, _, _, hd, rfl, rfl, h1, h2⟩))
  | blank h1 h2 h3 h4 h5 =>
    cases hs; exact .inr (.inr (.inr (.inl ⟨_, _, _, h1, h2, h3, rfl, rfl, h4, h5⟩)))
  | name h1 h2 h3 h4 =>
    cases hs; exact .inr (.inr (.inr (.inr (.inl ⟨_, _, _, h1, h2, rfl, rfl, h3, h4⟩))))
  | literal h1 h2 h3 h4 =>
    cases hs; exact .inr (.inr (.inr (.inr (.inr ⟨_, _, _, h1, h2, rfl, rfl, h3, h4⟩))))

/-- The grammar determines the tokens. -/
theorem lexes_unique {cc : CharClass} {s : Str} {ts ts' : List Token} (h : Lexes cc s ts)
    (h' : Lexes cc s ts') : ts = ts' := by
  induction h generalizing ts' with
  | nil =>
    generalize hs : ([] : Str) = src at h'
    cases h' with
    | nil => rfl
    | op h1 h2 =>
      obtain ⟨d, ds, r', rfl, hd, e⟩ := longestOp_head h1
      cases hs
    | _ => cases hs
  | trailingBackslash =>
    rcases lexes_cons_inv h' with ⟨_, _, rfl⟩ | ⟨_, _, _, _, _, h, _⟩ | ⟨_, _, _, _, h, _⟩ |
      ⟨_, _, _, h, _⟩ | ⟨_, _, _, h, _⟩ | ⟨_, _, _, h, _⟩
    · rfl
    · cases h
    · exact absurd h not_opStart_backslash
    · exact absurd rfl h
    · exact absurd rfl h.1
    · exact absurd rfl h.1
  | escape h1 h2 ih =>
    rcases lexes_cons_inv h' with ⟨_, h, _⟩ | ⟨_, _, _, _, _, h, rfl, h3, h4⟩ |
      ⟨_, _, _, _, h, _⟩ | ⟨_, _, _, h, _⟩ | ⟨_, _, _, h, _⟩ | ⟨_, _, _, h, _⟩
    · cases h
    · cases h; rw [single_unique h1 h3, ih h4]
    · exact absurd h not_opStart_backslash
    · exact absurd rfl h
    · exact absurd rfl h.1
    · exact absurd rfl h.1
  | @op o t s ts h1 h2 ih =>
    obtain ⟨d, ds, r, rfl, hd, e⟩ := longestOp_head h1
    rw [e] at h'
    rcases lexes_cons_inv h' with ⟨rfl, _⟩ | ⟨_, _, _, _, rfl, _⟩ |
      ⟨_, _, _, _, _, e', rfl, h3, h4⟩ | ⟨_, _, _, _, h, _⟩ | ⟨_, _, _, h, _⟩ | ⟨_, _, _, h, _⟩
    · exact absurd hd not_opStart_backslash
    · exact absurd hd not_opStart_backslash
    · rw [← e] at h3
      obtain ⟨rfl, rfl⟩ := longestOp_unique h1 h3
      rw [← e] at e'
      rw [ih ((List.append_cancel_left e') ▸ h4)]
    · exact absurd hd h
    · exact absurd hd h.2.1
    · exact absurd hd h.2.1
  | blank g1 g2 g3 g4 g5 ih =>
    rcases lexes_cons_inv h' with ⟨rfl, _⟩ | ⟨_, _, _, _, rfl, _⟩ |
      ⟨_, _, _, _, h, _⟩ | ⟨_, _, _, _, _, _, e', rfl, h3, h4⟩ | ⟨_, _, _, h, _⟩ | ⟨_, _, _, h, _⟩
    · exact absurd rfl g1
    · exact absurd rfl g1
    · exact absurd h g2
    · obtain ⟨rfl, rfl⟩ := maximalRun_unique g4 h3 e'
      rw [ih h4]
    · rw [h.2.2] at g3; cases g3
    · rw [h.2.2] at g3; cases g3
  | name g1 g2 g3 g4 ih =>
    rcases lexes_cons_inv h' with ⟨rfl, _⟩ | ⟨_, _, _, _, rfl, _⟩ |
      ⟨_, _, _, _, h, _⟩ | ⟨_, _, _, _, _, h, _⟩ | ⟨_, _, _, _, _, e', rfl, h3, h4⟩ |
      ⟨_, _, _, _, h, _⟩
    · exact absurd rfl g1.1
    · exact absurd rfl g1.1
    · exact absurd h g1.2.1
    · rw [g1.2.2] at h; cases h
    · obtain ⟨rfl, rfl⟩ := maximalRun_unique g3 h3 e'
      rw [ih h4]
    · rw [g2] at h; cases h
  | literal g1 g2 g3 g4 ih =>
    rcases lexes_cons_inv h' with ⟨rfl, _⟩ | ⟨_, _, _, _, rfl, _⟩ |
      ⟨_, _, _, _, h, _⟩ | ⟨_, _, _, _, _, h, _⟩ | ⟨_, _, _, _, h, _⟩ |
      ⟨_, _, _, _, _, e', rfl, h3, h4⟩
    · exact absurd rfl g1.1
    · exact absurd rfl g1.1
    · exact absurd h g1.2.1
    · rw [g1.2.2] at h; cases h
    · rw [g2] at h; cases h
    · obtain ⟨rfl, rfl⟩ := maximalRun_unique g3 h3 e'
      rw [ih h4]

/-- The text of an operator's token is its spelling. -/
theorem operators_asStr : ∀ p ∈ operators, p.2.asStr = p.1 := by decide

theorem single_asStr {cc : CharClass} {c : Char} {t : Token} (h : Single cc c t) :
    t.asStr = [c] := by
  cases h with
  | op h => exact operators_asStr _ h
  | _ => rfl

end Conch
