import Verif.GramWord
/-!
# Exact runs of the word of a substitution, without positions
-/
namespace Conch.Gram
open Conch

section
variable {B : Builder} {R : Rec AIter B}

/-- What a part of a word cannot start with. -/
theorem Reads.piece_head {b : B.State} {l r a b'} (h : Reads .piece b l a r b') :
    ∃ t l', l = t :: l' ∧ t.isWordDelimiter = false ∧ (t = .Backslash → ∀ l'', l' ≠ .Newline :: l'') := by
  cases h with
  | literal h =>
    refine ⟨_, _, rfl, ?_⟩
    simp only [literalTokens, List.mem_cons, List.not_mem_nil, or_false] at h
    rcases h with rfl | rfl | rfl | rfl | rfl | rfl | rfl | rfl | rfl | rfl | rfl | rfl <;>
      exact ⟨rfl, by simp⟩
  | name => exact ⟨_, _, rfl, rfl, by simp⟩
  | text => exact ⟨_, _, rfl, rfl, by simp⟩
  | special h =>
    refine ⟨_, _, rfl, ?_⟩
    simp only [specialTokens, List.mem_cons, List.not_mem_nil, or_false, Prod.mk.injEq] at h
    rcases h with ⟨rfl, rfl⟩ | ⟨rfl, rfl⟩ | ⟨rfl, rfl⟩ | ⟨rfl, rfl⟩ | ⟨rfl, rfl⟩ | ⟨rfl, rfl⟩ <;>
      exact ⟨rfl, by simp⟩
  | escaped h => exact ⟨_, _, rfl, rfl, by rintro - l'' h'; cases h'; exact h rfl⟩
  | singleQuoted h => exact ⟨_, _, rfl, rfl, by simp⟩
  | doubleQuoted h => exact ⟨_, _, rfl, rfl, by simp⟩
  | pieceBacktick h => cases h with | backtick => exact ⟨_, _, rfl, rfl, by simp⟩
  | pieceParam h => cases h <;> exact ⟨_, _, rfl, rfl, by simp⟩

theorem mpSecondNewline_it (m : AMultipeek) : (mpSecondNewline (I := AIter) m).2.it = m.it := rfl

theorem mpSecondNewline_val (it : AIter) (t : Token) (l : List Token) :
    (mpSecondNewline (I := AIter) (AMultipeek.mk it (t :: l))).1 = decide (l.head? = some .Newline) :=
  rfl

theorem lit_end {acc : List (WordKind B.Command)} {r : List Token} {b : B.State} :
    Run (captureLiteralsBody acc) (.CurlyClose :: r) b (.done (true, acc)) (.CurlyClose :: r) b := by
  unfold captureLiteralsBody
  exact .peekCons .pure

theorem lit_take {acc : List (WordKind B.Command)} {t : Token} {r : List Token} {b : B.State}
    (h : t.substLiteral = true) :
    Run (captureLiteralsBody acc) (t :: r) b (.cont (acc ++ [.Simple (.Literal t.asStr)])) r b := by
  unfold captureLiteralsBody
  refine .peekCons ?_
  dsimp only
  rw [if_neg (by rintro rfl; cases h), if_neg (by rintro rfl; cases h), if_pos h]
  exact Run.next .pure

theorem lit_escaped {acc : List (WordKind B.Command)} {r : List Token} {b : B.State} :
    Run (captureLiteralsBody acc) (.Backslash :: .Newline :: r) b
      (.cont (acc ++ [.Simple (.Escaped Token.Newline.asStr)])) r b := by
  unfold captureLiteralsBody
  refine .peekCons ?_
  dsimp only
  rw [if_neg (by simp), if_pos rfl]
  refine .lookahead true mpSecondNewline_it (fun it => mpSecondNewline_val it _ _) ?_
  exact Run.next (Run.next .pure)

theorem lit_stop {acc : List (WordKind B.Command)} {t : Token} {l : List Token} {b : B.State}
    (h1 : t ≠ .CurlyClose) (h2 : t.substLiteral = false) (h3 : t = .Backslash → ∀ l', l ≠ .Newline :: l') :
    Run (captureLiteralsBody acc) (t :: l) b (.done (false, acc)) (t :: l) b := by
  unfold captureLiteralsBody
  refine .peekCons ?_
  dsimp only
  rw [if_neg h1]
  by_cases hb : t = .Backslash
  · rw [if_pos hb]
    refine .lookahead false mpSecondNewline_it (fun it => ?_) ?_
    · rw [mpSecondNewline_val, decide_eq_false_iff_not]; exact head_ne (h3 hb)
    · exact .pure
  · rw [if_neg hb, h2]; exact .pure

/-- What `'capture_literals` and the word after it read. -/
def SubF (R : Rec AIter B) (l : List Token) (b : B.State) (a : List (WordKind B.Command)) (r : List Token)
    (b' : B.State) : Prop :=
  ∀ acc, (∃ l0, l0 = .CurlyClose :: r ∧ b' = b ∧ LRun captureLiteralsBody acc l b (true, acc ++ a) l0 b) ∨
    ∃ acc1 l1 ws l2 b2, LRun captureLiteralsBody acc l b (false, acc1) l1 b ∧ ws ≠ [] ∧
      Run (wordRawDelim R (some .CurlyClose)) l1 b (wordOf ws) l2 b2 ∧ l2.length < l1.length ∧
      l1.length ≤ l.length ∧ LRun (captureWordsBody R) (acc1 ++ ws) l2 b2 (acc ++ a) (.CurlyClose :: r) b'

theorem SubF.words {l : List Token} {b : B.State} {a r b'} (h : SubF R l b a r b') :
    ∀ acc, LRun (captureWordsBody R) acc l b (acc ++ a) (.CurlyClose :: r) b' := by
  intro acc
  rcases h acc with ⟨l0, rfl, rfl, h⟩ | ⟨acc1, l1, ws, l2, b2, h, hne, hw, h1, h2, hl⟩
  · refine .done ?_
    unfold captureWordsBody
    exact .bind h.run .pure
  · refine .cont (y := acc1 ++ ws) (l1 := l2) (b1 := b2) ?_ (by omega) hl
    unfold captureWordsBody
    refine .bind h.run ?_
    dsimp only
    rw [if_neg (by simp)]
    refine .bind hw ?_
    cases ws with
    | nil => exact absurd rfl hne
    | cons w ws =>
      cases ws with
      | nil => exact .pure
      | cons w' ws => exact .pure

theorem SubF.close {r : List Token} {b : B.State} : SubF R (.CurlyClose :: r) b [] r b :=
  fun acc => .inl ⟨_, rfl, rfl, by rw [List.append_nil]; exact .done lit_end⟩

theorem SubF.step {l l' : List Token} {b : B.State} {w a r b'}
    (hs : ∀ acc, Run (captureLiteralsBody acc) l b (.cont (acc ++ [w])) l' b)
    (hl : l'.length < l.length) (h : SubF R l' b a r b') : SubF R l b (w :: a) r b' := by
  intro acc
  have e : acc ++ w :: a = (acc ++ [w]) ++ a := by simp
  rw [e]
  rcases h (acc ++ [w]) with ⟨l0, rfl, rfl, h⟩ | ⟨acc1, l1, ws, l2, b2, h, hne, hw, h1, h2, hl'⟩
  · exact .inl ⟨_, rfl, rfl, .cont (hs acc) hl h⟩
  · exact .inr ⟨acc1, l1, ws, l2, b2, .cont (hs acc) hl h, hne, hw, h1, by omega, hl'⟩

/-- The same in the middle of a word. -/
def SubT (R : Rec AIter B) (l : List Token) (b : B.State) (a : List (WordKind B.Command)) (r : List Token)
    (b' : B.State) : Prop :=
  ∃ ws l2 b2, l2.length ≤ l.length ∧
    (∀ acc0, LRun (wordBody R (some .CurlyClose)) acc0 l b (acc0 ++ ws) l2 b2) ∧
    ∀ acc, LRun (captureWordsBody R) (acc ++ ws) l2 b2 (acc ++ a) (.CurlyClose :: r) b'

theorem SubT.ofEnd {l l2 : List Token} {b : B.State} {a r b'}
    (hw : ∀ acc0, Run (wordBody R (some .CurlyClose) acc0) l b (.done acc0) l2 b)
    (hl : l2.length ≤ l.length) (h : SubF R l2 b a r b') : SubT R l b a r b' :=
  ⟨[], l2, b, hl, fun acc0 => by rw [List.append_nil]; exact .done (hw acc0),
    fun acc => by rw [List.append_nil]; exact h.words acc⟩

theorem SubT.piece {l l' : List Token} {b b1 : B.State} {w a r b'}
    (hw : ∀ acc0, Run (wordBody R (some .CurlyClose) acc0) l b (.cont (acc0 ++ [w])) l' b1)
    (hl : l'.length < l.length) (h : SubT R l' b1 a r b') : SubT R l b (w :: a) r b' := by
  obtain ⟨ws, l2, b2, h1, h2, h3⟩ := h
  refine ⟨w :: ws, l2, b2, by omega, fun acc0 => ?_, fun acc => ?_⟩
  · have e : acc0 ++ w :: ws = (acc0 ++ [w]) ++ ws := by simp
    rw [e]
    exact .cont (hw acc0) hl (h2 _)
  · have := h3 (acc ++ [w])
    simpa using this

theorem SubF.piece {t : Token} {l l' : List Token} {b b1 : B.State} {w a r b'} (h1 : t ≠ .CurlyClose)
    (h2 : t ≠ .Pound) (hd : t.isWordDelimiter = false) (h3 : t = .Backslash → ∀ l', l ≠ .Newline :: l')
    (hw : ∀ acc0, Run (wordBody R (some .CurlyClose) acc0) (t :: l) b (.cont (acc0 ++ [w])) l' b1)
    (hl : l'.length < (t :: l).length) (h : SubT R l' b1 a r b') : SubF R (t :: l) b (w :: a) r b' := by
  intro acc
  obtain ⟨ws, l2, b2, hl2, hb, hc⟩ := h
  refine .inr ⟨acc, t :: l, w :: ws, l2, b2, .done (lit_stop h1 ?_ h3), by simp, ?_, by omega, le_refl _, ?_⟩
  · simp [Token.substLiteral, hd, h2]
  · refine wordRaw_some (l' := t :: l) (Skip.refl ?_) ?_ (.cont (hw []) hl (hb _))
    · constructor
      · rintro w r h; cases h; cases hd
      · rintro r h; cases h; exact h3 rfl _ rfl
    · rintro r h; cases h; exact h2 rfl
  · have := hc (acc ++ [w])
    simpa using this

end
end Conch.Gram
