import Verif.ScanLemmas
import Verif.ParserCmd
/-!
# The scan of a double quoted part of a here-document delimiter
-/
namespace Conch
open Spec

/-- The text of a double quoted part of a delimiter: a backslash is dropped before the characters
that are special in double quotes. -/
def Spec.dqUnquote : List Token → List Token
  | [] => []
  | [x] => [x]
  | x :: y :: r =>
    if x = .Backslash then
      if y.dqSpecial then y :: dqUnquote r else x :: y :: dqUnquote r
    else x :: dqUnquote (y :: r)

theorem dqUnquote_cons {x : Token} (h : x ≠ .Backslash) (xs : List Token) :
    dqUnquote (x :: xs) = x :: dqUnquote xs := by
  cases xs with
  | nil => rfl
  | cons y r => simp [dqUnquote, h]

theorem dqDelimN_steps {b' b'' : Balanced AIter} (h' : b'.next = (none, b''))
    (h'' : b''.next = (none, b'')) (n : Nat) : ∀ (xs : List PTok) (b : Balanced AIter),
    Balanced.Steps b xs b' → xs.length < n →
    dqDelimN n b = (.ok (dqUnquote (xs.map (·.2))), b'') := by
  induction n with
  | zero => intro xs b _ h; omega
  | succ n ih =>
    intro xs b hs hn
    cases hs with
    | nil => simp [dqDelimN, h', dqUnquote]
    | @cons _ b1 _ p t xs hpos hnext hs =>
      by_cases ht : t = .Backslash
      · subst ht
        cases hs with
        | nil =>
          cases n with
          | zero => simp at hn
          | succ n => simp [dqDelimN, hnext, h', h'', dqUnquote]
        | @cons _ b2 _ q u xs hpos2 hnext2 hs =>
          have := ih xs b2 hs (by simp at hn; omega)
          by_cases hu : u.dqSpecial = true <;> simp [dqDelimN, hnext, hnext2, this, hu, dqUnquote]
      · have := ih xs b1 hs (by simp at hn; omega)
        rw [List.map_cons, dqUnquote_cons ht]
        cases t <;> first | exact absurd rfl ht | simp [dqDelimN, hnext, this]

theorem dqDelimN_err {b' b'' : Balanced AIter} {err : UnmatchedError}
    (h' : b'.next = (some (.error err), b'')) (n : Nat) : ∀ (xs : List PTok) (b : Balanced AIter),
    Balanced.Steps b xs b' → xs.length < n → dqDelimN n b = (.unmatched err, b'') := by
  induction n with
  | zero => intro xs b _ h; omega
  | succ n ih =>
    intro xs b hs hn
    cases hs with
    | nil => simp [dqDelimN, h']
    | @cons _ b1 _ p t xs hpos hnext hs =>
      by_cases ht : t = .Backslash
      · subst ht
        cases hs with
        | nil => simp [dqDelimN, hnext, h']
        | @cons _ b2 _ q u xs hpos2 hnext2 hs =>
          have := ih xs b2 hs (by simp at hn; omega)
          simp [dqDelimN, hnext, hnext2, this]
      · have := ih xs b1 hs (by simp at hn; omega)
        cases t <;> first | exact absurd rfl ht | simp [dqDelimN, hnext, this]

theorem takeDqDelim_closed {xs : List PTok} (hb : Body .DoubleQuote xs) (p q : SourcePos)
    (ys : List PTok) (e : SourcePos) :
    takeDqDelim (⟨xs ++ (q, .DoubleQuote) :: ys, e⟩ : AIter) p =
      (.ok (dqUnquote (xs.map (·.2))), ⟨ys, e⟩) := by
  unfold takeDqDelim doubleQuoted
  rw [Balanced.new_delim]
  rw [dqDelimN_steps (b'' := { Balanced.mk' true [] ys e with done := true })
    (by rw [Balanced.next_close]; rfl) (Balanced.next_done _ rfl rfl) _ xs _
    (Balanced.body_steps hb (by simp [Closer]) true p [] ((q, .DoubleQuote) :: ys) e (by simp))
    (by simp; omega)]
  simp [Balanced.mk']

theorem takeDqDelim_unclosed {l : List PTok} {p : SourcePos} {err : UnmatchedError}
    (h : Unclosed .DoubleQuote p l err) (e : SourcePos) :
    takeDqDelim (⟨l, e⟩ : AIter) p = (.unmatched err, ⟨[], e⟩) := by
  obtain ⟨b, b', h1, h2, h3⟩ := Balanced.unclosed_steps h (by simp [Closer]) true [] e
  unfold takeDqDelim doubleQuoted
  rw [Balanced.new_delim, dqDelimN_err h2 _ l _ h1 (by simp)]
  simp [h3]

theorem takeRemoved_closed {xs : List PTok} (hb : Body .Backtick xs) (p q : SourcePos)
    (ys : List PTok) (e : SourcePos) :
    takeBacktickedRemoved (⟨xs ++ (q, .Backtick) :: ys, e⟩ : AIter) p =
      (.ok ((unescape xs).map (·.2)), ⟨ys, e⟩) := by
  obtain ⟨r, h1, h2⟩ := remover_steps
    (b'' := { Balanced.mk' true [] ys e with done := true })
    (by rw [Balanced.next_close]; rfl) ((xs ++ (q, .Backtick) :: ys).length + 2) xs _
    (Balanced.body_steps hb (by simp [Closer]) true p [] ((q, .Backtick) :: ys) e (by simp))
    (by simp; omega)
  unfold takeBacktickedRemoved BacktickRemover.collect BacktickRemover.new backticked
  rw [Balanced.new_delim]
  rw [show TokStream.len (BacktickRemover.mk (Balanced.mk' true [(Token.Backtick, p)]
    (xs ++ (q, Token.Backtick) :: ys) e) none false).iter.iter =
    (xs ++ (q, Token.Backtick) :: ys).length from rfl, h1]
  simp [h2, Balanced.mk']

theorem takeRemoved_unclosed {l : List PTok} {p : SourcePos} {err : UnmatchedError}
    (h : Unclosed .Backtick p l err) (e : SourcePos) :
    ∃ it, takeBacktickedRemoved (⟨l, e⟩ : AIter) p = (.unmatched err, it) := by
  obtain ⟨b, b', h1, h2, h3⟩ := Balanced.unclosed_steps h (by simp [Closer]) true [] e
  have := (remover_err h2 (l.length + 2) _ _ h1 (by simp)).1
  refine ⟨_, Prod.ext this rfl⟩

end Conch
