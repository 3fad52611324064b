import Verif.Iter
/-!
# `TokenIter` refines a list of positioned tokens (C09, C10)
-/
namespace Conch

/-- The positioned tokens a buffer `prev`, read from position `pos`, and the unread tokens `ts`
stand for; and the position after the last. -/
def absList : SourcePos → List TokenOrPos → List Token → List (SourcePos × Token) × SourcePos
  | pos, [], ts => (annotate pos ts, posAfter pos ts)
  | pos, .Tok t :: prev, ts =>
    ((pos, t) :: (absList (pos.advance t) prev ts).1, (absList (pos.advance t) prev ts).2)
  | _, .Pos p :: prev, ts => absList p prev ts

/-- The abstract stream a `TokenIter` stands for. -/
def TokenIter.abs (it : TokenIter) : AIter :=
  { rest := (absList it.pos it.prev it.iter).1, endPos := (absList it.pos it.prev it.iter).2 }

namespace TokenIter

theorem abs_new (ts : List Token) : (TokenIter.new ts).abs = AIter.ofTokens ts := rfl

theorem abs_withPosition (p : SourcePos) :
    (TokenIter.withPosition [] p).abs = ⟨[], p⟩ := rfl

theorem absList_popPositions (pos : SourcePos) (prev : List TokenOrPos) (ts : List Token) :
    absList (popPositions prev pos).2 (popPositions prev pos).1 ts = absList pos prev ts := by
  induction prev generalizing pos with
  | nil => rfl
  | cons x xs ih => cases x <;> simp [popPositions, absList, ih]

theorem abs_updatedBufferedPos (it : TokenIter) : it.updatedBufferedPos.abs = it.abs := by
  simp [updatedBufferedPos, abs, absList_popPositions]

theorem absList_append_toks (pos : SourcePos) (ts : List Token) (prev : List TokenOrPos)
    (rest : List Token) : absList pos (ts.map .Tok ++ prev) rest =
      (annotate pos ts ++ (absList (posAfter pos ts) prev rest).1,
        (absList (posAfter pos ts) prev rest).2) := by
  induction ts generalizing pos with
  | nil => rfl
  | cons t ts ih => simp [absList, annotate, posAfter, ih]

theorem abs_bufferTokens (it : TokenIter) (ts : List Token) (p : SourcePos) :
    (it.bufferTokens ts p).abs = it.abs.bufferFirst ts p := by
  rw [bufferTokens, bufferTokensAndPositions, abs_updatedBufferedPos]
  simp [abs, absList_append_toks, absList, AIter.bufferFirst]

theorem pos_eq {it : TokenIter} (h : it.Ok) : it.pos = it.abs.pos := by
  rcases it with ⟨iter, prev, pos⟩
  cases prev with
  | nil => cases iter <;> rfl
  | cons x xs =>
    cases x with
    | Tok t => rfl
    | Pos p => exact absurd rfl (h p xs)

theorem next_eq {it : TokenIter} (h : it.Ok) : ∃ it', it.next = some ((it.abs.next).1, it') ∧
    it'.Ok ∧ it'.abs = (it.abs.next).2 := by
  rcases it with ⟨iter, prev, pos⟩
  cases prev with
  | nil =>
    cases iter with
    | nil => exact ⟨_, rfl, updatedBufferedPos_ok _, rfl⟩
    | cons t ts =>
      refine ⟨_, rfl, updatedBufferedPos_ok _, ?_⟩
      rw [abs_updatedBufferedPos]; rfl
  | cons x xs =>
    cases x with
    | Tok t =>
      refine ⟨_, rfl, updatedBufferedPos_ok _, ?_⟩
      rw [abs_updatedBufferedPos]; rfl
    | Pos p => exact absurd rfl (h p xs)

end TokenIter

namespace Multipeek

/-- The tokens among the entries of a buffer. -/
def bufToks : List TokenOrPos → List Token
  | [] => []
  | .Tok t :: l => t :: bufToks l
  | .Pos _ :: l => bufToks l

/-- The tokens a stream still holds, in order. -/
def toks (it : TokenIter) : List Token := bufToks it.prev ++ it.iter

theorem absList_toks (pos : SourcePos) (prev : List TokenOrPos) (ts : List Token) :
    (absList pos prev ts).1.map (·.2) = bufToks prev ++ ts := by
  have ann : ∀ (ts : List Token) (p : SourcePos), (annotate p ts).map (·.2) = ts := by
    intro ts
    induction ts with
    | nil => intro _; rfl
    | cons t ts ih => intro p; simp [annotate, ih]
  induction prev generalizing pos with
  | nil => exact ann _ _
  | cons x xs ih => cases x <;> simp [absList, bufToks, ih]

theorem toks_eq (it : TokenIter) : toks it = it.abs.toks := (absList_toks _ _ _).symm

theorem absList_shift (pos : SourcePos) (buf : List TokenOrPos) (t : Token) (ts : List Token) :
    absList pos (buf ++ [.Tok t]) ts = absList pos buf (t :: ts) := by
  induction buf generalizing pos with
  | nil => rfl
  | cons x xs ih => cases x <;> simp [absList, ih]

theorem pull_spec (it : List Token) (prev buf : List TokenOrPos) :
    (pull it prev buf).1 = (bufToks prev ++ it).head? ∧
    bufToks (pull it prev buf).2.2.1 ++ (pull it prev buf).2.1 = (bufToks prev ++ it).tail ∧
    (∀ pos, absList pos ((pull it prev buf).2.2.2 ++ (pull it prev buf).2.2.1)
        (pull it prev buf).2.1 = absList pos (buf ++ prev) it) := by
  induction prev generalizing buf with
  | nil =>
    cases it with
    | nil => simp [pull, bufToks]
    | cons t ts => simp [pull, bufToks, absList_shift]
  | cons x xs ih =>
    cases x with
    | Tok t => simp [pull, bufToks]
    | Pos p =>
      obtain ⟨h1, h2, h3⟩ := ih (buf ++ [.Pos p])
      simp only [pull, bufToks]
      exact ⟨h1, h2, fun pos => by rw [h3]; simp⟩

/-- A wrapper stands for the stream it will put back and the tokens not peeked yet. -/
def abs (m : Multipeek) : AMultipeek := { it := m.drop.abs, left := toks m.iter }

theorem drop_abs (m : Multipeek) : m.drop.abs =
    { rest := (absList m.iter.pos (m.buf ++ m.iter.prev) m.iter.iter).1,
      endPos := (absList m.iter.pos (m.buf ++ m.iter.prev) m.iter.iter).2 } := by
  rw [drop, TokenIter.bufferTokensAndPositions, TokenIter.abs_updatedBufferedPos]
  rfl

theorem abs_new (it : TokenIter) : (new it).abs = ⟨it.abs, it.abs.toks⟩ := by
  unfold abs
  rw [drop_abs, toks_eq]; rfl

theorem peekNext_abs (m : Multipeek) : m.peekNext.1 = m.abs.left.head? ∧
    m.peekNext.2.abs = { m.abs with left := m.abs.left.tail } := by
  obtain ⟨h1, h2, h3⟩ := pull_spec m.iter.iter m.iter.prev m.buf
  refine ⟨h1, ?_⟩
  unfold abs
  rw [drop_abs, drop_abs]
  simp only [peekNext, toks, h2]
  rw [h3]

end Multipeek

theorem TokenIter.peek_eq {it : TokenIter} (h : it.Ok) : ∃ it', it.peek = some (it.abs.peek, it') ∧
    it'.Ok ∧ it'.abs = it.abs := by
  have h1 := TokenIter.peek_isSome h
  obtain ⟨⟨r, it'⟩, hr⟩ := Option.isSome_iff_exists.1 h1
  refine ⟨it', ?_, TokenIter.peek_ok hr, ?_⟩
  · rw [hr]
    rcases it with ⟨iter, prev, pos⟩
    cases prev with
    | nil =>
      cases iter <;>
        simp [peek, Multipeek.new, Multipeek.peekNext, Multipeek.pull, Multipeek.drop,
          bufferTokensAndPositions, updatedBufferedPos, popPositions] at hr <;>
        simp [← hr.1, abs, absList, AIter.peek, annotate]
    | cons x xs => cases x with
      | Tok t =>
        simp [peek, Multipeek.new, Multipeek.peekNext, Multipeek.pull, Multipeek.drop,
          bufferTokensAndPositions, updatedBufferedPos, popPositions] at hr
        simp [← hr.1, abs, absList, AIter.peek]
      | Pos p => exact absurd rfl (h p xs)
  · obtain ⟨g1, g2⟩ := Multipeek.peekNext_abs (Multipeek.new it)
    have g3 : (Multipeek.new it).peekNext.2.drop.abs = it.abs := by
      have := congrArg AMultipeek.it g2
      rw [Multipeek.abs_new] at this
      exact this
    unfold peek at hr
    split at hr
    · rename_i m hm
      rw [hm] at g3; cases hr; exact g3
    · rename_i m hm
      rw [hm] at g3
      split at hr
      · cases hr; exact g3
      · cases hr

end Conch
