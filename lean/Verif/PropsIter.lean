import Verif.IterRefine
/-!
# Properties C09 and C10: the buffered token stream
-/
namespace Conch
namespace Spec

/-- What a user of the stream can do. -/
inductive Op
  | next
  | peek
  /-- open a multi-peek, peek `n` times, close it -/
  | multipeek (n : Nat)
  /-- push tokens back, to be counted from the position `p` -/
  | pushBack (ts : List Token) (p : SourcePos)
  deriving Repr

/-- What is observed: the tokens an operation showed (`none` at the end of the stream) and the
position of the stream after it. -/
structure Obs where
  shown : List (Option Token)
  pos : SourcePos
  deriving DecidableEq, Repr

/-! The specification: a plain list of positioned tokens. -/

/-- The first `n` entries, `none` beyond the end. -/
def firsts (ts : List Token) : Nat → List (Option Token)
  | 0 => []
  | n + 1 => ts.head? :: firsts ts.tail n

/-- One operation on a list of positioned tokens. -/
def listStep (l : List (SourcePos × Token)) :
    Op → List (Option Token) × List (SourcePos × Token)
  | .next => match l with
    | (_, t) :: l' => ([some t], l')
    | [] => ([none], [])
  | .peek => ([l.head?.map (·.2)], l)
  | .multipeek n => (firsts (l.map (·.2)) n, l)
  | .pushBack ts p => ([], annotate p ts ++ l)

/-- The position of a list of positioned tokens that is followed by the position `e`. -/
def listPos (l : List (SourcePos × Token)) (e : SourcePos) : SourcePos := (l.head?.map (·.1)).getD e

/-- A history on the list. -/
def listRun (l : List (SourcePos × Token)) (e : SourcePos) : List Op → List Obs
  | [] => []
  | op :: ops =>
    let (shown, l) := listStep l op
    ⟨shown, listPos l e⟩ :: listRun l e ops

/-! The same on the code's iterator; `none` = a panic branch was reached. -/

/-- `n` calls of `peek_next`. -/
def peekMany (m : Multipeek) : Nat → List (Option Token) × Multipeek
  | 0 => ([], m)
  | n + 1 =>
    let (t, m) := m.peekNext
    let (ts, m) := peekMany m n
    (t :: ts, m)

def iterStep (it : TokenIter) : Op → Option (List (Option Token) × TokenIter)
  | .next => it.next.map fun (t, it) => ([t], it)
  | .peek => it.peek.map fun (t, it) => ([t], it)
  | .multipeek n =>
    let (ts, m) := peekMany (Multipeek.new it) n
    some (ts, m.drop)
  | .pushBack ts p => some ([], it.bufferTokens ts p)

def iterRun (it : TokenIter) : List Op → Option (List Obs)
  | [] => some []
  | op :: ops =>
    match iterStep it op with
    | none => none
    | some (shown, it) => (iterRun it ops).map (⟨shown, it.pos⟩ :: ·)

end Spec
open Spec

theorem peekMany_spec (m : Multipeek) (n : Nat) : (peekMany m n).1 = firsts m.abs.left n ∧
    (peekMany m n).2.drop.abs = m.drop.abs := by
  induction n generalizing m with
  | zero => exact ⟨rfl, rfl⟩
  | succ n ih =>
    obtain ⟨h1, h2⟩ := Multipeek.peekNext_abs m
    obtain ⟨g1, g2⟩ := ih m.peekNext.2
    refine ⟨?_, ?_⟩
    · simp only [peekMany, firsts, g1, h1, h2]
    · have : m.peekNext.2.drop.abs = m.drop.abs := congrArg AMultipeek.it h2
      simp only [peekMany, g2, this]

theorem listPos_eq (a : AIter) : listPos a.rest a.endPos = a.pos := by
  rcases a with ⟨rest, e⟩
  cases rest with
  | nil => rfl
  | cons x xs => rfl

theorem iterStep_spec {it : TokenIter} (h : it.Ok) (op : Op) : ∃ it',
    iterStep it op = some ((listStep it.abs.rest op).1, it') ∧ it'.Ok ∧
    it'.abs = ⟨(listStep it.abs.rest op).2, it.abs.endPos⟩ := by
  cases op with
  | next =>
    obtain ⟨it', h1, h2, h3⟩ := TokenIter.next_eq h
    refine ⟨it', ?_, h2, ?_⟩
    · simp only [iterStep, h1, Option.map_some, listStep, AIter.next]
      rcases it.abs with ⟨rest, e⟩
      cases rest <;> rfl
    · rw [h3]
      simp only [listStep, AIter.next]
      rcases it.abs with ⟨rest, e⟩
      cases rest <;> rfl
  | peek =>
    obtain ⟨it', h1, h2, h3⟩ := TokenIter.peek_eq h
    exact ⟨it', by simp [iterStep, h1, listStep, AIter.peek], h2, h3⟩
  | multipeek n =>
    obtain ⟨h1, h2⟩ := peekMany_spec (Multipeek.new it) n
    rw [Multipeek.abs_new] at h1
    have : (Multipeek.new it).drop.abs = it.abs :=
      congrArg AMultipeek.it (Multipeek.abs_new it)
    refine ⟨(peekMany (Multipeek.new it) n).2.drop, ?_, Multipeek.drop_ok _, h2.trans this⟩
    simp only [iterStep, h1]; rfl
  | pushBack ts p =>
    exact ⟨_, rfl, TokenIter.bufferTokens_ok _ _ _, TokenIter.abs_bufferTokens it ts p⟩

/-- C10: whatever history of operations a user performs on a stream over the tokens `ts`, no panic
branch is reached, and everything shown — tokens and positions — is what a plain list of
positioned tokens would show. -/
theorem C10_stream_is_a_list (ts : List Token) (ops : List Op) :
    iterRun (TokenIter.new ts) ops =
      some (listRun (annotate .new ts) (posAfter .new ts) ops) := by
  have key : ∀ (ops : List Op) (it : TokenIter), it.Ok →
      iterRun it ops = some (listRun it.abs.rest it.abs.endPos ops) := by
    intro ops
    induction ops with
    | nil => intro _ _; rfl
    | cons op ops ih =>
      intro it h
      obtain ⟨it', h1, h2, h3⟩ := iterStep_spec h op
      simp only [iterRun, h1, ih it' h2, Option.map_some, listRun, h3, TokenIter.pos_eq h2]
      rw [← listPos_eq]
  exact key ops _ (TokenIter.new_ok ts)

/-- C10 for the stream that `create_token_iter` starts from: no tokens, a given position. -/
theorem C10_stream_with_position (p : SourcePos) (ops : List Op) :
    iterRun (TokenIter.withPosition [] p) ops = some (listRun [] p ops) := by
  have key : ∀ (ops : List Op) (it : TokenIter), it.Ok →
      iterRun it ops = some (listRun it.abs.rest it.abs.endPos ops) := by
    intro ops
    induction ops with
    | nil => intro _ _; rfl
    | cons op ops ih =>
      intro it h
      obtain ⟨it', h1, h2, h3⟩ := iterStep_spec h op
      simp only [iterRun, h1, ih it' h2, Option.map_some, listRun, h3, TokenIter.pos_eq h2]
      rw [← listPos_eq]
  exact key ops _ (TokenIter.withPosition_ok [] p)

example : iterRun (TokenIter.new [.Name ['a'], .Newline, .Semi])
    [.multipeek 4, .next, .pushBack [.Amp, .Pipe] ⟨7, 8, 9⟩, .next, .next, .peek] =
    some [⟨[some (.Name ['a']), some .Newline, some .Semi, none], ⟨0, 1, 1⟩⟩,
      ⟨[some (.Name ['a'])], ⟨1, 1, 2⟩⟩, ⟨[], ⟨7, 8, 9⟩⟩, ⟨[some .Amp], ⟨8, 8, 10⟩⟩,
      ⟨[some .Pipe], ⟨1, 1, 2⟩⟩, ⟨[some .Newline], ⟨1, 1, 2⟩⟩] := by decide

/-- The observations of everything but look-ahead. -/
def Spec.withoutPeeks : List Op → List Op
  | [] => []
  | .peek :: ops | .multipeek _ :: ops => withoutPeeks ops
  | op :: ops => op :: withoutPeeks ops

/-- The observations a history makes at its non-peeking operations. -/
def Spec.nonPeekObs : List Op → List Obs → List Obs
  | .peek :: ops, _ :: obs | .multipeek _ :: ops, _ :: obs => nonPeekObs ops obs
  | _ :: ops, o :: obs => o :: nonPeekObs ops obs
  | _, _ => []

/-- C09: look-ahead is invisible. Take any history, delete all its peeks and multi-peeks: the
remaining operations show the same tokens at the same positions. -/
theorem C09_lookahead_invisible (ts : List Token) (ops : List Op) :
    ∃ obs, iterRun (TokenIter.new ts) ops = some obs ∧
      iterRun (TokenIter.new ts) (withoutPeeks ops) = some (nonPeekObs ops obs) := by
  refine ⟨_, C10_stream_is_a_list ts ops, ?_⟩
  rw [C10_stream_is_a_list]
  congr 1
  generalize annotate .new ts = l
  generalize posAfter .new ts = e
  induction ops generalizing l with
  | nil => rfl
  | cons op ops ih => cases op <;> simp [withoutPeeks, listRun, nonPeekObs, listStep, ih]

/-- C09: the `i`-th peek of a multi-peek (from 0) shows the `i`-th token that the following calls
of `next` return. -/
theorem C09_peek_shows_upcoming (ts : List Token) (ops : List Op) (n : Nat) :
    ∃ obs shown p, iterRun (TokenIter.new ts) (ops ++ [.multipeek n]) = some (obs ++ [⟨shown, p⟩]) ∧
      shown.length = n ∧ ∃ obs', iterRun (TokenIter.new ts) (ops ++ List.replicate n .next) =
        some (obs ++ obs') ∧ obs'.map (·.shown) = shown.map fun t => [t] := by
  simp only [C10_stream_is_a_list]
  generalize annotate .new ts = l
  generalize posAfter .new ts = e
  have nexts : ∀ (n : Nat) (l : List (SourcePos × Token)),
      (listRun l e (List.replicate n .next)).map (·.shown) =
        (firsts (l.map (·.2)) n).map fun t => [t] := by
    intro n
    induction n with
    | zero => intro _; rfl
    | succ n ih =>
      intro l
      cases l <;> simp [List.replicate_succ, listRun, listStep, firsts, ih]
  have len : ∀ (n : Nat) (l : List Token), (firsts l n).length = n := by
    intro n
    induction n with
    | zero => intro _; rfl
    | succ n ih => intro l; simp [firsts, ih]
  induction ops generalizing l with
  | nil =>
    exact ⟨[], _, _, rfl, len _ _, _, rfl, nexts n l⟩
  | cons op ops ih =>
    obtain ⟨obs, shown, p, h1, h2, obs', h3, h4⟩ := ih (listStep l op).2
    refine ⟨⟨(listStep l op).1, listPos (listStep l op).2 e⟩ :: obs, shown, p, ?_, h2, obs', ?_, h4⟩
    · simp only [List.cons_append, listRun]
      rw [Option.some.inj h1]
    · simp only [List.cons_append, listRun]
      rw [Option.some.inj h3]

end Conch
