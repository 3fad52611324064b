import Verif.Pos
/-!
# The token iterator (`src/parse/iter.rs`)

`TokenIter` and `Multipeek` as in the code, with their panicking branches explicit (`none`), and
the interface `TokStream` the parser uses. Two implementations of the interface: `CIter` (the
code's `TokenIter`, restricted to the states that satisfy its invariant, which every operation is
shown to preserve) and `AIter`, a plain list of positioned tokens. `Verif/IterRefine.lean` relates
them.
-/
namespace Conch

/-- `TokenOrPos`, iter.rs:17-23. -/
inductive TokenOrPos
  | Tok (t : Token)
  | Pos (p : SourcePos)
  deriving DecidableEq, Repr

/-- `TokenOrPos::is_tok`, iter.rs:25-34. -/
def TokenOrPos.isTok : TokenOrPos → Bool
  | .Tok _ => true
  | .Pos _ => false

/-- `TokenIter`, iter.rs:129-141. `iter` is what the (fused) underlying iterator still yields.
`prev` is the stack `prev_buffered` with its top at the head of the list. -/
structure TokenIter where
  iter : List Token
  prev : List TokenOrPos
  pos : SourcePos
  deriving DecidableEq, Repr

namespace TokenIter

/-- `TokenIter::new`, iter.rs:219-225. -/
def new (ts : List Token) : TokenIter := { iter := ts, prev := [], pos := .new }

/-- `TokenIter::with_position`, iter.rs:228-232. -/
def withPosition (ts : List Token) (p : SourcePos) : TokenIter := { new ts with pos := p }

/-- `next_token_or_pos`, iter.rs:208-212. -/
def nextTokenOrPos (it : TokenIter) : Option TokenOrPos × TokenIter :=
  match it.prev with
  | x :: prev => (some x, { it with prev := prev })
  | [] =>
    match it.iter with
    | t :: ts => (some (.Tok t), { it with iter := ts })
    | [] => (none, it)

/-- The loop of `updated_buffered_pos`, iter.rs:245-247, on the stack and the position. -/
def popPositions : List TokenOrPos → SourcePos → List TokenOrPos × SourcePos
  | .Pos p :: prev, _ => popPositions prev p
  | prev, pos => (prev, pos)

/-- `updated_buffered_pos`, iter.rs:244-249. -/
def updatedBufferedPos (it : TokenIter) : TokenIter :=
  let (prev, pos) := popPositions it.prev it.pos
  { it with prev := prev, pos := pos }

/-- `buffer_tokens_and_positions_to_yield_first`, iter.rs:255-278. -/
def bufferTokensAndPositions (it : TokenIter) (tokens : List TokenOrPos)
    (start : Option SourcePos) : TokenIter :=
  let prev := match start with
    | some _ => .Pos it.pos :: it.prev
    | none => it.prev
  let prev := tokens ++ prev
  let pos := match start with
    | some p => p
    | none => it.pos
  { it with prev := prev, pos := pos }.updatedBufferedPos

/-- `buffer_tokens_to_yield_first`, iter.rs:284-287. -/
def bufferTokens (it : TokenIter) (buf : List Token) (start : SourcePos) : TokenIter :=
  it.bufferTokensAndPositions (buf.map .Tok) (some start)

/-- `Iterator::next`, iter.rs:167-190 (the outer `none` is the `panic!` of iter.rs:180). -/
def next (it : TokenIter) : Option (Option Token × TokenIter) :=
  match it.nextTokenOrPos with
  | (some (.Tok t), it) => some (some t, { it with pos := it.pos.advance t }.updatedBufferedPos)
  | (some (.Pos _), _) => none
  | (none, it) => some (none, it.updatedBufferedPos)

/-- `TokenIter::size_hint`, iter.rs:192-200: the lower bound; the upper one is that of the
underlying iterator. -/
def sizeHintLow (it : TokenIter) : Nat :=
  if it.prev.isEmpty then it.iter.length else it.prev.length

end TokenIter

/-- `Multipeek`, iter.rs:304-312. `buf` is in the order the values were pulled. -/
structure Multipeek where
  iter : TokenIter
  buf : List TokenOrPos
  deriving DecidableEq, Repr

namespace Multipeek

/-- `TokenIter::multipeek` / `Multipeek::new`, iter.rs:236-238 and 323-328, 326-331. -/
def new (it : TokenIter) : Multipeek := { iter := it, buf := [] }

/-- The loop of `peek_next`, iter.rs:334-352, on the stack: pulls entries up to and including the
first token. -/
def pull (it : List Token) : List TokenOrPos → List TokenOrPos →
    Option Token × List Token × List TokenOrPos × List TokenOrPos
  | .Tok t :: prev, buf => (some t, it, prev, buf ++ [.Tok t])
  | .Pos p :: prev, buf => pull it prev (buf ++ [.Pos p])
  | [], buf =>
    match it with
    | t :: ts => (some t, ts, [], buf ++ [.Tok t])
    | [] => (none, [], [], buf)

/-- `Multipeek::peek_next`, iter.rs:333-353. -/
def peekNext (m : Multipeek) : Option Token × Multipeek :=
  let (t, iter, prev, buf) := pull m.iter.iter m.iter.prev m.buf
  (t, { iter := { m.iter with iter := iter, prev := prev }, buf := buf })

/-- Dropping the wrapper, iter.rs:315-318 with `rewind`, iter.rs:204-206. -/
def drop (m : Multipeek) : TokenIter := m.iter.bufferTokensAndPositions m.buf none

end Multipeek

/-- `PeekableIterator::peek` for `TokenIter`, iter.rs:149-162 (the outer `none` is the
`unreachable!` of iter.rs:160). -/
def TokenIter.peek (it : TokenIter) : Option (Option Token × TokenIter) :=
  match (Multipeek.new it).peekNext with
  | (none, m) => some (none, m.drop)
  | (some _, m) =>
    match m.drop.prev with
    | .Tok t :: _ => some (some t, m.drop)
    | _ => none

/-- The number of tokens a stream still holds (used only as a budget by the model). -/
def TokenIter.len (it : TokenIter) : Nat := (it.prev.filter (·.isTok)).length + it.iter.length

/-! ## Invariant: a position mark is never on top of the stack -/

/-- The entry on top of the buffer is a token, or the buffer is empty. -/
def TokenIter.Ok (it : TokenIter) : Prop := ∀ p prev, it.prev ≠ .Pos p :: prev

theorem TokenIter.popPositions_ok (prev : List TokenOrPos) (pos : SourcePos) (p : SourcePos)
    (l : List TokenOrPos) : (popPositions prev pos).1 ≠ .Pos p :: l := by
  induction prev generalizing pos with
  | nil => simp [popPositions]
  | cons x xs ih => cases x <;> simp [popPositions, ih]

theorem TokenIter.popPositions_of_ok {prev : List TokenOrPos} (pos : SourcePos)
    (h : ∀ p l, prev ≠ .Pos p :: l) : popPositions prev pos = (prev, pos) := by
  cases prev with
  | nil => rfl
  | cons x xs => cases x with
    | Tok t => rfl
    | Pos p => exact absurd rfl (h p xs)

theorem TokenIter.updatedBufferedPos_ok (it : TokenIter) : it.updatedBufferedPos.Ok := by
  intro p l
  exact popPositions_ok _ _ _ _

theorem TokenIter.new_ok (ts : List Token) : (TokenIter.new ts).Ok := by
  intro p l; simp [TokenIter.new]

theorem TokenIter.withPosition_ok (ts : List Token) (p : SourcePos) :
    (TokenIter.withPosition ts p).Ok := by
  intro p l; simp [TokenIter.withPosition, TokenIter.new]

theorem TokenIter.bufferTokensAndPositions_ok (it : TokenIter) (ts start) :
    (it.bufferTokensAndPositions ts start).Ok := updatedBufferedPos_ok _

theorem TokenIter.bufferTokens_ok (it : TokenIter) (ts start) :
    (it.bufferTokens ts start).Ok := updatedBufferedPos_ok _

/-- Under the invariant the `panic!` in `next` is unreachable. -/
theorem TokenIter.next_isSome {it : TokenIter} (h : it.Ok) : it.next.isSome := by
  rcases it with ⟨iter, prev, pos⟩
  cases prev with
  | nil => cases iter <;> simp [next, nextTokenOrPos]
  | cons x xs => cases x with
    | Tok t => simp [next, nextTokenOrPos]
    | Pos p => exact absurd rfl (h p xs)

theorem TokenIter.next_ok {it it' : TokenIter} {r} (h : it.next = some (r, it')) : it'.Ok := by
  unfold next at h
  split at h
  · cases h; exact updatedBufferedPos_ok _
  · cases h
  · cases h; exact updatedBufferedPos_ok _

theorem Multipeek.drop_ok (m : Multipeek) : m.drop.Ok := TokenIter.updatedBufferedPos_ok _

/-- Under the invariant the `unreachable!` in `peek` is unreachable. -/
theorem TokenIter.peek_isSome {it : TokenIter} (h : it.Ok) : it.peek.isSome := by
  rcases it with ⟨iter, prev, pos⟩
  cases prev with
  | nil =>
    cases iter <;>
      simp [peek, Multipeek.new, Multipeek.peekNext, Multipeek.pull, Multipeek.drop,
        bufferTokensAndPositions, updatedBufferedPos, popPositions]
  | cons x xs => cases x with
    | Tok t =>
      simp [peek, Multipeek.new, Multipeek.peekNext, Multipeek.pull, Multipeek.drop,
        bufferTokensAndPositions, updatedBufferedPos, popPositions]
    | Pos p => exact absurd rfl (h p xs)

theorem TokenIter.peek_ok {it it' : TokenIter} {r} (h : it.peek = some (r, it')) : it'.Ok := by
  unfold peek at h
  split at h
  · cases h; exact Multipeek.drop_ok _
  · rename_i m _
    split at h
    · cases h; exact Multipeek.drop_ok _
    · cases h

/-! ## The interface the parser uses -/

/-- What `Parser` needs of its token iterator (`TokenIterWrapper`, iter.rs:356-435; its two
variants `Regular` and `Buffered` differ only in the type of the underlying iterator).
`MP` is the type of `Multipeek` wrappers. `withPosition` is `TokenIter::with_position` on the empty
iterator; `ofTokens` is `TokenIter::new`; `len` only serves the model's budgets. -/
class TokStream (I : Type) where
  MP : Type
  pos : I → SourcePos
  peek : I → Option Token × I
  next : I → Option Token × I
  mpNew : I → MP
  mpNext : MP → Option Token × MP
  mpDrop : MP → I
  bufferFirst : I → List Token → SourcePos → I
  withPosition : SourcePos → I
  ofTokens : List Token → I
  len : I → Nat

/-- The code's `TokenIter` in a state that satisfies the invariant. -/
def CIter := { it : TokenIter // it.Ok }

/-- `TokenIter::next` (iter.rs:167-190) on good states: no panic. -/
def CIter.next (it : CIter) : Option Token × CIter :=
  match h : it.1.next with
  | some (r, it') => (r, ⟨it', TokenIter.next_ok h⟩)
  | none => absurd (TokenIter.next_isSome it.2) (by simp [h])

/-- `TokenIter::peek` (iter.rs:150-161) on good states: no panic. -/
def CIter.peek (it : CIter) : Option Token × CIter :=
  match h : it.1.peek with
  | some (r, it') => (r, ⟨it', TokenIter.peek_ok h⟩)
  | none => absurd (TokenIter.peek_isSome it.2) (by simp [h])

instance : TokStream CIter where
  MP := Multipeek
  pos it := it.1.pos
  peek := CIter.peek
  next := CIter.next
  mpNew it := Multipeek.new it.1
  mpNext := Multipeek.peekNext
  mpDrop m := ⟨m.drop, m.drop_ok⟩
  bufferFirst it ts p := ⟨it.1.bufferTokens ts p, it.1.bufferTokens_ok ts p⟩
  withPosition p := ⟨.withPosition [] p, TokenIter.withPosition_ok [] p⟩
  ofTokens ts := ⟨.new ts, TokenIter.new_ok ts⟩
  len it := it.1.len

/-! ## The abstract stream: a list of positioned tokens -/

/-- Specification: the tokens to come with their positions, and the position after the last. -/
structure AIter where
  rest : List (SourcePos × Token)
  endPos : SourcePos
  deriving DecidableEq, Repr

/-- The tokens `ts` with the positions they have when the first one is at `p`. -/
def annotate : SourcePos → List Token → List (SourcePos × Token)
  | _, [] => []
  | p, t :: ts => (p, t) :: annotate (p.advance t) ts

/-- The position after the tokens `ts` when the first one is at `p`. -/
def posAfter (p : SourcePos) (ts : List Token) : SourcePos := ts.foldl SourcePos.advance p

namespace AIter

/-- The position of the next token. -/
def pos (it : AIter) : SourcePos :=
  match it.rest with
  | (p, _) :: _ => p
  | [] => it.endPos

/-- The upcoming tokens without positions. -/
def toks (it : AIter) : List Token := it.rest.map (·.2)

def peek (it : AIter) : Option Token := it.rest.head?.map (·.2)

def next (it : AIter) : Option Token × AIter :=
  match it.rest with
  | (_, t) :: r => (some t, { it with rest := r })
  | [] => (none, it)

def bufferFirst (it : AIter) (ts : List Token) (p : SourcePos) : AIter :=
  { it with rest := annotate p ts ++ it.rest }

def ofTokens (ts : List Token) : AIter :=
  { rest := annotate .new ts, endPos := posAfter .new ts }

end AIter

/-- Look-ahead on the abstract stream: the stream itself and the list not yet peeked. -/
structure AMultipeek where
  it : AIter
  left : List Token

instance : TokStream AIter where
  MP := AMultipeek
  pos := AIter.pos
  peek it := (it.peek, it)
  next := AIter.next
  mpNew it := ⟨it, it.toks⟩
  mpNext m := (m.left.head?, { m with left := m.left.tail })
  mpDrop m := m.it
  bufferFirst := AIter.bufferFirst
  withPosition p := ⟨[], p⟩
  ofTokens := AIter.ofTokens
  len it := it.rest.length

end Conch
