import Verif.Iter
/-!
# Balanced scanning and backslash removal (`src/parse/iter.rs`, second half)
-/
namespace Conch

/-- What a `Balanced` iterator yields: `Option<Result<Token, UnmatchedError>>`, iter.rs:487-489. -/
abbrev BItem := Option (Except UnmatchedError Token)

/-- `Balanced`, iter.rs:442-456. The stack has its top at the head. -/
structure Balanced (I : Type) where
  iter : I
  escaped : Option (Token × SourcePos)
  stack : List (Token × SourcePos)
  skipLast : Bool
  done : Bool
  pos : SourcePos

namespace Balanced
variable {I : Type} [TokStream I]
open TokStream

/-- `Balanced::new`, iter.rs:468-477. -/
def new (it : I) (delim : Option (Token × SourcePos)) : Balanced I :=
  { iter := it
    escaped := none
    skipLast := delim.isSome
    stack := delim.toList
    done := false
    pos := TokStream.pos it }

/-- The error for an unclosed entry at end of input, iter.rs:590-592. -/
def unmatched : Token × SourcePos → UnmatchedError
  | (.ParenClose, p) => ⟨.ParenOpen, p⟩
  | (.CurlyClose, p) => ⟨.CurlyOpen, p⟩
  | (d, p) => ⟨d, p⟩

/-- The last part of `next`, iter.rs:524-598: no delimiter is next and the top of the stack is not
a single quote. -/
def nextPlain (b : Balanced I) : BItem × Balanced I :=
  let curPos := TokStream.pos b.iter
  let (t, it) := next b.iter
  let b := { b with iter := it }
  let b' := { b with pos := TokStream.pos it }
  match t with
  | some .Backslash =>
    let (t', it') := next it
    let escaped := t'.map fun t => (t, TokStream.pos it')
    (some (.ok .Backslash),
      { b with iter := it', escaped := escaped, done := b.done || b.stack.isEmpty,
               pos := TokStream.pos it })
  | some .Backtick =>
    (some (.ok .Backtick), { b' with stack := (.Backtick, curPos) :: b.stack })
  | some .SingleQuote =>
    (some (.ok .SingleQuote),
      if b.stack.head?.map (·.1) = some .DoubleQuote then b'
      else { b' with stack := (.SingleQuote, curPos) :: b.stack })
  | some .DoubleQuote =>
    (some (.ok .DoubleQuote), { b' with stack := (.DoubleQuote, curPos) :: b.stack })
  | some .ParenOpen =>
    (some (.ok .ParenOpen), { b' with stack := (.ParenClose, curPos) :: b.stack })
  | some .Dollar =>
    let curPos := TokStream.pos it
    let (p, it) := peek it
    let b := { b with iter := it, pos := TokStream.pos it }
    (some (.ok .Dollar),
      if p = some .CurlyOpen then { b with stack := (.CurlyClose, curPos) :: b.stack }
      else if p = some .ParenOpen then b
      else { b with done := b.done || b.stack.isEmpty })
  | some t => (some (.ok t), { b' with done := b.done || b.stack.isEmpty })
  | none =>
    match b.stack with
    | [] => (none, { b' with done := true })
    | d :: stack => (some (.error (unmatched d)), { b' with stack := stack })

/-- `Balanced::next`, iter.rs:489-598. -/
def next (b : Balanced I) : BItem × Balanced I :=
  match b.escaped with
  | some (tok, p) => (some (.ok tok), { b with escaped := none, pos := p })
  | none =>
    if b.done then (none, b)
    else
      let (p, it) := peek b.iter
      let b := { b with iter := it }
      -- `self.stack.last().map(|t| &t.0) == self.iter.peek()`, iter.rs:519
      if b.stack.head?.map (·.1) = p then
        let (t, it) := TokStream.next b.iter
        let stack := b.stack.tail
        let b := { b with iter := it, stack := stack, done := b.done || stack.isEmpty,
                          pos := TokStream.pos it }
        (if b.skipLast && stack.isEmpty then none else t.map .ok, b)
      else
        match b.stack with
        | (.SingleQuote, qpos) :: _ =>
          let (t, it) := TokStream.next b.iter
          let b := { b with iter := it, pos := TokStream.pos it }
          (match t with
            | some t => some (.ok t)
            | none => some (.error ⟨.SingleQuote, qpos⟩), b)
        | _ => nextPlain b

end Balanced

/-- What collecting a fallible iterator gives: all items, the first error, or budget exhausted (the loops at
parse.rs:1221-1223, 840-1075). -/
inductive Collected
  | ok (ts : List Token)
  | unmatched (e : UnmatchedError)
  | fuel
  deriving DecidableEq, Repr

namespace Balanced
variable {I : Type} [TokStream I]

/-- `for t in balanced { v.push(t?) }`: collects up to the end or the first error, parse.rs:1221-1223. -/
def collectN : Nat → Balanced I → Collected × Balanced I
  | 0, b => (.fuel, b)
  | n + 1, b =>
    match b.next with
    | (none, b) => (.ok [], b)
    | (some (.error e), b) => (.unmatched e, b)
    | (some (.ok t), b) =>
      match collectN n b with
      | (.ok ts, b) => (.ok (t :: ts), b)
      | r => r

/-- Collecting (parse.rs:1221-1223) with a sufficient budget: every item consumes a token, except an escaped token
(consumed by the item before) and the final `None`. -/
def collect (b : Balanced I) : Collected × Balanced I :=
  collectN (TokStream.len b.iter + 2) b

end Balanced

/-- `TokenIterator::balanced`, iter.rs:77-79, collected; returns the stream afterwards. -/
def takeBalanced {I} [TokStream I] (it : I) : Collected × I :=
  let (r, b) := (Balanced.new it none).collect
  (r, b.iter)

/-- `TokenIterator::single_quoted`, iter.rs:84-86, collected. -/
def takeSingleQuoted {I} [TokStream I] (it : I) (p : SourcePos) : Collected × I :=
  let (r, b) := (Balanced.new it (some (.SingleQuote, p))).collect
  (r, b.iter)

/-- `TokenIterator::double_quoted`, iter.rs:91-93. -/
def doubleQuoted {I} [TokStream I] (it : I) (p : SourcePos) : Balanced I :=
  Balanced.new it (some (.DoubleQuote, p))

/-- `TokenIterator::backticked`, iter.rs:98-100. -/
def backticked {I} [TokStream I] (it : I) (p : SourcePos) : Balanced I :=
  Balanced.new it (some (.Backtick, p))

/-- `\`, `$` and backtick: what a removed backslash must precede, iter.rs:647-649 and 698. -/
def Token.backtickSpecial : Token → Bool
  | .Dollar | .Backtick | .Backslash => true
  | _ => false

/-- `BacktickBackslashRemover`, iter.rs:610-616. -/
structure BacktickRemover (I : Type) where
  iter : Balanced I
  peeked : BItem
  done : Bool

namespace BacktickRemover
variable {I : Type} [TokStream I]

/-- `BacktickBackslashRemover::new`, iter.rs:621-627. -/
def new (b : Balanced I) : BacktickRemover I := { iter := b, peeked := none, done := false }

/-- `BacktickBackslashRemover::next`, iter.rs:689-720. -/
def next (r : BacktickRemover I) : BItem × BacktickRemover I :=
  match r.peeked with
  | some x => (some x, { r with peeked := none })
  | none =>
    if r.done then (none, r)
    else
      match r.iter.next with
      | (some (.ok .Backslash), b) =>
        match b.next with
        | (some (.ok t), b) =>
          if t.backtickSpecial then (some (.ok t), { r with iter := b })
          else (some (.ok .Backslash), { r with iter := b, peeked := some (.ok t) })
        | (some (.error e), b) =>
          (some (.ok .Backslash), { r with iter := b, peeked := some (.error e) })
        | (none, b) => (some (.ok .Backslash), { r with iter := b, done := true })
      | (some x, b) => (some x, { r with iter := b })
      | (none, b) => (none, { r with iter := b, done := true })

/-- `for t in remover { v.push(t?) }`: the iterator at iter.rs:689-720, collected. -/
def collectN : Nat → BacktickRemover I → Collected × BacktickRemover I
  | 0, r => (.fuel, r)
  | n + 1, r =>
    match r.next with
    | (none, r) => (.ok [], r)
    | (some (.error e), r) => (.unmatched e, r)
    | (some (.ok t), r) =>
      match collectN n r with
      | (.ok ts, r) => (.ok (t :: ts), r)
      | x => x

/-- Collecting the iterator at iter.rs:689-720 with a sufficient budget. -/
def collect (r : BacktickRemover I) : Collected × BacktickRemover I :=
  collectN (TokStream.len r.iter.iter + 2) r

end BacktickRemover

/-- `TokenIterator::backticked_remove_backslashes`, iter.rs:106-111, collected. -/
def takeBacktickedRemoved {I} [TokStream I] (it : I) (p : SourcePos) : Collected × I :=
  let (r, b) := (BacktickRemover.new (backticked it p)).collect
  (r, b.iter.iter)

/-- Result of the chunk loop of `create_token_iter`, iter.rs:638-666. -/
inductive Chunks
  | ok (cs : List (List Token × SourcePos))
  | unmatched (e : UnmatchedError)
  | fuel
  deriving DecidableEq, Repr

/-- The loop of `create_token_iter`, iter.rs:642-666; `cs` are the chunks pushed so far. -/
def chunkLoop {I} [TokStream I] : Nat → List (List Token × SourcePos) → List Token → SourcePos →
    Balanced I → Chunks × Balanced I
  | 0, _, _, _, b => (.fuel, b)
  | n + 1, cs, chunk, start, b =>
    match b.next with
    | (some (.ok .Backslash), b) =>
      let nextPos := b.pos
      match b.next with
      | (some (.ok t), b) =>
        if t.backtickSpecial then chunkLoop n (cs ++ [(chunk, start)]) [t] nextPos b
        else chunkLoop n cs (chunk ++ [.Backslash, t]) start b
      | (some (.error e), b) => (.unmatched e, b)
      | (none, b) => chunkLoop n cs (chunk ++ [.Backslash]) start b
    | (some (.ok t), b) => chunkLoop n cs (chunk ++ [t]) start b
    | (some (.error e), b) => (.unmatched e, b)
    | (none, b) => (.ok (if chunk.isEmpty then cs else cs ++ [(chunk, start)]), b)

/-- Result of `create_token_iter`, iter.rs:635-637. -/
inductive SubIter (I : Type)
  | ok (it : I)
  | unmatched (e : UnmatchedError)
  | fuel

/-- `create_token_iter`, iter.rs:635-678. Returns the sub-stream and the outer stream. -/
def createTokenIter {I} [TokStream I] (b : Balanced I) : SubIter I × I :=
  match chunkLoop (TokStream.len b.iter + 2) [] [] b.pos b with
  | (.ok cs, b) =>
    let sub := cs.foldr (fun c it => TokStream.bufferFirst it c.1 c.2)
      (TokStream.withPosition (I := I) b.pos)
    (.ok sub, b.iter)
  | (.unmatched e, b) => (.unmatched e, b.iter)
  | (.fuel, b) => (.fuel, b.iter)

/-- `token_iter_from_backticked_with_removed_backslashes`, iter.rs:293-298. -/
def tokenIterFromBackticked {I} [TokStream I] (it : I) (p : SourcePos) : SubIter I × I :=
  createTokenIter (backticked it p)

end Conch
