import Verif.Balanced
import Verif.Builder
/-!
# The parser's state and effects

A `&mut self` method of `Parser` returning `ParseResult<T>` becomes a `P I B T`: a function from
the parser state to an outcome and the new state.
-/
namespace Conch

/-- Outcome of a parser method. `panic n` is a panic, failed `unwrap` or `unreachable!` at line
`n` of parse.rs (`n = 0`: inside the builder); `fuel` means that a budget of the model ran out
(never happens, see C13). -/
inductive Res (ε α : Type)
  | ok (a : α)
  | err (e : ParseError ε)
  | panic (line : Nat)
  | fuel
  deriving DecidableEq, Repr

/-- `Parser`, parse.rs:362-365. -/
structure PSt (I : Type) (B : Builder) where
  it : I
  b : B.State

/-- Parser computations: what a method `fn(&mut self) -> ParseResult<_, _>` (`ParseResult` is at parse.rs:43) does. -/
def P (I : Type) (B : Builder) (α : Type) := PSt I B → Res B.Error α × PSt I B

section
variable {I : Type} {B : Builder} {α β σ : Type}

/-- `Ok(a)` of a `ParseResult`, parse.rs:43. -/
def P.pure (a : α) : P I B α := fun s => (.ok a, s)

/-- `?` (everywhere in parse.rs): continue on `Ok`, otherwise return. -/
def P.bind (m : P I B α) (f : α → P I B β) : P I B β := fun s =>
  match m s with
  | (.ok a, s) => f a s
  | (.err e, s) => (.err e, s)
  | (.panic n, s) => (.panic n, s)
  | (.fuel, s) => (.fuel, s)

instance : Monad (P I B) where
  pure := P.pure
  bind := P.bind

/-- `return Err(e)` (everywhere in parse.rs). -/
def fail (e : ParseError B.Error) : P I B α := fun s => (.err e, s)

/-- A panic at the given line of parse.rs. -/
def panicAt (line : Nat) : P I B α := fun s => (.panic line, s)

/-- Budget exhausted (model artefact). -/
def outOfFuel : P I B α := fun s => (.fuel, s)

/-- A builder call followed by `?` (the error is converted by `From`, parse.rs:180-184). -/
def call (c : Call B.toBTypes) : P I B c.Ret := fun s =>
  match B.call c s.b with
  | (.ok a, b) => (.ok a, { s with b := b })
  | (.err e, b) => (.err (.Custom e), { s with b := b })
  | (.panic, b) => (.panic 0, { s with b := b })

variable [TokStream I]

/-- `self.iter.pos()`, iter.rs:368-375. -/
def getPos : P I B SourcePos := fun s => (.ok (TokStream.pos s.it), s)

/-- `self.iter.peek()`, iter.rs:377-384. -/
def peek : P I B (Option Token) := fun s =>
  let (t, it) := TokStream.peek s.it
  (.ok t, { s with it := it })

/-- `self.iter.next()`, iter.rs:386-395. -/
def next : P I B (Option Token) := fun s =>
  let (t, it) := TokStream.next s.it
  (.ok t, { s with it := it })

/-- `{ let mut peeked = self.iter.multipeek(); ... }` (e.g. parse.rs:2299-2302): look ahead with `f`, then drop
the wrapper. -/
def lookahead (f : TokStream.MP I → α × TokStream.MP I) : P I B α := fun s =>
  let (a, m) := f (TokStream.mpNew s.it)
  (.ok a, { s with it := TokStream.mpDrop m })

/-- Turns what a fallible token iterator collected into a result
(`map_err(|e| ParseError::Unmatched(e.0, e.1))?`, parse.rs:844, 1222 and 1375). -/
def ofCollected : Collected → P I B (List Token)
  | .ok ts => pure ts
  | .unmatched e => fail (.Unmatched e.tok e.pos)
  | .fuel => outOfFuel

/-- Runs a scan on the token stream (`self.iter.balanced()` etc., iter.rs:77-111). -/
def scan (f : I → Collected × I) : P I B (List Token) := fun s =>
  let (r, it) := f s.it
  ofCollected r { s with it := it }

/-- What the body of a Rust `loop` in parse.rs does next. -/
inductive Step (σ α : Type)
  | cont (x : σ)
  | done (a : α)

/-- At most `n` iterations of a Rust `loop` in parse.rs whose variables are `σ`. -/
def loopN (body : σ → P I B (Step σ α)) : Nat → σ → P I B α
  | 0, _ => outOfFuel
  | n + 1, x => do
    match ← body x with
    | .cont y => loopN body n y
    | .done a => pure a

/-- A Rust `loop` (or `while`) in parse.rs. The budget is two more than the number of tokens left. -/
def loop (body : σ → P I B (Step σ α)) (x : σ) : P I B α := fun s =>
  loopN body (TokStream.len s.it + 2) x s

/-- `mem::swap(&mut self.iter, &mut sub); m?; mem::replace(&mut self.iter, sub)`,
parse.rs:1084-1087: the original stream is put back unless `m` returned early with an error. -/
def withIter (sub : I) (m : P I B α) : P I B α := fun s =>
  match m { s with it := sub } with
  | (.ok a, s') => (.ok a, { s' with it := s.it })
  | r => r

/-- `mem::swap(&mut self.iter, &mut sub); let r = m; mem::replace(&mut self.iter, sub); r?`,
parse.rs:1380-1384: the original stream is always put back. -/
def withIterRestore (sub : I) (m : P I B α) : P I B α := fun s =>
  match m { s with it := sub } with
  | (r, s') => (r, { s' with it := s.it })

/-- `make_unexpected_err`, parse.rs:444-449, followed by returning the error. -/
def unexpected : P I B α := do
  let pos ← getPos
  match ← next with
  | some t => fail (.Unexpected t pos)
  | none => fail .UnexpectedEOF

/-- `eat_maybe!` with one token, parse.rs:379-400. -/
def eatMaybe (t : Token) : P I B Bool := do
  if (← peek) = some t then
    let _ ← next
    pure true
  else pure false

/-- `eat!` with one token, parse.rs:405-410. -/
def eat (t : Token) : P I B Unit := do
  if ← eatMaybe t then pure () else unexpected

end

end Conch
