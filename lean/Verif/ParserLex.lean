import Verif.Monad
/-!
# Blanks, comments and reserved words (parse.rs:2290-2470)
-/
namespace Conch

section
variable {I : Type} {B : Builder} [TokStream I]

/-- The keywords, parse.rs:23-36. -/
def CASE : Str := ['c', 'a', 's', 'e']
/-- parse.rs:24. -/
def DO : Str := ['d', 'o']
/-- parse.rs:25. -/
def DONE : Str := ['d', 'o', 'n', 'e']
/-- parse.rs:26. -/
def ELIF : Str := ['e', 'l', 'i', 'f']
/-- parse.rs:27. -/
def ELSE : Str := ['e', 'l', 's', 'e']
/-- parse.rs:28. -/
def ESAC : Str := ['e', 's', 'a', 'c']
/-- parse.rs:29. -/
def FI : Str := ['f', 'i']
/-- parse.rs:30. -/
def FOR : Str := ['f', 'o', 'r']
/-- parse.rs:31. -/
def FUNCTION : Str := ['f', 'u', 'n', 'c', 't', 'i', 'o', 'n']
/-- parse.rs:32. -/
def IF : Str := ['i', 'f']
/-- parse.rs:33. -/
def IN : Str := ['i', 'n']
/-- parse.rs:34. -/
def THEN : Str := ['t', 'h', 'e', 'n']
/-- parse.rs:35. -/
def UNTIL : Str := ['u', 'n', 't', 'i', 'l']
/-- parse.rs:36. -/
def WHILE : Str := ['w', 'h', 'i', 'l', 'e']

/-- `matches!(t, Whitespace(_))`, parse.rs:2295. -/
def Token.isWs : Token → Bool
  | .Whitespace _ => true
  | _ => false

/-- `matches!(t, Name(_))`, parse.rs:598 and 2191. -/
def Token.isName : Token → Bool
  | .Name _ => true
  | _ => false

/-- The inner `while` of `skip_whitespace`, parse.rs:2295-2297. -/
def skipWsBody (_ : Unit) : P I B (Step Unit Unit) := do
  match ← peek with
  | some t =>
    if t.isWs then
      let _ ← next
      pure (.cont ())
    else pure (.done ())
  | none => pure (.done ())

/-- `Some(&Backslash) == peeked.peek_next() && Some(&Newline) == peeked.peek_next()`,
parse.rs:2299-2302. -/
def mpBackslashNewline (m : TokStream.MP I) : Bool × TokStream.MP I :=
  let (t, m) := TokStream.mpNext m
  if t = some .Backslash then
    let (t, m) := TokStream.mpNext m
    (t = some .Newline, m)
  else (false, m)

/-- The body of `skip_whitespace`, parse.rs:2294-2310. -/
def skipWhitespaceBody (_ : Unit) : P I B (Step Unit Unit) := do
  loop skipWsBody ()
  if ← lookahead mpBackslashNewline then
    let _ ← next
    let _ ← next
    pure (.cont ())
  else pure (.done ())

/-- `skip_whitespace`, parse.rs:2293-2311. -/
def skipWhitespace : P I B Unit := loop skipWhitespaceBody ()

/-- `self.iter.by_ref().take_while(|t| t != &Newline).collect()`, parse.rs:2329-2333 (the newline
itself is consumed). -/
def takeCommentBody (acc : List Token) : P I B (Step (List Token) (List Token)) := do
  match ← next with
  | some .Newline => pure (.done acc)
  | some t => pure (.cont (acc ++ [t]))
  | none => pure (.done acc)

/-- `newline`, parse.rs:2324-2344. -/
def newline : P I B (Option Nl) := do
  skipWhitespace
  match ← peek with
  | some .Pound =>
    let comment ← loop takeCommentBody []
    pure (some ⟨some (concatTokens comment)⟩)
  | some .Newline =>
    let _ ← next
    pure (some ⟨none⟩)
  | _ => pure none

/-- The loop of `linebreak`, parse.rs:2317-2319. -/
def linebreakBody (lines : List Nl) : P I B (Step (List Nl) (List Nl)) := do
  match ← newline with
  | some n => pure (.cont (lines ++ [n]))
  | none => pure (.done lines)

/-- `linebreak`, parse.rs:2315-2321. -/
def linebreak : P I B (List Nl) := loop linebreakBody []

/-- The look-ahead of `peek_reserved_token`, parse.rs:2380-2396. Returns `some r` when the function
returns `r` at this point. -/
def mpReservedToken (tokens : List Token) (m : TokStream.MP I) :
    Option (Option Token) × TokStream.MP I :=
  match TokStream.mpNext m with
  | (none, m) => (some none, m)
  | (some tok, m) =>
    if tokens.contains tok then
      match TokStream.mpNext m with
      | (some d, m) => (if d.isWordDelimiter then some (some tok) else none, m)
      | (none, m) => (some (some tok), m)
    else (none, m)

/-- The `for _ in 0..num_tries` loop of `peek_reserved_token`, parse.rs:2378-2400. -/
def peekReservedTokenTries (tokens : List Token) : Nat → P I B (Option Token)
  | 0 => pure none
  | n + 1 => do
    match ← lookahead (mpReservedToken tokens) with
    | some r => pure r
    | none =>
      skipWhitespace
      peekReservedTokenTries tokens n

/-- `peek_reserved_token`, parse.rs:2353-2403. -/
def peekReservedToken (tokens : List Token) : P I B (Option Token) :=
  if tokens.isEmpty then pure none
  else if tokens.any Token.isWs then peekReservedTokenTries tokens 2
  else do
    skipWhitespace
    peekReservedTokenTries tokens 1

/-- The look-ahead of `peek_reserved_word`, parse.rs:2420-2433. -/
def mpReservedWord (words : List Str) (m : TokStream.MP I) : Option Str × TokStream.MP I :=
  let (t, m) := TokStream.mpNext m
  let found : Option Str := match t with
    | some (.Name kw) | some (.Literal kw) => if words.contains kw then some kw else none
    | _ => none
  match TokStream.mpNext m with
  | (some d, m) => (if d.isWordDelimiter then found else none, m)
  | (none, m) => (found, m)

/-- `peek_reserved_word`, parse.rs:2414-2433. -/
def peekReservedWord (words : List Str) : P I B (Option Str) :=
  if words.isEmpty then pure none
  else do
    skipWhitespace
    lookahead (mpReservedWord words)

/-- `reserved_token`, parse.rs:2438-2457, up to the construction of the error. -/
def reservedToken' (tokens : List Token) : P I B (Option Token) := do
  match ← peekReservedToken tokens with
  | some _ =>
    match ← next with
    | some t => pure (some t)
    | none => panicAt 2440
  | none =>
    match ← peek with
    | some t =>
      if tokens.contains t then
        let _ ← next
        pure none
      else pure none
    | none => pure none

/-- `reserved_token`, parse.rs:2438-2457. -/
def reservedToken (tokens : List Token) : P I B Token := do
  match ← reservedToken' tokens with
  | some t => pure t
  | none => unexpected

/-- `reserved_word`, parse.rs:2462-2470; `Err(())` is `none`. -/
def reservedWord (words : List Str) : P I B (Option Str) := do
  match ← peekReservedWord words with
  | some s =>
    let _ ← next
    pure (some s)
  | none => pure none

end
end Conch
