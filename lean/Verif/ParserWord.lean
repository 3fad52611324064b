import Verif.ParserArith
/-!
# Words, parameters and substitutions (parse.rs:1105-1779)
-/
namespace Conch

/-- `CommandGroupDelimiters`, parse.rs:206-225. -/
structure Delims where
  reservedTokens : List Token
  reservedWords : List Str
  exactTokens : List Token
  deriving DecidableEq, Repr

/-- `CommandGroupDelimiters::default()`, parse.rs:217-225. -/
def Delims.default : Delims := { reservedTokens := [], reservedWords := [], exactTokens := [] }

/-- Recursion through nested commands and nested substitutions: `command_group_internal` (parse.rs:2493)
and `parameter_raw` (parse.rs:1399). -/
structure Rec (I : Type) (B : Builder) where
  group : Delims → P I B (CommandGroup B.Command)
  param : P I B (SimpleWordKind B.Command)

section
variable {I : Type} {B : Builder} [TokStream I]

/-- `backticked_raw`, parse.rs:1363-1384. -/
def backtickedRaw (R : Rec I B) : P I B (SimpleWordKind B.Command) := do
  let pos ← getPos
  eat .Backtick
  let sub : SubIter I ← fun s =>
    let (r, it) := tokenIterFromBackticked s.it pos
    (.ok r, { s with it := it })
  match sub with
  | .ok sub =>
    let g ← withIterRestore sub (R.group .default)
    pure (.CommandSubst g)
  | .unmatched e => fail (.Unmatched e.tok e.pos)
  | .fuel => outOfFuel

/-- What `\` escapes in double quotes, parse.rs:1318-1322. -/
def Token.dqSpecial : Token → Bool
  | .Dollar | .Backtick | .DoubleQuote | .Backslash | .Newline => true
  | _ => false

/-- `matches!(t, Dollar | ParamPositional(_))`, parse.rs:1171 and 1302. -/
def Token.startsParam : Token → Bool
  | .Dollar | .ParamPositional _ => true
  | _ => false

/-- Words collected and the pending literal text of `word_interpolated_raw`, parse.rs:1281-1282. -/
abbrev InterpSt (C : Type) := List (SimpleWordKind C) × Str

/-- `if !buf.is_empty() { words.push(Literal(buf)); buf = String::new() }`,
parse.rs:1291-1294 and 1346-1348. -/
def flush {C : Type} (st : InterpSt C) : List (SimpleWordKind C) :=
  if st.2.isEmpty then st.1 else st.1 ++ [.Literal st.2]

/-- The `store!` macro, parse.rs:1289-1297. -/
def store {C : Type} (st : InterpSt C) (w : SimpleWordKind C) : InterpSt C := (flush st ++ [w], [])

/-- The loop body of `word_interpolated_raw`, parse.rs:1283-1344 (the repeated `peek`s of the same
token are one `peek` here). -/
def interpBody (R : Rec I B) (delim : Option (Token × Token)) (startPos : SourcePos)
    (st : InterpSt B.Command) :
    P I B (Step (InterpSt B.Command) (InterpSt B.Command)) := do
  let p ← peek
  if p = delim.map (·.2) then
    let _ ← next
    pure (.done st)
  else if p.any Token.startsParam then
    let w ← R.param
    pure (.cont (store st w))
  else if p = some .Backtick then
    let w ← backtickedRaw R
    pure (.cont (store st w))
  else
    match ← next with
    | some .Backslash =>
      let p ← peek
      if p.any Token.dqSpecial || p = delim.map (·.2) then
        match ← next with
        | some t => pure (.cont (store st (.Escaped t.asStr)))
        | none => panicAt 1326
      else pure (.cont (st.1, st.2 ++ Token.Backslash.asStr))
    | some .Dollar => panicAt 1333
    | some .Backtick => panicAt 1334
    | some t => pure (.cont (st.1, st.2 ++ t.asStr))
    | none =>
      match delim with
      | some (o, _) => fail (.Unmatched o startPos)
      | none => pure (.done st)

/-- `word_interpolated_raw`, parse.rs:1271-1349. -/
def wordInterpolatedRaw (R : Rec I B) (delim : Option (Token × Token)) (startPos : SourcePos) :
    P I B (List (SimpleWordKind B.Command)) := do
  let st ← loop (interpBody R delim startPos) ([], [])
  pure (flush st)

/-- Tokens that are literal text in a word, parse.rs:1192-1203. -/
def Token.wordLiteral : Token → Bool
  | .Bang | .Pound | .Percent | .Dash | .Equals | .Plus | .At | .Caret | .Slash | .Comma
  | .CurlyOpen | .CurlyClose => true
  | _ => false

/-- The loop body of `word_preserve_trailing_whitespace_raw_with_delim`, parse.rs:1153-1246.
The tokens that end a word (parse.rs:1176-1180) are exactly the word delimiters. -/
def wordBody (R : Rec I B) (delim : Option Token) (words : List (WordKind B.Command)) :
    P I B (Step (List (WordKind B.Command)) (List (WordKind B.Command))) := do
  match ← peek with
  | none => pure (.done words)
  | some p =>
    if some p = delim then pure (.done words)
    else if p.isWordDelimiter then pure (.done words)
    else if p = .Backtick then
      let w ← backtickedRaw R
      pure (.cont (words ++ [.Simple w]))
    else if p.startsParam then
      let w ← R.param
      pure (.cont (words ++ [.Simple w]))
    else
      let startPos ← getPos
      match ← next with
      | none => panicAt 1184
      | some t =>
        if t.wordLiteral then pure (.cont (words ++ [.Simple (.Literal t.asStr)]))
        else match t with
        | .Name s => pure (.cont (words ++ [.Simple (.Literal s)]))
        | .Literal s => pure (.cont (words ++ [.Simple (.Literal s)]))
        | .Star => pure (.cont (words ++ [.Simple .Star]))
        | .Question => pure (.cont (words ++ [.Simple .Question]))
        | .Tilde => pure (.cont (words ++ [.Simple .Tilde]))
        | .SquareOpen => pure (.cont (words ++ [.Simple .SquareOpen]))
        | .SquareClose => pure (.cont (words ++ [.Simple .SquareClose]))
        | .Colon => pure (.cont (words ++ [.Simple .Colon]))
        | .Backslash =>
          match ← next with
          | some .Newline => pure (.done words)
          | none => pure (.done words)
          | some t => pure (.cont (words ++ [.Simple (.Escaped t.asStr)]))
        | .SingleQuote =>
          let ts ← scan (fun it => takeSingleQuoted it startPos)
          pure (.cont (words ++ [.SingleQuoted (concatTokens ts)]))
        | .DoubleQuote =>
          let ws ← wordInterpolatedRaw R (some (.DoubleQuote, .DoubleQuote)) startPos
          pure (.cont (words ++ [.DoubleQuoted ws]))
        | .Backtick | .Dollar | .ParamPositional _ => panicAt 1234
        | _ => panicAt 1240

/-- `None`, `Single` or `Concat`, parse.rs:1248-1254 and 1523-1529. -/
def mkWord {C : Type} : List (WordKind C) → Option (ComplexWordKind C)
  | [] => none
  | [w] => some (.Single w)
  | ws => some (.Concat ws)

/-- `word_preserve_trailing_whitespace_raw_with_delim`, parse.rs:1140-1255. -/
def wordRawDelim (R : Rec I B) (delim : Option Token) :
    P I B (Option (ComplexWordKind B.Command)) := do
  skipWhitespace
  if (← peek) = some .Pound then pure none
  else
    let words ← loop (wordBody R delim) []
    pure (mkWord words)

/-- `word_preserve_trailing_whitespace_raw`, parse.rs:1132-1136. -/
def wordRaw (R : Rec I B) : P I B (Option (ComplexWordKind B.Command)) := wordRawDelim R none

/-- `word_preserve_trailing_whitespace`, parse.rs:1122-1128. -/
def wordPreserve (R : Rec I B) : P I B (Option B.Word) := do
  match ← wordRaw R with
  | some w =>
    let w ← call (.word w)
    pure (some w)
  | none => pure none

/-- `word`, parse.rs:1115-1119. -/
def word (R : Rec I B) : P I B (Option B.Word) := do
  let ret ← wordPreserve R
  skipWhitespace
  pure ret

/-- `parameter_inner`, parse.rs:1691-1715. -/
def parameterInner : P I B DefaultParameter := do
  let startPos ← getPos
  match ← next with
  | some .Star => pure .Star
  | some .Pound => pure .Pound
  | some .Question => pure .Question
  | some .Dollar => pure .Dollar
  | some .Bang => pure .Bang
  | some .Dash => pure .Dash
  | some .At => pure .At
  | some (.Name n) => pure (.Var n)
  | some (.Literal s) =>
    match parseUnsigned 10 (2 ^ 32 - 1) s with
    | some n => pure (.Positional n)
    | none => fail (.BadSubst (.Literal s) startPos)
  | some t => fail (.BadSubst t startPos)
  | none => fail .UnexpectedEOF

/-- Tokens `parameter_substitution_word_raw` takes as literal text, parse.rs:1441-1463: the word
delimiters and `#`. -/
def Token.substLiteral (t : Token) : Bool := t.isWordDelimiter || t = .Pound

/-- Skip the backslash and test for a newline, parse.rs:1496-1499. -/
def mpSecondNewline (m : TokStream.MP I) : Bool × TokStream.MP I :=
  let (_, m) := TokStream.mpNext m
  let (t, m) := TokStream.mpNext m
  (t = some .Newline, m)

/-- The loop `'capture_literals`, parse.rs:1433-1513. The result says whether to leave
`'capture_words` as well. -/
def captureLiteralsBody (words : List (WordKind B.Command)) :
    P I B (Step (List (WordKind B.Command)) (Bool × List (WordKind B.Command))) := do
  match ← peek with
  | none => pure (.done (true, words))
  | some t =>
    if t = .CurlyClose then pure (.done (true, words))
    else if t = .Backslash then
      if ← lookahead mpSecondNewline then
        let _ ← next
        let _ ← next
        pure (.cont (words ++ [.Simple (.Escaped Token.Newline.asStr)]))
      else pure (.done (false, words))
    else if t.substLiteral then
      let _ ← next
      pure (.cont (words ++ [.Simple (.Literal t.asStr)]))
    else pure (.done (false, words))

/-- The loop `'capture_words`, parse.rs:1432-1521. -/
def captureWordsBody (R : Rec I B) (words : List (WordKind B.Command)) :
    P I B (Step (List (WordKind B.Command)) (List (WordKind B.Command))) := do
  let (stop, words) ← loop captureLiteralsBody words
  if stop then pure (.done words)
  else
    match ← wordRawDelim R (some .CurlyClose) with
    | some (.Single w) => pure (.cont (words ++ [w]))
    | some (.Concat ws) => pure (.cont (words ++ ws))
    | none => pure (.done words)

/-- `parameter_substitution_word_raw`, parse.rs:1427-1534. -/
def paramSubstWordRaw (R : Rec I B) (curlyPos : SourcePos) :
    P I B (Option (ComplexWordKind B.Command)) := do
  let words ← loop (captureWordsBody R) []
  if ← eatMaybe .CurlyClose then pure (mkWord words)
  else fail (.Unmatched .CurlyOpen curlyPos)

/-- `parameter_substitution_body_raw`, parse.rs:1542-1584. -/
def paramSubstBodyRaw (R : Rec I B) (param : DefaultParameter) (curlyPos : SourcePos) :
    P I B (SimpleWordKind B.Command) := do
  let hasColon ← eatMaybe .Colon
  let opPos ← getPos
  match ← next with
  | some .Dash =>
    let word ← paramSubstWordRaw R curlyPos
    if param = .Pound && !hasColon && word.isNone then pure (.Subst (.Len .Dash))
    else pure (.Subst (.Default hasColon param word))
  | some .Equals =>
    let word ← paramSubstWordRaw R curlyPos
    pure (.Subst (.Assign hasColon param word))
  | some .Question =>
    let word ← paramSubstWordRaw R curlyPos
    if param = .Pound && !hasColon && word.isNone then pure (.Subst (.Len .Question))
    else pure (.Subst (.Error hasColon param word))
  | some .Plus =>
    let word ← paramSubstWordRaw R curlyPos
    pure (.Subst (.Alternative hasColon param word))
  | some .CurlyClose => pure (.Param param)
  | some t => fail (.BadSubst t opPos)
  | none => fail (.Unmatched .CurlyOpen curlyPos)

/-- `subshell_internal`, parse.rs:1758-1779. -/
def subshellInternal (R : Rec I B) (emptyBodyOk : Bool) : P I B (CommandGroup B.Command) := do
  let startPos ← getPos
  eat .ParenOpen
  let body ← R.group { Delims.default with exactTokens := [.ParenClose] }
  match ← peek with
  | some t =>
    if t = .ParenClose && (emptyBodyOk || !body.commands.isEmpty) then
      let _ ← next
      pure body
    else unexpected
  | none => fail (.Unmatched .ParenOpen startPos)

/-- Skip `(` and test for another one, parse.rs:1595-1599. -/
def mpSecondParenOpen (m : TokStream.MP I) : Bool × TokStream.MP I :=
  let (_, m) := TokStream.mpNext m
  let (t, m) := TokStream.mpNext m
  (t = some .ParenOpen, m)

/-- The arithmetic case of `parameter_substitution_raw`, parse.rs:1601-1622. -/
def paramSubstArith : P I B (SimpleWordKind B.Command) := do
  eat .ParenOpen
  eat .ParenOpen
  skipWhitespace
  let subst ← (do
    if (← peek) = some .ParenClose then pure none
    else
      let a ← arithmeticSubstitution
      pure (some a) : P I B (Option DefaultArithmetic))
  skipWhitespace
  eat .ParenClose
  skipWhitespace
  eat .ParenClose
  pure (.Subst (.Arith subst))

/-- The `${` case of `parameter_substitution_raw`, parse.rs:1630-1683, after the parameter. -/
def paramSubstCurly (R : Rec I B) (curlyPos : SourcePos) (param : DefaultParameter) :
    P I B (SimpleWordKind B.Command) := do
  match ← peek with
  | some .Percent =>
    let _ ← next
    if ← eatMaybe .Percent then
      let w ← paramSubstWordRaw R curlyPos
      pure (.Subst (.RemoveLargestSuffix param w))
    else
      let w ← paramSubstWordRaw R curlyPos
      pure (.Subst (.RemoveSmallestSuffix param w))
  | some .Pound =>
    let _ ← next
    if ← eatMaybe .Pound then
      let w ← paramSubstWordRaw R curlyPos
      pure (.Subst (.RemoveLargestPrefix param w))
    else
      let w ← paramSubstWordRaw R curlyPos
      if w.isNone && param = .Pound then pure (.Subst (.Len .Pound))
      else pure (.Subst (.RemoveSmallestPrefix param w))
  | p =>
    if param = .Pound then
      if p = some .Colon || p = some .Dash || p = some .Equals || p = some .Question
          || p = some .Plus || p = some .CurlyClose then
        paramSubstBodyRaw R param curlyPos
      else
        let param ← parameterInner
        eat .CurlyClose
        pure (.Subst (.Len param))
    else paramSubstBodyRaw R param curlyPos

/-- `parameter_substitution_raw`, parse.rs:1588-1688. -/
def parameterSubstitutionRaw (R : Rec I B) : P I B (SimpleWordKind B.Command) := do
  let startPos ← getPos
  match ← peek with
  | some .ParenOpen =>
    if ← lookahead mpSecondParenOpen then paramSubstArith
    else
      let g ← subshellInternal R true
      pure (.Subst (.Command g))
  | some .CurlyOpen =>
    let _ ← next
    let param ← parameterInner
    paramSubstCurly R startPos param
  | _ => unexpected

/-- Tokens that form a parameter after `$`, parse.rs:1407-1408. -/
def Token.paramStart : Token → Bool
  | .Star | .Pound | .Question | .Dollar | .Bang | .Dash | .At | .Name _ => true
  | _ => false

/-- `parameter_raw`, parse.rs:1399-1420. -/
def parameterRaw (R : Rec I B) : P I B (SimpleWordKind B.Command) := do
  let startPos ← getPos
  match ← next with
  | some (.ParamPositional p) => pure (.Param (.Positional p.asNum))
  | some .Dollar =>
    let p ← peek
    if p.any Token.paramStart then
      let q ← parameterInner
      pure (.Param q)
    else if p = some .ParenOpen || p = some .CurlyOpen then parameterSubstitutionRaw R
    else pure (.Literal Token.Dollar.asStr)
  | some t => fail (.Unexpected t startPos)
  | none => fail .UnexpectedEOF

end
end Conch
