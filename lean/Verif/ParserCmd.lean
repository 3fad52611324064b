import Verif.ParserWord
/-!
# Commands, redirections and here-documents (the rest of parse.rs)

The `debug_assert`s of parse.rs:2085 and 2514 test a local variable that is assigned only once;
they are not modelled.
-/
namespace Conch

section
variable {I : Type} {B : Builder} [TokStream I]

/-! ## Redirections -/

/-- The closure `simple_could_be_numeric`, parse.rs:695-713. -/
def SimpleWordKind.couldBeNumeric {C : Type} : SimpleWordKind C → Bool
  | .Star | .Question | .SquareOpen | .SquareClose | .Tilde | .Colon => false
  | .Escaped s | .Literal s => s.all isDec
  | .Param _ | .Subst _ | .CommandSubst _ => true

/-- `could_be_numeric`, parse.rs:694-720. -/
def WordKind.couldBeNumeric {C : Type} : WordKind C → Bool
  | .Simple s => s.couldBeNumeric
  | .SingleQuoted s => s.all isDec
  | .DoubleQuoted ss => ss.all SimpleWordKind.couldBeNumeric

/-- The use of `could_be_numeric` on a whole word, parse.rs:784-787. -/
def ComplexWordKind.couldBeNumeric {C : Type} : ComplexWordKind C → Bool
  | .Single w => w.couldBeNumeric
  | .Concat ws => ws.all WordKind.couldBeNumeric

/-- The text of a list of unquoted literals, parse.rs:728-734. -/
def literalText {C : Type} : List (WordKind C) → Option Str
  | [] => some []
  | .Simple (.Literal s) :: ws => (literalText ws).map (s ++ ·)
  | _ :: _ => none

/-- `as_num`, parse.rs:722-739. -/
def ComplexWordKind.asNum {C : Type} : ComplexWordKind C → Option Nat
  | .Single (.Simple (.Literal s)) => parseUnsigned 10 65535 s
  | .Single _ => none
  | .Concat ws => (literalText ws).bind (parseUnsigned 10 65535)

/-- The redirection operators that are not here-documents, parse.rs:750-751. -/
def Token.isRedirOp : Token → Bool
  | .Less | .Great | .DGreat | .Clobber | .LessAnd | .GreatAnd | .LessGreat => true
  | _ => false

/-- `get_path!`, parse.rs:763-770. -/
def getPath (R : Rec I B) : P I B B.Word := do
  match ← wordRaw R with
  | some p => call (.word p)
  | none => unexpected

/-- `get_dup_path!`, parse.rs:772-796. -/
def getDupPath (R : Rec I B) : P I B B.Word := do
  if (← peekReservedToken [.Dash]).isSome then
    let dash ← reservedToken [.Dash]
    call (.word (.Single (.Simple (.Literal dash.asStr))))
  else
    let start ← getPos
    match ← wordRaw R with
    | none => unexpected
    | some p =>
      if p.couldBeNumeric then call (.word p)
      else
        let stop ← getPos
        fail (.BadFd start stop)

/-! ## Here-documents -/

/-- The loop that captures the delimiter's tokens, parse.rs:869-883. -/
def delimTokensBody (acc : List Token) : P I B (Step (List Token) (List Token)) := do
  match ← peek with
  | none => pure (.done acc)
  | some t =>
    if t.isWordDelimiter && t ≠ .ParenOpen then pure (.done acc)
    else
      let ts ← scan takeBalanced
      pure (.cont (acc ++ ts))

/-- The loop over a double quoted part of the delimiter, parse.rs:908-929; returns the tokens whose
text is pushed. -/
def dqDelimN : Nat → Balanced I → Collected × Balanced I
  | 0, b => (.fuel, b)
  | n + 1, b =>
    match b.next with
    | (none, b) => (.ok [], b)
    | (some (.error e), b) => (.unmatched e, b)
    | (some (.ok .Backslash), b) =>
      match b.next with
      | (some (.ok t), b) =>
        match dqDelimN n b with
        | (.ok ts, b) => (.ok (if t.dqSpecial then t :: ts else .Backslash :: t :: ts), b)
        | r => r
      | (some (.error e), b) => (.unmatched e, b)
      | (none, b) =>
        match dqDelimN n b with
        | (.ok ts, b) => (.ok (.Backslash :: ts), b)
        | r => r
    | (some (.ok t), b) =>
      match dqDelimN n b with
      | (.ok ts, b) => (.ok (t :: ts), b)
      | r => r

/-- `iter.double_quoted(start_pos)` and the loop over it, parse.rs:905-929. -/
def takeDqDelim (it : I) (p : SourcePos) : Collected × I :=
  let (r, b) := dqDelimN (TokStream.len it + 2) (doubleQuoted it p)
  (r, b.iter)

/-- The loop that unquotes the delimiter, parse.rs:888-964, run on the delimiter's own token
iterator. The state is `quoted` and `delim`. -/
def delimBody (st : Bool × Str) : P I B (Step (Bool × Str) (Bool × Str)) := do
  let start ← getPos
  match ← next with
  | some .Backslash =>
    match ← next with
    | some t => pure (.cont (true, st.2 ++ t.asStr))
    | none => pure (.cont (true, st.2))
  | some .SingleQuote =>
    let ts ← scan (fun it => takeSingleQuoted it start)
    pure (.cont (true, st.2 ++ concatTokens ts))
  | some .DoubleQuote =>
    let ts ← scan (fun it => takeDqDelim it start)
    pure (.cont (true, st.2 ++ concatTokens ts))
  | some .Backtick =>
    let ts ← scan (fun it => takeBacktickedRemoved it start)
    pure (.cont (true, st.2 ++ Token.Backtick.asStr ++ concatTokens ts ++ Token.Backtick.asStr))
  | some t => pure (.cont (st.1, st.2 ++ t.asStr))
  | none => pure (.done st)

/-- The delimiter: whether it was quoted, and its text, parse.rs:868-971. -/
def heredocDelim : P I B (Bool × Str) := do
  let ts ← loop delimTokensBody []
  let st ← withIterRestore (TokStream.ofTokens ts) (loop delimBody (false, []))
  if st.2.isEmpty then unexpected else pure st

/-- The loop that saves the rest of the line, parse.rs:986-996. -/
def saveLineBody (acc : List Token) : P I B (Step (List Token) (List Token)) := do
  match ← peek with
  | none => pure (.done acc)
  | some .Newline =>
    match ← next with
    | some t => pure (.done (acc ++ [t]))
    | none => panicAt 989
  | some _ =>
    let ts ← scan takeBalanced
    pure (.cont (acc ++ ts))

/-- The tab stripping of `<<-`, parse.rs:1005-1021. -/
def stripTabs (line : List Token × SourcePos) : P I B (List Token × SourcePos) := do
  match ← peek with
  | some (.Whitespace w) =>
    let stripped := w.dropWhile (· = '\t')
    let _ ← next
    pure (if stripped.isEmpty then line.1 else line.1 ++ [.Whitespace stripped],
      line.2.advanceTabs (Str.byteLen w - Str.byteLen stripped))
  | _ => pure line

/-- The line length that is compared with the delimiter's, parse.rs:1038-1044. -/
def lineLen (max : Nat) : Nat → List Token → Nat
  | n, [] => n
  | n, t :: ts => if n + t.len > max then n + t.len else lineLen max (n + t.len) ts

/-- Whether a line is the delimiter, parse.rs:1038-1057. -/
def isDelimLine (delim : Str) (line : List Token) : Bool :=
  let delimR := delim ++ ['\r']
  let n := lineLen (Str.byteLen delimR) 0 line
  (n = Str.byteLen delim || n = Str.byteLen delimR)
    && (concatTokens line = delim || concatTokens line = delimR)

/-- The body of the loop `'line`, parse.rs:1004-1066. `none`: leave `'heredoc`; `some line`: the
line is complete. -/
def heredocLineBody (strip : Bool) (delim : Str) (line : List Token × SourcePos) :
    P I B (Step (List Token × SourcePos) (Option (List Token × SourcePos))) := do
  let line ← (if strip then stripTabs line else pure line : P I B (List Token × SourcePos))
  match ← next with
  | none =>
    if line.1.isEmpty then pure (.done none)
    else if isDelimLine delim line.1 then pure (.done none)
    else pure (.done (some line))
  | some .Newline =>
    if isDelimLine delim line.1 then pure (.done none)
    else pure (.done (some (line.1 ++ [.Newline], line.2)))
  | some t => pure (.cont (line.1 ++ [t], line.2))

/-- The body of the loop `'heredoc`, parse.rs:1000-1070. -/
def heredocBody (strip : Bool) (delim : Str) (acc : List (List Token × SourcePos)) :
    P I B (Step (List (List Token × SourcePos)) (List (List Token × SourcePos))) := do
  let pos ← getPos
  match ← loop (heredocLineBody strip delim) ([], pos) with
  | none => pure (.done acc)
  | some line => pure (.cont (acc ++ [line]))

/-- `self.iter.buffer_tokens_to_yield_first(saved_tokens, saved_pos)`, parse.rs:1072-1073 and 1081. -/
def bufferFirst (ts : List Token) (p : SourcePos) : P I B Unit := fun s =>
  (.ok (), { s with it := TokStream.bufferFirst s.it ts p })

/-- The word of a here-document body, parse.rs:1075-1097. -/
def heredocWord {C : Type} : List (SimpleWordKind C) → ComplexWordKind C
  | [] => .Single (.Simple (.Literal []))
  | [w] => .Single (.Simple w)
  | ws => .Concat (ws.map .Simple)

/-- `redirect_heredoc`, parse.rs:839-1103. -/
def redirectHeredoc (R : Rec I B) (fd : Option Nat) : P I B B.Redirect := do
  let strip ← (do
    if ← eatMaybe .DLess then pure false
    else if ← eatMaybe .DLessDash then pure true
    else unexpected : P I B Bool)
  skipWhitespace
  let (quoted, delim) ← heredocDelim
  let savedPos ← getPos
  let saved ← loop saveLineBody []
  let start ← getPos
  let lines ← loop (heredocBody strip delim) []
  bufferFirst saved savedPos
  let body ← (if quoted then
      pure (.Single (.Simple (.Literal (concatTokens (lines.flatMap (·.1))))))
    else do
      let sub := lines.foldr (fun c it => TokStream.bufferFirst it c.1 c.2)
        (TokStream.withPosition (I := I) start)
      let body ← withIter sub (wordInterpolatedRaw R none start)
      pure (heredocWord body) : P I B (ComplexWordKind B.Command))
  let w ← call (.word body)
  call (.redirect (.Heredoc fd w))

/-- The last part of `redirect`, parse.rs:798-811. -/
def redirectTail (R : Rec I B) (fd : Option Nat) (op : Token) : P I B B.Redirect := do
  skipWhitespace
  match op with
  | .Less => let w ← getPath R; call (.redirect (.Read fd w))
  | .Great => let w ← getPath R; call (.redirect (.Write fd w))
  | .DGreat => let w ← getPath R; call (.redirect (.Append fd w))
  | .Clobber => let w ← getPath R; call (.redirect (.Clobber fd w))
  | .LessGreat => let w ← getPath R; call (.redirect (.ReadWrite fd w))
  | .LessAnd => let w ← getDupPath R; call (.redirect (.DupRead fd w))
  | .GreatAnd => let w ← getDupPath R; call (.redirect (.DupWrite fd w))
  | _ => panicAt 808

/-- `redirect` after the optional source descriptor, parse.rs:749-811. -/
def redirectFd (R : Rec I B) (fd : Option (Nat × ComplexWordKind B.Command)) :
    P I B (Option (B.Redirect ⊕ B.Word)) := do
  let p ← peek
  if p.any Token.isRedirOp then
    match ← next with
    | none => panicAt 751
    | some op =>
      let r ← redirectTail R (fd.map (·.1)) op
      pure (some (.inl r))
  else if p = some .DLess || p = some .DLessDash then
    let r ← redirectHeredoc R (fd.map (·.1))
    pure (some (.inl r))
  else
    match fd with
    | some (_, w) =>
      let w ← call (.word w)
      pure (some (.inr w))
    | none => pure none

/-- `redirect`, parse.rs:693-812. -/
def redirect (R : Rec I B) : P I B (Option (B.Redirect ⊕ B.Word)) := do
  match ← wordRaw R with
  | none => redirectFd R none
  | some w =>
    match w.asNum with
    | some n => redirectFd R (some (n, w))
    | none =>
      let w ← call (.word w)
      pure (some (.inr w))

/-- The loop of `redirect_list`, parse.rs:669-675. -/
def redirectListBody (R : Rec I B) (acc : List B.Redirect) :
    P I B (Step (List B.Redirect) (List B.Redirect)) := do
  skipWhitespace
  let start ← getPos
  match ← redirect R with
  | some (.inl io) => pure (.cont (acc ++ [io]))
  | some (.inr _) =>
    let stop ← getPos
    fail (.BadFd start stop)
  | none => pure (.done acc)

/-- `redirect_list`, parse.rs:666-679. -/
def redirectList (R : Rec I B) : P I B (List B.Redirect) := loop (redirectListBody R) []

/-! ## Simple commands -/

/-- The look-ahead for `NAME=`, parse.rs:596-603. -/
def mpAssignment (m : TokStream.MP I) : Bool × TokStream.MP I :=
  let (t, m) := TokStream.mpNext m
  if t.any Token.isName then
    let (t, m) := TokStream.mpNext m
    (t = some .Equals, m)
  else (false, m)

/-- Assignments and redirections before the command name: the list, and the command name found
(the variables of the first loop of `simple_command`, parse.rs:591-643). -/
abbrev SimplePrefix (B : Builder) :=
  List (RedirectOrEnvVar B.Redirect Str B.Word) × Option B.Word

/-- The first loop of `simple_command`, parse.rs:594-640. -/
def simplePrefixBody (R : Rec I B) (vars : List (RedirectOrEnvVar B.Redirect Str B.Word)) :
    P I B (Step (List (RedirectOrEnvVar B.Redirect Str B.Word)) (SimplePrefix B)) := do
  skipWhitespace
  if ← lookahead mpAssignment then
    match ← next with
    | some (.Name var) =>
      let _ ← next
      let value ← (do
        if (← peek).any Token.isWs then pure none else word R : P I B (Option B.Word))
      pure (.cont (vars ++ [.EnvVar var value]))
    | _ => panicAt 620
  else
    match ← redirect R with
    | some (.inl r) => pure (.cont (vars ++ [.Redirect r]))
    | some (.inr w) => pure (.done (vars, some w))
    | none => pure (.done (vars, none))

/-- The second loop of `simple_command`, parse.rs:646-652. -/
def simpleArgsBody (R : Rec I B) (args : List (RedirectOrCmdWord B.Redirect B.Word)) :
    P I B (Step (List (RedirectOrCmdWord B.Redirect B.Word))
      (List (RedirectOrCmdWord B.Redirect B.Word))) := do
  match ← redirect R with
  | some (.inl r) => pure (.cont (args ++ [.Redirect r]))
  | some (.inr w) => pure (.cont (args ++ [.CmdWord w]))
  | none => pure (.done args)

/-- `simple_command`, parse.rs:588-661. -/
def simpleCommand (R : Rec I B) : P I B B.PipeableCommand := do
  let (vars, exec) ← loop (simplePrefixBody R) []
  let args ← loop (simpleArgsBody R) (exec.toList.map .CmdWord)
  if vars.isEmpty && args.isEmpty then unexpected
  else call (.simpleCommand vars args)

/-! ## Compound commands -/

/-- `command_group`, parse.rs:2480-2490. -/
def commandGroup (R : Rec I B) (cfg : Delims) : P I B (CommandGroup B.Command) := do
  let g ← R.group cfg
  if g.commands.isEmpty then unexpected else pure g

/-- `self.reserved_word(ws).map_err(|_| self.make_unexpected_err())?`, parse.rs:1722, 1867, 1902, 1964 and 2073. -/
def reservedWordOrUnexpected (ws : List Str) : P I B Str := do
  match ← reservedWord ws with
  | some s => pure s
  | none => unexpected

/-- `self.reserved_word(ws).map_err(|_| ParseError::IncompleteCmd(cmd, start, kw, self.iter.pos()))?`,
e.g. parse.rs:1728-1729. -/
def reservedWordOrIncomplete (ws : List Str) (cmd : Str) (start : SourcePos) (kw : Str) :
    P I B Str := do
  match ← reservedWord ws with
  | some s => pure s
  | none =>
    let pos ← getPos
    fail (.IncompleteCmd cmd start kw pos)

/-- `do_group`, parse.rs:1720-1731. -/
def doGroup (R : Rec I B) : P I B (CommandGroup B.Command) := do
  let start ← getPos
  let _ ← reservedWordOrUnexpected [DO]
  let g ← commandGroup R { Delims.default with reservedWords := [DONE] }
  let _ ← reservedWordOrIncomplete [DONE] DO start DONE
  pure g

/-- `brace_group`, parse.rs:1735-1747. -/
def braceGroup (R : Rec I B) : P I B (CommandGroup B.Command) := do
  let start ← getPos
  let _ ← reservedToken [.CurlyOpen]
  let g ← commandGroup R { Delims.default with reservedTokens := [.CurlyClose] }
  match ← reservedToken' [.CurlyClose] with
  | some _ => pure g
  | none =>
    -- `make_unexpected_err` consumes a token before its error is replaced
    let _ ← next
    fail (.Unmatched .CurlyOpen start)

/-- `subshell`, parse.rs:1752-1754. -/
def subshell (R : Rec I B) : P I B (CommandGroup B.Command) := subshellInternal R false

/-- `CompoundCmdKeyword`, parse.rs:194-202. -/
inductive CompoundKw
  | For | Case | If | While | Until | Brace | Subshell
  deriving DecidableEq, Repr

/-- `next_compound_command_type`, parse.rs:1783-1799. -/
def nextCompoundCommandType : P I B (Option CompoundKw) := do
  skipWhitespace
  if (← peek) = some .ParenOpen then pure (some .Subshell)
  else if (← peekReservedToken [.CurlyOpen]).isSome then pure (some .Brace)
  else
    let w ← peekReservedWord [FOR, CASE, IF, WHILE, UNTIL]
    if w = some FOR then pure (some .For)
    else if w = some CASE then pure (some .Case)
    else if w = some IF then pure (some .If)
    else if w = some WHILE then pure (some .While)
    else if w = some UNTIL then pure (some .Until)
    else pure none

/-- `loop_command`, parse.rs:1862-1893 (the error for a missing `do` names `while` also for an
`until` loop, parse.rs:1889). -/
def loopCommand (R : Rec I B) : P I B (LoopKind × GuardBodyPairGroup B.Command) := do
  let start ← getPos
  let w ← reservedWordOrUnexpected [WHILE, UNTIL]
  let kind ← (if w = WHILE then pure .While
    else if w = UNTIL then pure .Until
    else panicAt 1872 : P I B LoopKind)
  let guard ← commandGroup R { Delims.default with reservedWords := [DO] }
  if (← peekReservedWord [DO]).isSome then
    let body ← doGroup R
    pure (kind, ⟨guard, body⟩)
  else
    let pos ← getPos
    fail (.IncompleteCmd WHILE start DO pos)

/-- The loop of `if_command`, parse.rs:1919-1953. -/
def ifBody (R : Rec I B) (start : SourcePos) (conds : List (GuardBodyPairGroup B.Command)) :
    P I B (Step (List (GuardBodyPairGroup B.Command)) (IfFragments B.Command)) := do
  let guard ← commandGroup R { Delims.default with reservedWords := [THEN] }
  let _ ← reservedWordOrIncomplete [THEN] IF start THEN
  let body ← commandGroup R { Delims.default with reservedWords := [ELIF, ELSE, FI] }
  let conds := conds ++ [⟨guard, body⟩]
  let w ← reservedWordOrIncomplete [ELIF, ELSE, FI] IF start FI
  if w = ELIF then pure (.cont conds)
  else if w = ELSE then
    let els ← commandGroup R { Delims.default with reservedWords := [FI] }
    let _ ← reservedWordOrIncomplete [FI] IF start FI
    pure (.done ⟨conds, some els⟩)
  else if w = FI then pure (.done ⟨conds, none⟩)
  else panicAt 1945

/-- `if_command`, parse.rs:1900-1953. -/
def ifCommand (R : Rec I B) : P I B (IfFragments B.Command) := do
  let start ← getPos
  let _ ← reservedWordOrUnexpected [IF]
  loop (ifBody R start) []

/-- Reading an identifier, parse.rs:1969-1979 (`for`) and 2235-2245 (functions); `line` is the line
of the `unreachable!`. -/
def identifier (line : Nat) : P I B Str := do
  let p ← peek
  if p.any (fun t => match t with | .Name _ | .Literal _ => true | _ => false) then
    let pos ← getPos
    match ← next with
    | some (.Name v) => pure v
    | some (.Literal s) => fail (.BadIdent s pos)
    | _ => panicAt line
  else unexpected

/-- `while let Some(w) = self.word()? { words.push(w); }`, parse.rs:1993-1995. -/
def wordsBody (R : Rec I B) (ws : List B.Word) : P I B (Step (List B.Word) (List B.Word)) := do
  match ← word R with
  | some w => pure (.cont (ws ++ [w]))
  | none => pure (.done ws)

/-- The shapes of a `for` header, parse.rs:1987-2032; in the `;` case the comments after the
variable are dropped (parse.rs:2016-2019). -/
def forWords (R : Rec I B) (start : SourcePos) (postVar : List Nl) :
    P I B (Option (List Nl × List B.Word × Option Nl) × List Nl) := do
  if (← peekReservedWord [IN]).isSome then
    match ← reservedWord [IN] with
    | none => panicAt 1990
    | some _ =>
      let words ← loop (wordsBody R) []
      let semi ← eatMaybe .Semi
      let comment ← newline
      if !semi && comment.isNone then unexpected
      else
        let pre ← linebreak
        pure (some (postVar, words, comment), pre)
  else if (← peek) = some .Semi then
    eat .Semi
    let pre ← linebreak
    pure (none, pre)
  else if (← peekReservedWord [DO]).isNone then
    let pos ← getPos
    fail (.IncompleteCmd FOR start IN pos)
  else pure (none, postVar)

/-- `for_command`, parse.rs:1960-2049. -/
def forCommand (R : Rec I B) : P I B (ForFragments B.Word B.Command) := do
  let start ← getPos
  let _ ← reservedWordOrUnexpected [FOR]
  skipWhitespace
  let var ← identifier 1978
  let varComment ← newline
  let postVar ← linebreak
  let (words, pre) ← forWords R start postVar
  if (← peekReservedWord [DO]).isNone then
    let pos ← getPos
    fail (.IncompleteCmd FOR start DO pos)
  else
    let body ← doGroup R
    pure { var := var, varComment := varComment, words := words, preBodyComments := pre,
           body := body }

/-- `Err(IncompleteCmd(CASE, start, ESAC, pos))`, parse.rs:2067-2071. -/
def missingEsac {α : Type} (start : SourcePos) : P I B α := do
  let pos ← getPos
  fail (.IncompleteCmd CASE start ESAC pos)

/-- The pattern loop of a `case` arm, parse.rs:2107-2129 (`patterns` is never empty when `)` is
tested, parse.rs:2113). -/
def patternBody (R : Rec I B) (start : SourcePos) (ps : List B.Word) :
    P I B (Step (List B.Word) (List B.Word)) := do
  match ← word R with
  | none => unexpected
  | some p =>
    let ps := ps ++ [p]
    match ← peek with
    | some .Pipe =>
      let _ ← next
      pure (.cont ps)
    | some .ParenClose =>
      let _ ← next
      pure (.done ps)
    | none => missingEsac start
    | some _ => unexpected

/-- Arms parsed so far; on leaving the loop also the comments found before `esac` (the variables of the loop at
parse.rs:2085-2158). -/
abbrev CaseSt (B : Builder) := List (CaseArm B.Word B.Command)

/-- The arm loop of `case_command`, parse.rs:2087-2158. -/
def armBody (R : Rec I B) (start : SourcePos) (arms : CaseSt B) :
    P I B (Step (CaseSt B) (CaseSt B × List Nl)) := do
  let pre ← linebreak
  if (← peekReservedWord [ESAC]).isSome then pure (.done (arms, pre))
  else
    let _ ← eatMaybe .ParenOpen
    match ← peek with
    | none => missingEsac start
    | some _ =>
      let patterns ← loop (patternBody R start) []
      let comment ← newline
      let body ← R.group { reservedTokens := [], reservedWords := [ESAC], exactTokens := [.DSemi] }
      if (← peek) = some .DSemi then
        let _ ← next
        let armComment ← newline
        pure (.cont (arms ++ [⟨⟨pre, patterns, comment⟩, body, armComment⟩]))
      else
        pure (.done (arms ++ [⟨⟨pre, patterns, comment⟩, body, none⟩], []))

/-- `case_command`, parse.rs:2056-2178. -/
def caseCommand (R : Rec I B) : P I B (CaseFragments B.Word B.Command) := do
  let start ← getPos
  let _ ← reservedWordOrUnexpected [CASE]
  match ← word R with
  | none => unexpected
  | some w =>
    let postWord ← linebreak
    let _ ← reservedWordOrIncomplete [IN] CASE start IN
    let inComment ← newline
    let (arms, pre) ← loop (armBody R start) []
    let remaining ← linebreak
    let _ ← reservedWordOrIncomplete [ESAC] CASE start ESAC
    pure { word := w, postWordComments := postWord, inComment := inComment, arms := arms,
           postArmsComments := pre ++ remaining }

/-- `compound_command_internal` with the kind already known, parse.rs:1809-1854. -/
def compoundCommandKw (R : Rec I B) : Option CompoundKw → P I B B.CompoundCommand
  | some .If => do
    let f ← ifCommand R
    let io ← redirectList R
    call (.ifCommand f io)
  | some .While | some .Until => do
    let (k, p) ← loopCommand R
    let io ← redirectList R
    call (.loopCommand k p io)
  | some .For => do
    let f ← forCommand R
    let io ← redirectList R
    call (.forCommand f io)
  | some .Case => do
    let f ← caseCommand R
    let io ← redirectList R
    call (.caseCommand f io)
  | some .Brace => do
    let g ← braceGroup R
    let io ← redirectList R
    call (.braceGroup g io)
  | some .Subshell => do
    let g ← subshell R
    let io ← redirectList R
    call (.subshell g io)
  | none => unexpected

/-- `compound_command`, parse.rs:1803-1805. -/
def compoundCommand (R : Rec I B) : P I B B.CompoundCommand := do
  let kw ← nextCompoundCommandType
  compoundCommandKw R kw

/-! ## Functions -/

/-- `eat!(self, { Whitespace(_) => {} })`, parse.rs:2259. -/
def eatWhitespace : P I B Unit := do
  if (← peek).any Token.isWs then
    let _ ← next
    pure ()
  else unexpected

/-- `(`, blanks, `)`, parse.rs:2250-2252 and 2264-2266. -/
def parens : P I B Unit := do
  eat .ParenOpen
  skipWhitespace
  eat .ParenClose

/-- What follows a function's name, parse.rs:2249-2281. -/
def functionBodyStart (R : Rec I B) (foundFn : Bool) : P I B (Option B.CompoundCommand) := do
  let p ← peek
  if p = some .ParenOpen then
    parens
    pure none
  else if foundFn && p = some .Newline then pure none
  else
    eatWhitespace
    skipWhitespace
    if !foundFn then
      parens
      pure none
    else if (← peek) = some .ParenOpen then
      let g ← subshellInternal R true
      if g.commands.isEmpty && g.trailingComments.isEmpty then pure none
      else
        let c ← call (.subshell g [])
        pure (some c)
    else pure none

/-- `function_declaration_internal`, parse.rs:2222-2289. -/
def functionDeclarationInternal (R : Rec I B) : P I B (Str × List Nl × B.CompoundCommand) := do
  let foundFn ← (do
    if (← peekReservedWord [FUNCTION]).isSome then
      let _ ← next
      pure true
    else pure false : P I B Bool)
  skipWhitespace
  let name ← identifier 2244
  match ← functionBodyStart R foundFn with
  | some c => pure (name, [], c)
  | none =>
    let comments ← linebreak
    let c ← compoundCommand R
    pure (name, comments, c)

/-- `function_declaration`, parse.rs:2214-2219. -/
def functionDeclaration (R : Rec I B) : P I B B.PipeableCommand := do
  let (name, comments, body) ← functionDeclarationInternal R
  call (.functionDeclaration name comments body)

/-- The look-ahead for `NAME [blank] (`, parse.rs:2188-2200. -/
def mpFunction (m : TokStream.MP I) : Bool × TokStream.MP I :=
  let (t, m) := TokStream.mpNext m
  if t.any Token.isName then
    let (t, m) := TokStream.mpNext m
    if t.any Token.isWs then
      let (t, m) := TokStream.mpNext m
      (t = some .ParenOpen, m)
    else (t = some .ParenOpen, m)
  else (false, m)

/-- `maybe_function_declaration`, parse.rs:2182-2207. -/
def maybeFunctionDeclaration (R : Rec I B) : P I B (Option B.PipeableCommand) := do
  if (← peekReservedWord [FUNCTION]).isSome then
    let c ← functionDeclaration R
    pure (some c)
  else if ← lookahead mpFunction then
    let c ← functionDeclaration R
    pure (some c)
  else pure none

/-! ## Commands, pipelines, lists -/

/-- `command`, parse.rs:573-582. -/
def command (R : Rec I B) : P I B B.PipeableCommand := do
  match ← nextCompoundCommandType with
  | some kw =>
    let c ← compoundCommandKw R (some kw)
    call (.compoundCommandIntoPipeable c)
  | none =>
    match ← maybeFunctionDeclaration R with
    | some c => pure c
    | none => simpleCommand R

/-- The loop of `pipeline`, parse.rs:551-567. -/
def pipelineBody (R : Rec I B) (cmds : List (List Nl × B.PipeableCommand)) :
    P I B (Step (List (List Nl × B.PipeableCommand)) (List (List Nl × B.PipeableCommand))) := do
  if (← peek) = some .Bang then unexpected
  else
    let c ← command R
    if ← eatMaybe .Pipe then
      let ls ← linebreak
      pure (.cont (cmds ++ [(ls, c)]))
    else pure (.done (cmds ++ [([], c)]))

/-- `pipeline`, parse.rs:543-570. -/
def pipeline (R : Rec I B) : P I B B.ListableCommand := do
  skipWhitespace
  let bang ← eatMaybe .Bang
  let cmds ← loop (pipelineBody R) []
  call (.pipeline bang cmds)

/-- The loop of `and_or_list`, parse.rs:517-535. -/
def andOrBody (R : Rec I B) (rest : List (List Nl × AndOr B.ListableCommand)) :
    P I B (Step (List (List Nl × AndOr B.ListableCommand))
      (List (List Nl × AndOr B.ListableCommand))) := do
  skipWhitespace
  if ← eatMaybe .AndIf then
    let ls ← linebreak
    let c ← pipeline R
    pure (.cont (rest ++ [(ls, .And c)]))
  else if ← eatMaybe .OrIf then
    let ls ← linebreak
    let c ← pipeline R
    pure (.cont (rest ++ [(ls, .Or c)]))
  else pure (.done rest)

/-- `and_or_list`, parse.rs:513-538. -/
def andOrList (R : Rec I B) : P I B B.CommandList := do
  let first ← pipeline R
  let rest ← loop (andOrBody R) []
  call (.andOrList first rest)

/-- The separator after a command, parse.rs:493-502. -/
def separator : P I B (SeparatorKind × Option Nl) := do
  if ← eatMaybe .Semi then
    let c ← newline
    pure (.Semi, c)
  else if ← eatMaybe .Amp then
    let c ← newline
    pure (.Amp, c)
  else
    match ← newline with
    | some n => pure (.Newline, some n)
    | none => pure (.Other, none)

/-- `complete_command_with_leading_comments`, parse.rs:487-507. -/
def completeCommandWithComments (R : Rec I B) (pre : List Nl) : P I B B.Command := do
  let cmd ← andOrList R
  let (sep, comment) ← separator
  call (.completeCommand pre cmd sep comment)

/-- The closure `found_delim`, parse.rs:2497-2508. -/
def foundDelim (cfg : Delims) : P I B Bool := do
  let exact ← (if cfg.exactTokens.isEmpty then pure false
    else do
      let p ← peek
      pure (p.any cfg.exactTokens.contains) : P I B Bool)
  if exact then pure true
  else if (← peekReservedWord cfg.reservedWords).isSome then pure true
  else pure (← peekReservedToken cfg.reservedTokens).isSome

/-- The loop of `command_group_internal`, parse.rs:2512-2526. -/
def groupBody (R : Rec I B) (cfg : Delims) (cmds : List B.Command) :
    P I B (Step (List B.Command) (CommandGroup B.Command)) := do
  if ← foundDelim cfg then pure (.done ⟨cmds, []⟩)
  else
    let leading ← linebreak
    let stop ← (do
      if ← foundDelim cfg then pure true else pure (← peek).isNone : P I B Bool)
    if stop then pure (.done ⟨cmds, leading⟩)
    else
      let c ← completeCommandWithComments R leading
      pure (.cont (cmds ++ [c]))

/-- `command_group_internal`, parse.rs:2493-2532. -/
def commandGroupInternal (R : Rec I B) (cfg : Delims) : P I B (CommandGroup B.Command) :=
  loop (groupBody R cfg) []

/-- `complete_command`, parse.rs:468-481. -/
def completeCommand (R : Rec I B) : P I B (Option B.Command) := do
  let pre ← linebreak
  if (← peek).isSome then
    let c ← completeCommandWithComments R pre
    pure (some c)
  else if pre.isEmpty then pure none
  else
    let _ ← call (.comments pre)
    pure none

/-- `backticked_command_substitution`, parse.rs:1356-1359. -/
def backtickedCommandSubstitution (R : Rec I B) : P I B B.Word := do
  let w ← backtickedRaw R
  call (.word (.Single (.Simple w)))

/-- `parameter`, parse.rs:1393-1396. -/
def parameter (R : Rec I B) : P I B B.Word := do
  let w ← parameterRaw R
  call (.word (.Single (.Simple w)))

/-! ## Tying the knot -/

/-- The recursion between commands and substitutions in parse.rs, unfolded `n` times. -/
def Rec.fix : Nat → Rec I B
  | 0 => { group := fun _ => outOfFuel, param := outOfFuel }
  | n + 1 => { group := commandGroupInternal (Rec.fix n), param := parameterRaw (Rec.fix n) }

/-- Runs a public method of parse.rs with a recursion budget that exceeds the number of tokens left. -/
def run {α : Type} (f : Rec I B → P I B α) : P I B α := fun s =>
  f (Rec.fix (TokStream.len s.it + 1)) s

/-- `Parser::with_builder`, parse.rs:452-457. -/
def PSt.new (ts : List Token) (b : B.State) : PSt I B := { it := TokStream.ofTokens ts, b := b }

/-- `ParserIterator`, parse.rs:238-242. -/
structure ParserIterator (I : Type) (B : Builder) where
  parser : Option (PSt I B)

/-- `ParserIterator::next`, parse.rs:267-282: `none`, `some (Ok _)` or `some (Err _)`; a panic
propagates. -/
def ParserIterator.next (p : ParserIterator I B) :
    Res B.Error (Option (Except (ParseError B.Error) B.Command)) × ParserIterator I B :=
  match p.parser with
  | none => (.ok none, p)
  | some s =>
    match run completeCommand s with
    | (.ok (some c), s) => (.ok (some (.ok c)), ⟨some s⟩)
    | (.ok none, _) => (.ok none, ⟨none⟩)
    | (.err e, _) => (.ok (some (.error e)), ⟨none⟩)
    | (.panic n, s) => (.panic n, ⟨some s⟩)
    | (.fuel, s) => (.fuel, ⟨some s⟩)

end
end Conch
