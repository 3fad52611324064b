# Formal model of conch-parser in Lean 4 — design

All Lean code is in `lean/Verif`, namespace `Conch`. `properties.jsonl` lists the properties,
`MANIFEST.json` the theorems that prove them (their names start with the number of the property).

## 1. What is modelled

| Rust | Lean module | notes |
|---|---|---|
| `src/token.rs` | `Token` | all tokens, `as_str`, `len`, `is_empty`, `is_word_delimiter`, `Positional` |
| `src/lexer.rs` | `Lexer` | the lexer as a state machine (`inner`, `peeked`), `size_hint` |
| `src/parse.rs` `SourcePos`, `ParseError` | `Pos` | |
| `src/parse/iter.rs` | `Iter`, `Balanced` | `TokenIter` with its stack of tokens and position marks, `Multipeek`, `Balanced`, both backslash removers |
| `src/ast.rs`, `src/ast/builder.rs` | `Ast`, `Builder`, `Forward` | AST types; the `Builder` trait as a record of state-passing functions |
| `src/ast/builder/default_builder.rs`, `empty_builder.rs` | `Compress`, `DefaultBuilder` | `Coalesce`, `compress`, `CoreBuilder`, the String/Rc/Arc builders, `EmptyBuilder` |
| `src/parse.rs` `Parser`, `ParserIterator` | `Monad`, `Num`, `ParserLex`, `ParserArith`, `ParserWord`, `ParserCmd`, `Api` | every parsing method, public and private; `Api` names the public ones (`Method`) and runs them |

Every definition cites the lines it models. Not modelled: `Debug`/`Clone` impls (`Display`
is modelled as the text that is written), `Rc`/`Arc`/`Box` and memory (stack depth in
particular: the real program recurses, so input that nests deeply enough overflows its stack),
`parse_fd`-like helpers of the test-suite, deprecated aliases.

* Strings are `List Char`; lengths are UTF-8 byte lengths (`Char.utf8Size`). `usize` is `Nat`
  (overflow of a byte or line counter is not modelled); `u16`, `u32`, `isize` parsing is modelled
  with its exact range checks (`isize` of 64 bits). `char::is_alphabetic` and `char::is_whitespace`
  are parameters of the model (`CharClass`); where a theorem needs something of them it says so
  (`CharClass.Sane`: no operator character is alphabetic or blank and digits are not; `Latin`: a–z
  are alphabetic). `ascii` is a class that meets them.
* The underlying token iterator is a finite list (what `Fuse` makes of any iterator that ends).
* A `&mut self` method returning `Result` is a function `state → outcome × state`, outcome =
  `ok | err ParseError | panic line | fuel`. A Rust `loop` is the combinator `loop`, whose iteration
  budget is computed from the number of tokens left; recursion through nested commands and nested
  substitutions is tied by a depth counter (`Rec.fix`). Both budgets are artefacts of the model:
  C13 proves that they are never exhausted, that larger ones change nothing, and that the methods are
  the only solution of the recursion equations of the code (`C13_recursion_equations`, `_unique`).
* The parser is generic in the token stream implementation and in the builder, as in Rust. It is
  instantiated with the concrete `TokenIter` (what the code does, `CIter`) and with an abstract
  stream, a list of `(position, token)` pairs (`AIter`).
* A Rust panic of the code (`unwrap`, `unreachable!`, `expect`) is an outcome carrying the line in
  parse.rs; panics of the builder are an outcome of builder calls.

The model was also run: 228 of the error tests in `/repo/tests` are extracted by
`tools/conformance/ext.py` and turned into Lean evaluations by `gen.py`; the model gives the expected
error with the expected position in all of them (these are tests, they are not part of the build).

## 2. How the proofs are organised

* **Specifications** are separate files without any reference to the parser's functions: `LexSpec`
  (lexical grammar by longest match), `BalancedSpec` (regions), `BlankSpec` (blanks, lines, reserved
  words), `CallSpec` (well-formed builder calls, positions of an error), `ArithGrammar` (arithmetic),
  `GramLex`/`Grammar` (`Reads`: words and commands), `PartSpec` (the streams that are
  read: the input, bodies of backticks and here-documents), `SyntaxTree` (programs, their text, their trees),
  `HereText` (delimiters and bodies of here-documents), `Layout` (the ways of writing a program).
* **Refinement** (`IterRefine`, `IterSim`): `TokenIter` is a list of positioned tokens; every parser
  method on the concrete stream does what it does on the list (`Method.run_abs`).
* **One pass of a program logic** (`Hoare`, `PassLex/Arith/Word/Redirect/Cmd`): a theory gives an
  invariant of streams, of builder states and of errors; the pass shows once and for all that every
  method preserves it. Instances: termination, panics, progress (C13–C15), positions (C18), builder
  calls (C20, C21, C36), errors.
* **One relational pass** (`Rel`, `RelLex/Word/Cmd`): related builders give related results
  (C19, C20, C38).
* **Exact runs** (`Exact*`, `GramRun`, `GramScan`, `GramHere`, `GramWord`, `GramSubst`, `GramCmd*`,
  `GramComplete`): what the grammar derives, the parser returns. **Soundness** (`GramSnd*`): what the
  parser returns, the grammar derives. Together C31; C24–C26, C29, C30, C33, C35 and C39 are read
  off the grammar and composed with the lexer.
* **Exact failures** (`GramErr`, `PropsIncomplete`, `PropsDquote`): C25, C29, C34.

## 3. Per property

| | what is proved | where | method |
|---|---|---|---|
| C01 | the texts of the tokens concatenate to the source | `PropsLexer` | induction on the lexer runs |
| C02 | every token has the shape of its kind, none is empty | `PropsLexer` | invariant of the lexer |
| C03 | `lex` = the token sequence of the longest-match grammar (iff) | `LexProofs`, `LexInv` | both inclusions, uniqueness |
| C04 | no two tokens of a kind are adjacent; exact image of the lexer; re-lexing | `PropsLexer`, `LexPrint` | grammar |
| C05 | bounds of `size_hint` — **partial**, the upper bound is wrong after a look-ahead (witness) | `PropsLexer` | state invariant |
| C06 | `next` yields the sequence one by one and is fused | `PropsLexer` | |
| C07 | `Positional`, `Token::len` | `PropsLexer` | cases |
| C08 | position at the end of the input = position computed from the text | `PropsParse` | end position is invariant under all methods |
| C09, C10 | look-ahead is invisible; any sequence of stream operations acts as on a list | `PropsIter` | refinement |
| C11, C12 | balanced scanning: exact region/unclosed characterisations, backslash removal | `PropsBalanced` | induction on scans |
| C13 | no method exhausts the budgets (it terminates); larger budgets change nothing; the methods are the unique solution of the code's recursion equations, in which no budget occurs | `PropsParse`, `PropsBudget` | program logic; relational pass |
| C14 | no panic — **partial**, one reachable panic (witnesses), only with here-documents and a backslash at the end of the input or of backticks | `PropsParse`, `PropsPos` | program logic |
| C15 | each command consumes a token; iteration ends | `PropsParse` | program logic |
| C16 | the iterator is fused after an error or the end | `PropsParse` | |
| C17 | `Ok(None)` iff only blanks, newlines and comments are left, which are reported | `PropsParse` | exact runs |
| C18 | positions in errors are token boundaries — **partial** (`<<-`, nested here-document operators and re-scanned backticks shift them, witnesses); for all inputs in terms of `PartSpec` | `PartPos`, `PropsPos` | program logic, induction over the parts of the input |
| C19 | acceptance, errors and positions do not depend on the builder; a builder that fails on some inputs only adds failures of its own | `PropsBuilder` | relational pass (`Rel`; errors of the first builder may be related to everything, `Hom.soft`) |
| C20 | a builder error stops the parse at once and is what is returned | `PropsBuilder` | program logic on a recording builder |
| C21 | arguments of builder calls are well-formed — **partial** (`function f (⏎)`, witness; in full if the word `function` is not in the input) | `PropsBuilder` | program logic |
| C22 | arithmetic: `arithmetic_substitution` accepts exactly a stratified grammar (with its rule for adjacent signs), unambiguously; range | `ArithFollow`, `ArithSound`, `ArithComplete`, `PropsArith` | induction on depth / derivations |
| C23 | values of literals, out of range is an error | `NumProofs`, `PropsArith` | |
| C24, C25 | quoting: text in single/double quotes comes back verbatim; unclosed quotes | `PropsQuote`, `PropsArgs`, `PropsDquote` | grammar ∘ lexer |
| C26 | displaying a parameter and parsing it | `PropsParam` | grammar ∘ lexer |
| C27, C28, C37 | reserved words, blanks and comments, function look-ahead | `PropsBlank` | exact runs |
| C29 | file descriptors of redirections | `PropsRedirect` | grammar, exact failures |
| C30 | here-documents — **partial** (see the note in the manifest; `<<-` witness) | `HereText`, `HereLex`, `PropsHeredoc` | grammar ∘ lexer |
| C31 | the parser reads exactly the grammar `Reads`, with exactly its builder calls | `PropsGram` | exact runs, soundness |
| C32, C33 | the default builder: merging, what the trees record | `PropsCompress`, `PropsDefault`, `PropsAst` | lists; grammar |
| C34 | incomplete compound commands are reported | `PropsIncomplete`, `PropsErr` | exact failures |
| C35 | assignments | `PropsAssign` | grammar ∘ lexer |
| C36 | no empty groups — **partial**, same exception as C21 (none without the word `function`) | `PropsBuilder` | program logic |
| C38 | the default builders agree | `PropsDefault` | relational pass |
| C39 | programs written down are read back | `Round*` | induction on programs, grammar ∘ lexer |
| C40 | the token an error names is where the error says — **partial** (as C18; and `brace_group` called before blanks) | `PropsErr` | program logic |
| C41 | reports of incomplete commands are true — **partial** (order of the two places without here-documents only; false with them) | `PropsErr` | program logic |
| C42 | a command does not depend on what follows its line; scripts concatenate (without `<<`, and not ending in a backslash: both conditions are needed, `C42_conditions_needed`); scripts with here-documents concatenate if a probe word on a line after the script is not taken into a here-document (`C42_heredoc_scripts_concatenate`; for these the proof also needs that no line ends in two backslashes) | `LocalLive`, `LocalLex`, `LocalHere`, `Local`, `LocalEnd`, `PropsLocal` | induction on grammar derivations, C31 |
| C43 | error messages: equal iff the reports are, positions and tokens are shown, one line | `Display`, `PropsDisplay` | unique reading of the text; program logic |
| C44 | references to builders and boxed builders | `Forward` | all calls are passed on unchanged |
| C45 | the parser (and the lexer) reads no further than the line it needs | `Lazy*`, `LexStream`, `PropsLazy` | invariant of the buffer through every method; C42; the lexer once more with its `Peekable`, refinement |
| C46 | at most five builder calls per token consumed, in every history | `Cost`, `CostLex`, `CostCmd`, `PropsCost` | a credit calculus (each token is worth five calls) through every function, by induction on the recursion |
| C47 | every text that `Writes` (`Layout.lean`, `HereText.lean`) relates to a program of C39, with here-documents, is parsed to exactly that program | `Layout`, `HereText`, `HereLex`, `LayoutLex`, `LayoutWord`, `LayoutSimple`, `LayoutGroup`, `LayoutComp`, `PropsLayout` | induction over `Writes`, building derivations of the grammar of C31, and C31's completeness |
| C48 | every command yielded for any source (and every result of every method on tokens with text) satisfies `NfCommand` (`NormalForm.lean`), a predicate on trees only | `NormalForm`, `NormalWord`, `NormalTree`, `PropsNormal` | `compress` keeps and creates the form of words; induction over derivations of the grammar of C31 with the default builder's calls; C31's soundness |
| C49 | byte offset and line of the parser's position never decrease while methods succeed, and the positions of every error lie between the call and the end of the source, for all inputs | `PropsOrder` | program logic: what is left of the input is a list of tokens in order (`Between`), from the current position to the end; lines and tabs of here-documents and the bodies of backticks keep it (`PartSpec` gives the exact position after `<<-` strips tabs) |
| C50 | if parsing complete lines fails with an error about a token, or with tokens left, no continuation is accepted | `Final`, `FinalLex`, `FinalCmd`, `FinalHere`, `FinalRun`, `PropsFinal` | two-run calculus `Ex`: a run on complete lines and a run on a continuation of them do the same until the first has used up its tokens; from then on it fails, if at all, only with an error of the end of input. A rule per operation of the parser, induction on the budget |
| C51 | after any calls, also failed ones, the tokens left are the end of the input and the position is theirs (without here-documents) | `PropsAfter` (the error case of `Tr` in `Hoare` and `Pass*`) | the program logic carries the stream invariant through errors; `withIter`, which does not put the stream back on an error, is only reached with a here-document |
| C52 | a text parses exactly if it does with a newline after it, to the same commands; texts joined by newlines (without `<<`, not ending in a backslash; both conditions needed, `C52_conditions_needed`) | `NlEnd`, `NlRead`, `PropsNl` | induction on grammar derivations with and without the last newline, `Reads.strict` of C42, C31 |
| C53 | a whole script (`Spec.Whole`) put into `( )`, `{ }`, loops, `if`, `for`, `case`, a function or `$( )` is that compound command with its commands, and a whole script again; words with scripts in them (`Spec.WholeWord`) can be arguments, patterns and the words of `for` | `Compose`, `PropsCompose`, `PropsEmbed` | C42's `ProgTo` turned into a group reading: a command that would be read as a delimiter starts with that word (`WordTok.opens`), then the grammar rule of each construct, C31 |
| C54 | the strings of the trees (`Spec.Txt`) are characters of the source, none used twice (`List.Subperm`), and in order (`List.Sublist`) if there is no `<<` | `TextSpec` (spec), `TextKind` (the default builder keeps the text), `TextRead`, `TextTree`, `PropsText` | induction over the derivations of the grammar (C31) for any relation that is a preorder, contains `Sublist` and is closed under `++`; C01 gives the text of the tokens |
| C55 | a text in backticks is the substitution of the commands of the text alone (`WholeWord … ↔ ParsesTo …`), and the same word as with `$(…)` | `PropsTick` (spec `Spec.Ticked`) | removal of backslashes commutes with the lexer (induction over `Ticked`, `lex_breaker`); a group without delimiters is a program (C31, C42); the body of the region is unique (C06) |
| C56 | two sources with alike tokens give the same trees up to text (`ParsesTo src cs → ∃ cs', ParsesTo src' cs' ∧ cs'.map skeleton = cs.map skeleton`) | `Alike*`, `PropsAlike` (spec `Spec.Alike`, `Spec.skeleton`) | induction over the grammar (C31) with a relation on the results, for the builder that forgets texts; back to strings by C38 |
| C57 | every way of writing a word gives one word with exactly the items written (`Written cc is p → ∃ w, wordItems w = is ∧ ∀ rest, Parses …`); lines of words | `Written`, `PropsWritten` (spec `Spec.Item`, `Spec.Written`, `Spec.wordItems`) | induction over the writing, lexing each stretch on its own (C03), the grammar of words (C31), `compress` keeps the items (C32), C53 for lines |
| C58 | postfix order of the builder calls (`Postfix [] es (returned m a)` for the calls `es` a recording builder logged), single use, comments only | `CallOrder` (spec `Spec.Val`, `Spec.args`, `Spec.result`, `Spec.returned`, `Spec.Postfix`), `PropsCallOrder` | the grammar over the recording builder (C31, C20), induction over `Reads` with a frame rule for the stack |
| C59 | names and literals are not lost (`keep s.tokens` is a sublist of what was returned, told as comments, or left) for every method; for a whole script | `Given` (spec: builder `texts`, `returned`, `kept`, `keep`), `GivenTree`, `PropsGiven` | the grammar over the collecting builder (C31), induction over `Reads`; the excepted cases have witnesses |
| C60 | parsing = recording the calls, then replaying them: whenever a parse succeeds, with any builder, its result, state and calls are those of the replay of the recorder's record; failures are the recorder's or the builder's own; the record determines them; whole scripts | `Replay` (spec: `handles`, `recorder`, `values`, `present`, `Replay`), `ReplayMaps`, `PropsReplay` (`AllCommands`) | a builder whose values carry numbers has homomorphisms to the recorder and to the builder (C19's simulation); C58 shows that the values in a call are those its numbers stand for |
| C61 | a text that parses, with blanks or blanks and a comment after it, parses to the same commands, at the end of input and before any further lines; files of commented blocks (`C61_blocks`); texts without `<<`, not ending in a backslash or blank (`C61_conditions_needed`) | `CmEnd`, `CmRead`, `PropsComment` | induction on grammar derivations with a newline at the end replaced by blanks and a comment, `Reads.strict` of C42, C52, lexing by induction on `Lexes` |
| C62 | what `p && q`, `p \|\| q`, `p \| q`, `! p`, `p ; …`, `p & …` parse to, given what `p` and `q` parse to on their own (as command, pipeline, list by the public methods), for all texts `p`, `q` without `<<`; all blanks before and all blanks, newlines, comments after the operator; `C62_precedence` for all four commands of `a \|\| b \| c && d &`; `C62_conditions_needed` | `OpEnd`, `OpRead`, `OpJoin`, `PropsOps` | C31 (exactness); induction on grammar derivations: the newline at the end (C52, C61) replaced by an operator and any tokens; induction on the pipeline and on the list |
| C63 | what a command, blanks and a word / redirection / simple command parse to together, given what the parts parse to on their own, for all texts without `<<`; `C63_args` for any number of arguments; `C63_conditions_needed` | `AppEnd`, `AppRead`, `AppJoin`, `PropsAppend` | C31 (exactness); induction on grammar derivations: the newline at the end (C52, C61) replaced by a blank and any tokens; induction on the arguments |
| C64 | a word is a command, a list is a script, and scripts in compound commands are commands again (trees of the parts ⇒ tree of the whole), for all texts without `<<`; `C64_nested` puts several levels together; `C64_conditions_needed` | `PropsNest`, `PropsCompose`, `PropsEmbed` | C31 (exactness), C53 up to the end of the line, C52 (the newline at the end can be dropped), C62 and C63 for what is between |
| C65 | the tokens split at `Newline` are the lines lexed one by one; the characters that separate in every context are exactly the operators that are no part of a longer one | `PropsLines`, `LexAppend` | induction over the lexical grammar of C03 (`Lexes`); for the converse one text per character |
| C66 | every mixture of characters, parameters, scripts, arithmetic substitutions and lengths, quoted or not, is one word with exactly these bits (`Woven cc bs p → ∃ w, wordBits w = bs ∧ ∀ rest, Parses …`); lines of such words | `PropsWoven` (spec `Spec.Bit`, `Spec.SubstText`, `Spec.Woven`, `Spec.wordBits`) | induction over the writing; scripts by C53 and C55, the rest as in C57; comments of the groups do not show in the tree (`SSame`, relation `Coalesce.collect`) |

## 4. Disagreements between the code and the properties, and surprises

Those with a theorem next to them are proved witnesses.

1. **Panic** (`C14_panics_in_heredoc`): an unquoted here-document whose body ends with a backslash at
   end of input (`cat <<E⏎\`): `word_interpolated_raw` compares `peek() == delim_close` with both
   `None` and unwraps `None`.
2. **size_hint** (`C05_upper_bound_violated`): with a token in the peek buffer the upper bound can be
   smaller than the lower one (`a;` after one call: `(1, Some(0))`).
3. **`<<-` strips inner tabs** (`C30_inner_tabs_removed`): tab stripping runs before every token of a
   line, not only at its start; it also shifts the positions of the tokens before it
   (`C18_heredoc_shifts_positions`).
4. **Positions after a here-document**: the tokens saved from its line are re-counted from one start
   position; if they span a removed backslash (inside backticks) the positions are off.
5. **`+5>f`**: `u16::from_str_radix` accepts a leading `+`, so `+5>f` redirects descriptor 5 (C29
   describes it: `FdToks`).
6. **`function f (⏎)`** (`C21_empty_subshell`): `Builder::subshell` is called with no commands.
7. **`until` without `do`**: reported as an incomplete `while` (C34's table says so).
8. **`x=#y`**: the value is dropped and `#y` becomes a comment (C35's `NoValue`).
9. `Token::len` is documented as a number of characters but is a number of bytes (C07).
10. **Nested backticks** (`C11_positions_recounted`, `C18_nested_backticks_shift_positions`): positions
    in the re-scanned text ignore the removed backslashes.
11. **`compress`** does not merge inside the lone double-quoted part of a one-part `Concat`
    (`C32_single_concat_not_idempotent`); the parser never builds one.
12. `${x-a\⏎b}`: an escaped newline in the word of a substitution is dropped.
13. An escaped newline separates words (`a\⏎b` is two words), `5\⏎>f` still redirects descriptor 5,
    `x=\⏎y` assigns `y`, and `x \⏎ = 5` is no assignment in arithmetic.
14. `$((x<<-1))` fails: `<<-` is one token.
15. `5++b`, `(a)++b` and `++x++y` are additions of unary plus; `+--x` is `+(-(-x))`.
16. The arithmetic look-ahead accepts `$$x=` as an assignment and then fails.
17. `for x ⏎#c⏎; do` drops the comments after the variable (parse.rs:2016-2019).
18. `>&""` is accepted as a duplication.
19. `c )` yields the command `c`; the error for `)` comes with the next call only.
20. `!foo` is read as `!` followed by `foo`.
21. `cat <<A "("` is an `Unmatched` error: the balanced scan of the rest of the line pairs parentheses
    inside double quotes too.
22. `Balanced` yields `Err` forever at the end of input inside single quotes.
23. Literals of the form `0x-5` are accepted from token streams of other lexers (`i64::from_str_radix`
    takes the sign).
24. **Here-document operators inside quotes** (`C18_nested_heredoc_shifts_positions`): after
    `cat <<A "$(cat <<B)"` the line of the second operator goes on beyond the body of the first, and
    the positions there do not count that body.
25. `brace_group` notes its start before it skips blanks (`C40_brace_group_reports_blanks`).
26. The message for a newline in `${` has two lines (`C43_examples`), although the code takes care to avoid
    this for unexpected newlines.
27. `peek_reserved_word` always looks at two tokens, also when the first is a newline: an error at the end of a
    line may be reported only after the first token of the next line was read (`C45_error_reads_next_line`). An
    interactive user who types `!` and return sees no error before the next line.
28. **`$$1`** (`C47_pid_before_digit`) is read as a literal `$` followed by `$1`, where POSIX has `$$` followed by
    `1`: the lexer makes `$1` one token.
29. A keyword directly before an escaped newline is not recognised (`C47_keyword_before_escaped_newline`):
    `if\⏎ a` is the simple command `if a`. So an escaped newline is not a blank everywhere.
30. In the text between backticks every `(` and `{` must be closed, also in quotes, since the closing
    backtick is searched with the same scanner.
31. **`compress` is not applied inside double quotes that have neighbours**: `"a$"` is one literal, in `x"a$"` the
    same quotes hold two (`C48_quoted_literals_beside_others`), so equal quoted text has different trees
    depending on what is next to it.
32. **`BadFd` is not final** (`C50_other_errors_can_vanish`): `{ a; } 1\⏎` fails with `BadFd`, although with `<x` on
    the next line the text is accepted.
33. **The kind of an error does not tell an interactive program whether to read on**: `IncompleteCmd` and
    `Unmatched` are errors of the end of input for some texts and final for others (`for x⏎y⏎`). With the
    parser in hand one can look whether tokens are left (C50); `ParserIterator` drops its parser at the error,
    so only `Unexpected`, `BadIdent` and `BadSubst` are known to be final there.
34. **An error in the body of a here-document corrupts the parser** (`C51_error_in_heredoc_loses_script`): the `?` in
    parse.rs:1086 returns before the token stream is put back. If the parser is called again, it parses the rest
    of the body as commands, and the script after it is lost. (In backticks, parse.rs:1379-1383, the stream is put
    back first.)
35. **The end of the body of a here-document is reported as its start** (`C41_heredoc_reports_keyword_before_command`):
   the iterator over the body is created with the position where the body starts (parse.rs:1079), and this is its
   position after its last token. For `cat <<E⏎$(if a; then b⏎E` the missing `fi` is reported before the `if`.
36. **Backslashes between backticks are removed from tokens, not from text** (`C55_tokens_not_text`): `` `echo \$1` ``
   is `echo` with the literal text `$1` where a shell expands the parameter, and in `` `echo \\&& b` `` the backslash that
   remains escapes the token `&&`, so `b` is an argument of `echo` and the list is lost.
37. **After `function f (…)` nothing is read** (`C62_conditions_needed`, `C62_function_subshell_redirection`): with the
   keyword `function`, no `()` and a subshell as the body, parse.rs:2264-2281 builds the subshell without its
   redirections and without skipping the blanks after it. `function f (a) | b` is rejected, and `function f (a) > x` is
   parsed as two commands, the second one only the redirection; with `{ a;}` as the body, or `f() (a)`, both work.

## 5. Trusted base

* Lean 4.33's kernel. Axioms of every theorem: at most `propext`, `Classical.choice`, `Quot.sound`
  (checked by `vcheck`). No axioms of our own, no compiled evaluation (`decide +kernel` is evaluation
  in the kernel).
* The fidelity of the model to the Rust source, which is by reading (every definition cites the lines
  it models) and by the conformance runs of section 1.
* The specification files of section 2: what they define is what the theorems mean.

## 6. Wrong programs

`seeded/LOG.jsonl` records the edits of the model that were tried in a scratch copy (a copy of the
project is edited, everything is re-checked with a driver that goes on after failing theorems), the
theorems that failed, and what was tightened.
