{"id": "C01", "title": "The lexer loses nothing", "statement": "Concatenating Token::as_str of all tokens produced by Lexer::new(src.chars()) gives back exactly src: no character is dropped, duplicated, reordered or invented.", "quantifier": "every character sequence (any length, any Unicode content)", "why_tests_cant": "tests compare a handful of literals; escapes, look-ahead and the peek buffer interact on unbounded inputs", "anchors": ["src/lexer.rs: Lexer::next, Lexer::next_internal", "src/token.rs: Token::as_str"]}
{"id": "C02", "title": "Every lexer token has the shape its kind promises", "statement": "Every token produced by the lexer is non-empty; a Name starts with '_' or an alphabetic character and contains only such characters and digits; a Literal does not start like a name and contains no whitespace and no character with a special meaning; a Whitespace token is whitespace without a newline. So there are never more tokens than characters.", "quantifier": "every character sequence and every token in its output", "why_tests_cant": "the claim is over all outputs; a sample cannot exclude a bad token after some unusual character or escape", "anchors": ["src/lexer.rs: Lexer::next, name_start_char, name_char", "src/token.rs: Token"]}
{"id": "C03", "title": "Operators are recognised by longest match and an escape protects exactly one character", "statement": "The token sequence is the one given by the left-to-right rule: take the longest operator that is a prefix of the remaining input (`<<-` before `<<` before `<`, `&&` before `&`, `$5` before `$`, ...); a backslash yields Backslash followed by the token of the single next character on its own (so `\\&&` is Backslash, Amp, Amp); otherwise the maximal run of whitespace / name / literal characters.", "quantifier": "every character sequence", "why_tests_cant": "operator prefixes overlap and follow escapes in unboundedly many contexts", "anchors": ["src/lexer.rs: Lexer::next_internal, Lexer::next_is"]}
{"id": "C04", "title": "The lexer consolidates tokens densely", "statement": "Two adjacent Whitespace tokens, or a Name/Literal followed by another Name/Literal that it could have absorbed, only occur when the first of them was escaped by a backslash (what Parser's documentation asks of a lexer).", "quantifier": "every character sequence and every adjacent token pair", "why_tests_cant": "needs all splits of all inputs", "anchors": ["src/lexer.rs: Lexer::next", "src/parse.rs: Parser (documentation, Token lexing)"]}
{"id": "C05", "title": "Lexer::size_hint bounds the tokens still to come", "statement": "At every moment of the iteration, the number of tokens still to be yielded lies between the lower and upper bound of size_hint (Iterator's contract).", "quantifier": "every input and every point of the iteration", "why_tests_cant": "the hint must be right after every prefix of calls; the internal peek buffer makes it state dependent", "anchors": ["src/lexer.rs: Lexer::size_hint"]}
{"id": "C06", "title": "The lexer is fused and deterministic under any polling", "statement": "After next() returned None it returns None forever, and repeatedly calling next() yields one fixed sequence.", "quantifier": "every input and any number of further calls", "why_tests_cant": "unbounded number of calls after exhaustion", "anchors": ["src/lexer.rs: Lexer::next, Lexer::new (Fuse)"]}
{"id": "C07", "title": "Token text, length and positional conversions agree", "statement": "Token::len is the UTF-8 length of as_str, is_empty is true iff that text is empty, Positional::from_num and as_num are mutually inverse on 0..9 and from_num rejects every other u8, and the lexer turns `$d` into the positional with number d.", "quantifier": "every token, every u8, every digit", "why_tests_cant": "finite tables can be enumerated by hand but not for tokens carrying arbitrary strings", "anchors": ["src/token.rs: Token::len, Token::is_empty, Positional::from_num, Positional::as_num"]}
{"id": "C08", "title": "Parser::pos tells the truth at the end of input", "statement": "For a source string lexed with Lexer and parsed to the end without an error, the final pos() has byte = UTF-8 length of the source, line = 1 + number of newlines, col = 1 + bytes after the last newline, whatever look-ahead, heredoc re-buffering or backtick sub-parsing happened on the way.", "quantifier": "every source text on which the parse reaches the end", "why_tests_cant": "positions are mutated by look-ahead, rewinding, heredoc and backtick buffers in arbitrary nesting", "anchors": ["src/parse.rs: Parser::pos, SourcePos::advance, redirect_heredoc, backticked_raw", "src/parse/iter.rs: TokenIter"]}
{"id": "C09", "title": "Look-ahead is invisible", "statement": "Any number of peeks / arbitrarily deep multi-peeks leaves the stream unchanged: the same tokens are yielded afterwards, at the same positions, and the i-th peek shows the i-th upcoming token.", "quantifier": "every stream state reachable by any history, any look-ahead depth", "why_tests_cant": "depth and history are unbounded; a rewind bug shows only for particular interleavings of buffered tokens and position marks", "anchors": ["src/parse/iter.rs: Multipeek::peek_next, Multipeek::drop, TokenIter::rewind, TokenIter::peek"]}
{"id": "C10", "title": "The buffered token stream behaves like a list of positioned tokens", "statement": "Under any sequence of next / peek / multi-peek / push-back-with-position operations the stream behaves like a plain list of (position, token) pairs: next pops the head, push-back prepends the given tokens with positions counted from the given start, the current position is the head's position, and the internal panic branches are unreachable.", "quantifier": "every operation sequence on every initial token list", "why_tests_cant": "unbounded histories", "anchors": ["src/parse/iter.rs: TokenIter::next, peek, buffer_tokens_to_yield_first, updated_buffered_pos"]}
{"id": "C11", "title": "Backtick unescaping removes exactly the right backslashes and keeps source positions", "statement": "For a balanced backtick body, the sub-stream that is parsed holds exactly the tokens of the body with a backslash dropped iff it is followed by `\\`, `$` or a backtick, in order, and every one of them carries the position it has in the original source; the lazy unescaping iterator yields the same tokens.", "quantifier": "every token stream following a backtick", "why_tests_cant": "escape sequences can be chained and nested arbitrarily", "anchors": ["src/parse/iter.rs: BacktickBackslashRemover::create_token_iter, BacktickBackslashRemover::next"]}
{"id": "C12", "title": "Balanced scanning stops at the matching delimiter and blames the innermost opener", "statement": "A single-quoted scan yields exactly the tokens before the next single quote; an unquoted scan yields at least one token if there is one; a scan ends only when every opened quote, backtick, `${` and `(` was closed, and at end of input reports the innermost unclosed opener with the position where it was opened.", "quantifier": "every token stream", "why_tests_cant": "nesting depth is unbounded", "anchors": ["src/parse/iter.rs: Balanced::next"]}
{"id": "C13", "title": "Parsing terminates on every token stream", "statement": "Every public parsing method returns after finitely many steps on every finite token stream, with recursion depth bounded by the number of tokens; the mutually recursive methods are determined uniquely by their bodies.", "quantifier": "every finite token stream, every builder, every public parser method", "why_tests_cant": "non-termination needs an adversarial input; no finite test suite excludes it", "anchors": ["src/parse.rs: Parser (all loops and recursive calls)"]}
{"id": "C14", "title": "Parsing never panics", "statement": "No public parsing method reaches a panic, unwrap of None, or unreachable! on any token stream.", "quantifier": "every finite token stream, every builder that itself does not panic", "why_tests_cant": "a panic needs one adversarial input among infinitely many", "anchors": ["src/parse.rs: unreachable!/unwrap sites", "src/parse/iter.rs: TokenIter::next, TokenIter::peek", "src/ast/builder/default_builder.rs: CoreBuilder::pipeline"]}
{"id": "C15", "title": "Each parsed command consumes input, so iteration is finite", "statement": "Whenever complete_command returns Ok(Some(_)) at least one token was consumed; hence iterating a parser over n tokens yields at most n items and then ends.", "quantifier": "every token stream and every builder", "why_tests_cant": "quantifies over all inputs and all iterations", "anchors": ["src/parse.rs: Parser::complete_command, ParserIterator::next"]}
{"id": "C16", "title": "The parser iterator is fused", "statement": "Once the iterator returned None or an error it returns None forever, and the builder is never called again.", "quantifier": "every token stream, every builder, any number of further calls", "why_tests_cant": "unbounded further calls", "anchors": ["src/parse.rs: ParserIterator::next"]}
{"id": "C17", "title": "Ok(None) means: nothing but blanks and comments was left, all of it consumed", "statement": "complete_command returns Ok(None) exactly when the remaining tokens are only whitespace, escaped newlines, newlines and comments; everything is consumed and the comments, if any, are handed to Builder::comments verbatim and in order.", "quantifier": "every token stream, every builder", "why_tests_cant": "needs all blank inputs and all non-blank inputs", "anchors": ["src/parse.rs: Parser::complete_command, linebreak, newline, skip_whitespace"]}
{"id": "C18", "title": "Every position reported by an error is a real source position", "statement": "Each SourcePos inside a returned ParseError is the position of a token boundary of the original source (byte, line and column consistent).", "quantifier": "every source text on which parsing fails", "why_tests_cant": "positions are recomputed by buffering code in nested contexts", "anchors": ["src/parse.rs: ParseError, make_unexpected_err, SourcePos::advance_tabs"]}
{"id": "C19", "title": "Acceptance does not depend on the builder", "statement": "For builders that never return an error, whether a source is accepted, how many commands it has, which error it yields and where the parser stops is the same for every builder; in particular EmptyBuilder accepts exactly what DefaultBuilder accepts. A builder that does fail on some inputs only adds failures: what it accepts all builders that never fail accept, and an error that is not its own is the error of all of them.", "quantifier": "every token stream and every pair of non-failing builders", "why_tests_cant": "universally quantified over user-supplied builders", "anchors": ["src/parse.rs: Parser<I,B>", "src/ast/builder.rs: Builder", "src/ast/builder/empty_builder.rs: EmptyBuilder"]}
{"id": "C20", "title": "A builder error stops the parse and is returned unchanged", "statement": "If a builder method returns Err(e), the parser makes no further builder calls and the parse method returns Err(ParseError::Custom(e)).", "quantifier": "every token stream and every builder, at any call", "why_tests_cant": "which call fails and in which nesting context is unbounded", "anchors": ["src/parse.rs: From<T> for ParseError<T>, all builder call sites"]}
{"id": "C21", "title": "The builder only ever sees well-formed fragments", "statement": "Builder methods are called with what their documentation promises: pipelines with at least one command, simple commands with at least one word, redirect or assignment, brace groups, subshells, loop guards/bodies, if branches and for bodies with at least one command, case arms with at least one pattern.", "quantifier": "every token stream, every builder call during the parse", "why_tests_cant": "the claim is about all calls in all parses", "anchors": ["src/ast/builder.rs: Builder", "src/parse.rs: command_group, subshell_internal, function_declaration_internal"]}
{"id": "C22", "title": "Arithmetic expressions are parsed with the documented precedence and associativity", "statement": "The tree returned for an arithmetic substitution is a derivation tree of the consumed tokens in the usual stratified grammar (sequence < assignment < ternary < || < && < | < ^ < & < ==/!= < relational < shift < additive < multiplicative < ** (right assoc.) < unary < postfix/primary); conversely the canonical rendering of every expression tree is accepted and yields that tree.", "quantifier": "every token stream / every arithmetic expression tree of any depth", "why_tests_cant": "operator combinations and nesting are unbounded", "anchors": ["src/parse.rs: arithmetic_substitution, arith_*"]}
{"id": "C23", "title": "Arithmetic literals denote their value", "statement": "A literal is read in base 16 after 0x/0X, base 8 after a leading 0, base 10 otherwise; it is accepted iff all characters are digits of that base and the value fits isize, and then has exactly that value.", "quantifier": "every digit string", "why_tests_cant": "infinitely many literals, overflow boundaries", "anchors": ["src/parse.rs: arith_post_incr"]}
{"id": "C24", "title": "Single quotes protect everything, so shell quoting round-trips", "statement": "For every string without a single quote, parsing it between single quotes yields one word consisting of exactly that string; hence for every string s the usual quoting ('...' with each ' replaced by '\\'') is parsed as one single word whose text is s; and a line of quoted strings separated by blanks is parsed as one simple command with exactly these strings as its words.", "quantifier": "every string", "why_tests_cant": "users rely on it for arbitrary untrusted strings (injection safety)", "anchors": ["src/lexer.rs: Lexer", "src/parse.rs: word", "src/parse/iter.rs: Balanced::next", "src/ast/builder/default_builder.rs: CoreBuilder::word"]}
{"id": "C25", "title": "Inside double quotes only $ ` and backslash escapes are special", "statement": "Within double quotes (and unquoted heredoc bodies) a backslash is removed exactly before $, `, \", \\ or newline and kept otherwise; all other tokens except $-expansions and backticks are literal text, unchanged and in order; the closing quote ends the word and a missing one is reported as Unmatched at the opening quote.", "quantifier": "every token stream after the opening quote", "why_tests_cant": "unbounded contents", "anchors": ["src/parse.rs: word_interpolated_raw"]}
{"id": "C26", "title": "Displaying a parameter and parsing it back is the identity", "statement": "For every Parameter with a valid variable name (and every u32 positional), parsing its Display output as a word gives that same parameter.", "quantifier": "every parameter value (all u32, all names)", "why_tests_cant": "infinitely many names and 2^32 positionals; the unit test tries 11", "anchors": ["src/ast.rs: Display for Parameter", "src/parse.rs: parameter_raw, parameter_inner"]}
{"id": "C27", "title": "Reserved words are recognised only as whole unquoted words", "statement": "peek_reserved_word/reserved_word report w iff, after skipping blanks, the next token is the single Name/Literal w and is followed by a word delimiter or end of input; nothing but blanks is consumed by peeking. The same for peek_reserved_token.", "quantifier": "every token stream and every set of words/tokens", "why_tests_cant": "all contexts", "anchors": ["src/parse.rs: peek_reserved_word, peek_reserved_token, reserved_word, reserved_token", "src/token.rs: Token::is_word_delimiter"]}
{"id": "C28", "title": "Blank skipping and comment capture are exact", "statement": "skip_whitespace consumes exactly the maximal prefix of whitespace tokens and escaped newlines; newline() then consumes either one newline, or a comment whose returned text is the verbatim source from # up to (not including) the newline, or nothing.", "quantifier": "every token stream", "why_tests_cant": "unbounded runs", "anchors": ["src/parse.rs: skip_whitespace, newline, linebreak"]}
{"id": "C29", "title": "A number is a file descriptor only when it is an unquoted decimal word directly before a redirection operator", "statement": "redirect() uses n as the source descriptor iff the word directly before the operator is an unquoted decimal numeral that fits u16; otherwise the word is returned as a word. A dup target is `-` or a word that could be numeric, else BadFd.", "quantifier": "every token stream", "why_tests_cant": "digit strings and word compositions are unbounded", "anchors": ["src/parse.rs: redirect"]}
{"id": "C30", "title": "Heredoc bodies are taken verbatim up to the delimiter line", "statement": "For a heredoc with delimiter d the body is exactly the lines after the current line up to the first line equal to d (or d followed by \\r) or end of input; with <<- exactly the leading tabs of each line are removed; the delimiter may be quoted in any way, and any quoted part of it makes the body literal; text after the operator on the same line and text after the delimiter line are parsed as usual.", "quantifier": "every body, every delimiter", "why_tests_cant": "unbounded bodies; quoting of delimiters", "anchors": ["src/parse.rs: redirect_heredoc"]}
{"id": "C31", "title": "Commands are assembled with the right structure", "statement": "Lists, pipelines, simple commands and compound commands (brace, subshell, if/elif/else, while, until, for, case, function) rendered canonically parse to exactly the builder calls of their structure, in source order, with && and || left associative, ! on the pipeline, & making a job.", "quantifier": "every command tree of any depth and width (in the rendered fragment)", "why_tests_cant": "unbounded nesting", "anchors": ["src/parse.rs: complete_command, and_or_list, pipeline, command, compound_command, if_command, loop_command, for_command, case_command, function_declaration"]}
{"id": "C32", "title": "Word compression only merges neighbours", "statement": "The default builder's compression of a word keeps the sequence of its parts and their text; it only joins adjacent unquoted literals, adjacent single-quoted strings and adjacent double-quoted strings; afterwards no such mergeable neighbours remain at the top level, and applying it twice changes nothing more.", "quantifier": "every word fragment list", "why_tests_cant": "unbounded lists; Coalesce keeps a one-element lookback", "anchors": ["src/ast/builder/default_builder.rs: compress, Coalesce::next"]}
{"id": "C33", "title": "The default AST records separators and pipelines faithfully", "statement": "With DefaultBuilder the command is Job iff it was terminated by &, a Pipe node appears iff there is a ! or more than one command, order of commands/redirects/assignments/words is that of the source, and the builder itself never fails.", "quantifier": "every sequence of builder calls", "why_tests_cant": "all argument lists", "anchors": ["src/ast/builder/default_builder.rs: CoreBuilder"]}
{"id": "C34", "title": "Incomplete compound commands name the command and the missing keyword", "statement": "When a compound command lacks a keyword, the parser returns IncompleteCmd naming the reserved word that started the construct, its position, the keyword that is missing and the position where it was expected; the pair of command and keyword in such an error is always one of eight.", "quantifier": "every token stream on which a compound command is incomplete", "why_tests_cant": "all truncations of all scripts", "anchors": ["src/parse.rs: if_command, loop_command, for_command, case_command, do_group"]}
{"id": "C35", "title": "Assignments are recognised exactly before the command name", "statement": "name=value pairs in a simple command are assignments iff they precede the first command word; the value is the word directly following =, and is absent iff a blank, a delimiter, the end of input or a # follows (an escaped newline after = is skipped first); afterwards = is ordinary text.", "quantifier": "every token stream", "why_tests_cant": "unbounded prefixes of redirects and assignments", "anchors": ["src/parse.rs: simple_command"]}
{"id": "C36", "title": "Empty groups are rejected", "statement": "An empty `{ }`, `( )`, `do done`, loop/if guard, or if branch is a parse error, never an empty AST node.", "quantifier": "every token stream, with any blanks/comments inside", "why_tests_cant": "all blank fillings", "anchors": ["src/parse.rs: command_group, subshell, brace_group, do_group"]}
{"id": "C37", "title": "Probing for a function declaration consumes nothing", "statement": "maybe_function_declaration returning Ok(None) leaves the token stream untouched (apart from leading blanks).", "quantifier": "every token stream", "why_tests_cant": "all streams", "anchors": ["src/parse.rs: maybe_function_declaration"]}
{"id": "C38", "title": "The default builders agree with each other", "statement": "StringBuilder, RcBuilder and ArcBuilder build the same tree up to the representation of strings and of shared function bodies: building with T: From<String> equals building with String and mapping the conversion.", "quantifier": "every token stream and every conversion String -> T", "why_tests_cant": "quantifies over type parameter instantiations and all inputs", "anchors": ["src/ast/builder/default_builder.rs: default_builder!, CoreBuilder, map_arith, map_param"]}
{"id": "C39", "title": "A program that is written down is read back", "statement": "Every program of the default AST without comments, here-documents and backticks (words with quotes, escapes, all expansions and arithmetic; redirections; assignments; lists, pipelines, jobs; every compound command; functions), written down as text and parsed with DefaultBuilder, yields exactly that AST, command by command, without an error; hence the text determines the AST.", "quantifier": "every such program, of any size and nesting", "why_tests_cant": "the printed programs are infinitely many and nested without bound", "anchors": ["src/parse.rs: Parser, ParserIterator", "src/ast/builder/default_builder.rs: CoreBuilder", "src/lexer.rs: Lexer", "src/ast/mod.rs"]}
{"id": "C40", "title": "The token an error names is at the position it reports", "statement": "If a parsing method fails with Unexpected(t, p), BadSubst(t, p), BadIdent(s, p) or Unmatched(t, p), then t (or the literal s) is a token of the source, and p is the position (byte, line, column) at which its text starts.", "quantifier": "every source text and every history of calls, at any nesting", "why_tests_cant": "the errors come from many places in nested contexts, some found after look-ahead or in re-scanned text", "anchors": ["src/parse.rs: ParseError, make_unexpected_err, parameter_inner, word_interpolated_raw, brace_group, subshell_internal", "src/parse/iter.rs: Balanced::next, UnmatchedError"]}
{"id": "C41", "title": "An IncompleteCmd error is true", "statement": "If a parsing method fails with IncompleteCmd{cmd, cmd_pos, kw, kw_pos}, then at cmd_pos in the source (after blanks) the unquoted word cmd (or until, for while) stands on its own, and at kw_pos, which is after that word, the keyword kw does not.", "quantifier": "every source text and every history of calls, at any nesting", "why_tests_cant": "all truncations and corruptions of all scripts", "anchors": ["src/parse.rs: if_command, loop_command, for_command, case_command, do_group"]}
{"id": "C42", "title": "Scripts concatenate", "statement": "What is parsed from a command does not depend on the text after its line: if a text p (without the characters << and not ending in a backslash) followed by a newline parses to the commands cs1, then p, a newline and any text q parse to cs1 followed by the commands of q, and fail if q fails. The same holds for a text p with here-documents (no line of which ends in two backslashes) if a word not in p, put on a line of its own after p, is left over when the parser has yielded cs1. Likewise every parsing method that stops before the end of a line returns the same whatever follows the line. The commands of a text are unique.", "quantifier": "every pair of texts p and q; every builder, method and pair of token streams for the general form", "why_tests_cant": "all continuations of all scripts: look-ahead could reach beyond the line", "anchors": ["src/parse.rs: complete_command, linebreak, and_or_list, ParserIterator"]}
{"id": "C43", "title": "Error messages tell what is wrong and where", "statement": "The Display text of a ParseError shows every position of the error as line:column and the text of the token it names; two errors of the parser have the same text iff they are of the same kind, at the same lines and columns, about the same texts; the text of an error that is not the builder's is one line (except for a newline token in a bad substitution); the text and cause of a builder's error are its own.", "quantifier": "every error value; for the one-line claim every error of every method after every history on every source", "why_tests_cant": "all errors on all inputs: identifiers and tokens in messages are arbitrary user text", "anchors": ["src/parse.rs: Display for ParseError, Display for SourcePos, Error::cause for ParseError", "src/token.rs: Display for Token"]}
{"id": "C44", "title": "A reference to a builder, or a boxed one, is that builder", "statement": "A parser given &mut builder or Box<builder> behaves as one given the builder itself: every method returns the same result, consumes the same tokens and leaves the builder in the same state; the iterator over the commands yields the same.", "quantifier": "every builder, every parsing method, every parser state, every iterator", "why_tests_cant": "quantifies over user-supplied builders and all inputs", "anchors": ["src/ast/builder.rs: impl_builder_body!, Builder for &mut T, Builder for Box<T>"]}
{"id": "C45", "title": "The parser reads no further than the line it needs", "statement": "When complete_command returns a command, the parser has taken nothing from the iterator of tokens after the first newline it has not consumed; if the command ended with its newline, it has taken exactly the tokens up to that newline. When the lexer yields a newline it has taken no character after it. So in a session in which each line is a command of its own, each command is returned before any character of the next line is taken, whatever comes later.", "quantifier": "every stream of tokens or characters and every continuation of it; every builder; every number of lines (commands with here-documents excepted)", "why_tests_cant": "which tokens are peeked depends on every path through the parser, and the effect is visible only with an iterator that blocks", "anchors": ["src/parse/iter.rs: TokenIter, Multipeek, PeekableIterator::peek", "src/parse.rs: complete_command, ParserIterator, peek_reserved_word, newline", "src/lexer.rs: Lexer::next, next_internal, next_is"]}
{"id": "C46", "title": "The builder is called at most five times per token", "statement": "Every parsing method calls the builder at most five times for each token it consumes, and, however it ends, at most five times for each token that was left; so whatever methods are called on a text, one after the other, the builder receives at most five calls per character: no input makes the parser parse something again or build exponentially much.", "quantifier": "every builder, every source, every history of method calls, whether they succeed or fail", "why_tests_cant": "the cost of an arbitrarily long and nested input, including here-documents and backticks that are tokenized again", "anchors": ["src/parse.rs: Parser, redirect_heredoc, backticked_raw, command_group_internal", "src/ast/builder.rs: Builder"]}
{"id": "C47", "title": "Every way of writing a program is read as that program", "statement": "Layout does not matter: a program of the default AST (as in C39, with here-documents) written with any blanks, escaped newlines, comments and empty lines where the shell allows them, with ; & or newlines as separators, with operators directly next to words, and with any of the optional forms ($x or ${x}, $(..) or backticks, f() or function f or function f(), for x; do or for x do, ( before a pattern or not, ;; after the last arm or not, a separator at the end or not, any delimiter of a here-document with any quoting, << or <<-, any commands after it on its line, further here-documents included) is parsed to exactly that program, without an error. So two texts that differ in layout only cannot be told apart, and no text can be read as two different programs.", "quantifier": "every program tree of any depth and every choice of layout at every place of it", "why_tests_cant": "infinitely many layouts of infinitely many programs; a unit test fixes one layout", "anchors": ["src/parse.rs: every parsing method", "src/lexer.rs: Lexer", "src/ast/builder/default_builder.rs: CoreBuilder"]}
{"id": "C48", "title": "Every tree the parser returns is in normal form", "statement": "Code that walks over a tree from the default builder can rely on its shape, whatever the input was: no group of commands of a compound command is empty (except the body of a function written function f (newline)), every if has a condition and every case arm a pattern, a simple command has something and its second list starts with the command word, a pipeline without ! has at least two commands, variables and functions have names, descriptors fit into 16 bits and positional parameters into 32; a Concat has at least two parts, no two neighbours that are both literals, both single quoted or both double quoted; no literal is empty except a here-document body; inside double quotes and here-documents there are no globs, and only $ ` \" \\ and newline are escaped.", "quantifier": "every source text (or token stream with non-empty tokens), every command yielded before the end or the first error, every place inside its tree, every public method", "why_tests_cant": "the trees of infinitely many inputs; a unit test looks at one tree", "anchors": ["src/parse.rs: every parsing method", "src/ast/builder/default_builder.rs: CoreBuilder, compress", "src/ast.rs: AST types"]}
{"id": "C49", "title": "Positions only move forward and stay inside the source", "statement": "While the parsing methods succeed, the byte offset and the line of the parser's position never decrease and never exceed those of the end of the input; and every position in an error has a byte offset and a line between those of the place where the failing method was called and those of the end of the input. So the byte offset of an error can always be used to cut the source, and an error never points back into a command that was already returned. This holds also for the inputs (<<- with tabs, nested here-documents, nested backticks) for which C18 shows that the position is not exactly right.", "quantifier": "every source text or token stream, every builder, every sequence of successful calls of public methods, every error of any method after it", "why_tests_cant": "positions are counted anew in here-document bodies and backtick bodies and put back at many places; a wrong start anywhere would only show up for the inputs that go through it", "anchors": ["src/parse/iter.rs: TokenIter, TokenIterWrapper, PeekableIterator", "src/parse.rs: SourcePos, pos, redirect_heredoc, backticked_raw"]}
{"id": "C50", "title": "An error that names a token, or leaves tokens, is final", "statement": "Parse a text of complete lines (it ends in a newline). If that fails with Unexpected, BadIdent or BadSubst, or with any error that is not the builder's own while tokens are left, then no continuation of the text is accepted, with any builder: an interactive program may report the error at once, without asking for another line. Errors of the other kinds at the end of the input can vanish when another line is given.", "quantifier": "every text of complete lines, every continuation of it, every two builders, also ones that fail themselves", "why_tests_cant": "all continuations of all scripts", "anchors": ["src/parse.rs: Parser::complete_command, ParserIterator, ParseError"]}
{"id": "C51", "title": "After an error the parser can be used further", "statement": "A parser may be called again after a method failed. After any calls, failed ones included, the tokens that are left are the last ones of the input, untouched, and the position is the one where their text starts in the source; so a program can skip to the next line and go on. (That later calls terminate, do not panic and report true positions is part of C13, C14, C18, C40, C41, C49.)", "quantifier": "every source, every history of calls of public methods that returned Ok or Err", "why_tests_cant": "error paths at any nesting, with buffers and swapped token streams in flight", "anchors": ["src/parse.rs: Parser, redirect_heredoc, backticked_raw", "src/parse/iter.rs: TokenIter, Multipeek, Balanced"]}
{"id": "C52", "title": "A newline at the end of a script does not matter", "statement": "A text (without the characters << and not ending in a backslash) parses to a list of commands exactly if it does with a newline after it. So a program that gets a file without a final newline, or passes lines to the parser without their newlines, sees the same commands; and texts that each parse on their own, joined with newlines, parse to their commands one after the other.", "quantifier": "every text and every list of texts", "why_tests_cant": "whether the end of input and a newline are treated alike is decided at every place where the parser looks ahead for a separator, a delimiter or the end of a word or comment, at any nesting", "anchors": ["src/parse.rs: complete_command, newline, linebreak, peek_reserved_word, word_preserve_trailing_whitespace, command_group_internal"]}
{"id": "C53", "title": "A script can be put into any compound command", "statement": "A script that parses on its own can be put, on its own lines, into parentheses, braces, while/until loops, if/elif/else, for, case arms, a function body or a command substitution: the result parses to that compound command (or word) with exactly the commands of the script inside, whatever the script contains (here-documents that are closed, comments, other compound commands). The only conditions are that the place does not need a command when the script has none, and that no command of the script starts with the very word that ends the place (such as `done` or `}`), and for `$(` that the script does not start with `(`. The result is again such a script, so the rule can be applied any number of times.", "quantifier": "every script, every compound command, every nesting", "why_tests_cant": "generators, formatters and wrappers rely on it, and tests can only nest a few constructs; a delimiter that is recognised in a wrong place in some nesting shows only for some scripts", "anchors": ["src/parse.rs: compound_command, do_group, brace_group, subshell, if_command, loop_command, for_command, case_command, function_declaration, command_group_internal, parameter_raw"]}
{"id": "C54", "title": "The trees hold only text of the source, and none of it twice", "statement": "All strings of the syntax trees the parser returns (literals, escaped characters, quoted text, here-documents, names of parameters, functions and loop variables, glob characters) together use every character at most as often as it occurs in the source: nothing is invented and nothing is used twice, also when the parser stops with an error after some commands. If the source has no `<<` they are even a subsequence of the source, in order. (`x += 1` in arithmetic, which is stored as `x = x + 1`, is the one exception.)", "quantifier": "every source text, every list of commands yielded before an error or the end, every call of complete_command and word", "why_tests_cant": "duplication or reordering of text depends on the path through lookahead, restoring, merging of fragments and here-documents", "anchors": ["src/parse.rs: all methods that return words or commands", "src/ast/builder/default_builder.rs: compress, word, simple_command, and the other methods of CoreBuilder"]}
{"id": "C55", "title": "Backticks and $( ) mean the same", "statement": "A text in backticks is one word, the substitution of exactly the commands the parser yields from the text alone, after the backslashes have been removed: `\\`` and `\\$` stand for a backtick and a dollar sign, other backslashes stand for themselves unless doubled before a quote, a newline or one of these. There is no such word if the text alone is not accepted. So backticks and `$(...)` give the same word. The claim excludes an escaped dollar sign before a digit and a doubled backslash before other characters, where the parser reads something else than the text without the backslashes.", "quantifier": "every text and every way of writing it between backticks, nested to any depth, in which quotes and parentheses are closed", "why_tests_cant": "the commands are read by a second iterator over tokens from which some were removed; that this is the same as reading the text anew holds or fails per sequence of tokens", "anchors": ["src/parse.rs: backticked_raw, word_preserve_trailing_whitespace_raw", "src/parse/iter.rs: Balanced, BacktickBackslashRemover::create_token_iter", "src/lexer.rs: Lexer::next"]}
{"id": "C56", "title": "Names, texts and blanks are opaque", "statement": "Renaming variables, commands and functions, changing literal text or the width of blanks does not change how a script is parsed: two scripts whose tokens are alike one by one (the same token; or two names, two other texts or two blanks, neither a keyword nor number-like) and that have no `<<` are both accepted or both rejected, command by command, and give the same trees up to the texts in them.", "quantifier": "every two source texts (or token streams) of any length whose tokens are alike", "why_tests_cant": "the parser compares the text of tokens with keywords and parses numbers from it in many places; that no other text influences it anywhere is a statement about all pairs of inputs", "anchors": ["src/parse.rs: Parser (peek_reserved_word, peek_compound_command, redirect, parameter_raw, arith_primary)", "src/lexer.rs: Lexer::next"]}
{"id": "C57", "title": "Quote removal", "statement": "Every way of writing a word - characters as they are, after a backslash, between single quotes, between double quotes (with backslashes where needed), parameters as `$x`, `${x}`, `$1`, `$?`..., in any mixture and order - is read as one word that consists of exactly the characters and parameters written: nothing is lost, added or reordered, exactly the characters written in quotes or after a backslash are marked as quoted, and exactly the unquoted `*?[]~:` are active. A line of such words is one command with exactly these words in this order.", "quantifier": "every word (any sequence of characters and parameters of any length), every way of writing it, every text after it, every line of such words", "why_tests_cant": "the ways to mix quotes, escapes and plain text are unbounded, and tests compare a few of them with hand-written trees", "anchors": ["src/parse.rs: Parser::word_preserve_trailing_whitespace_raw_with_delim, word_interpolated_raw, single_quoted, parameter_raw", "src/lexer.rs: Lexer::next", "src/ast/builder/default_builder.rs: compress"]}
{"id": "C58", "title": "The builder is called bottom-up, in source order, and every value is used once", "statement": "Whenever a parsing method succeeds, its builder calls are in postfix order: each call gets, as the builder values in its arguments and in the order of the source text, exactly the latest values that no earlier call got; what is left over at the end is what the method returns, in source order. So no value a builder returned is dropped, duplicated or reordered: the results of all calls are, counted, the arguments of all calls plus what is returned. If `complete_command` returns `None` the builder was told of comments only.", "quantifier": "every builder (with any state and any types), every parsing method, every token stream and every state in which the method succeeds", "why_tests_cant": "builders may have side effects and non-copyable values, so the order and the single use matter for every tree shape; tests compare final trees of one builder only", "anchors": ["src/parse.rs: Parser (all parsing methods)", "src/ast/builder.rs: Builder"]}
{"id": "C59", "title": "No name or text of the source is lost", "statement": "Whenever a parsing method succeeds, every name and every literal it has read (except keywords and numbers, which it gives by meaning) is part of a string the builder was given or of what it returns, in the order of the source text; what it has not read is still in the parser. For a whole script: the strings the commands were given, and the comments after the last command, hold every name and literal of the source. Here-documents (whose delimiter is not given) and scripts with both comments and `for` are excepted: comments between the name of a `for` and a semicolon are lost.", "quantifier": "every parsing method, every state without here-document operators and without comments or without `for`; every character class; every source text that parses to its end", "why_tests_cant": "a dropped word or comment would show only for the construct and the place it is in; tests compare trees of a few scripts", "anchors": ["src/parse.rs: Parser (all parsing methods)", "src/ast/builder.rs: Builder"]}
{"id": "C60", "title": "Parsing and building can be separated", "statement": "Which builder methods a parsing method calls, in which order, and which earlier results each call and the final result are made of, is fixed by the input: a builder that only records its calls (with numbers for values) yields a record that, replayed with any builder that never fails, makes exactly the calls that builder would get from the parser and yields exactly the value and the final builder state parsing with it would give. Where the recorder fails, every such builder's parse fails with the same error at the same place. A builder that may fail makes the recorded calls with the recorded result whenever its parse succeeds, and otherwise fails with an error of its own or with the recorder's. The same holds for all the commands of a script.", "quantifier": "every parsing method of the grammar, every parser state, every builder (also one that fails on some inputs), with every state, types and methods of its own; every script", "why_tests_cant": "a test compares two or three concrete builders on concrete scripts; that no builder can influence the parse, and that no value reaches a call other than the one it is meant for, is a statement about all builders", "anchors": ["src/parse.rs: Parser (all parsing methods)", "src/ast/builder.rs: Builder", "src/ast/builder/empty_builder.rs: EmptyBuilder"]}
{"id": "C61", "title": "A comment or blanks at the end of a line do not matter", "statement": "If a text parses to some commands, then blanks, or blanks and a comment, put after it on its last line change nothing: a script that goes on with further lines parses to the same commands with and without them (or fails in both cases), and so does a script that ends there. In particular a file made of blocks of lines that each parse on their own parses to their commands, one after the other, whatever comments (also ones that look like quotes, here-documents or keywords) are put at the ends of the blocks and on lines between them. The text must not contain <<, and must not end in a backslash or a blank.", "quantifier": "every text that parses, every comment and blanks, every rest of the script", "why_tests_cant": "tests comment a few commands; the quantifier is over every program, and over every text of the comment", "anchors": ["src/parse.rs: Parser::newline, Parser::linebreak, Parser::complete_command_with_leading_comments, Parser::word_preserve_trailing_whitespace_raw_with_delim, ParserIterator", "src/lexer.rs: Lexer"]}
{"id": "C62", "title": "Operators compose commands: precedence and associativity", "statement": "Whatever commands are written, the operators between them mean the same: a command on its own (not starting with !) is a pipeline; | joins the commands of two pipelines in their order, and a ! before the first negates the whole of it; a pipeline is a list; && and || bind equally, weaker than |, and append what follows to one flat list; ; and & end the list, & makes one job of all of it, and what follows is parsed on its own. Newlines and comments may follow |, && and ||. So a || b | c && d & is the same job whatever a, b, c and d are, compound commands of several lines included. The parts must not contain << (the body of a here-document would have to follow).", "quantifier": "all commands, pipelines and lists, all blanks before and blanks, newlines and comments after the operators, and every rest of the script", "why_tests_cant": "tests combine a few simple commands; that an operator never reaches into its operands, or the other way round, is a statement about all of them", "anchors": ["src/parse.rs: Parser::and_or_list, Parser::pipeline, Parser::complete_command_with_leading_comments, Parser::command, Parser::maybe_function_declaration", "src/ast/builder/default_builder.rs: pipeline, and_or_list, complete_command"]}
{"id": "C63", "title": "Words, redirections and assignments compose commands", "statement": "Whatever command is written, what is appended to it means the same: after a simple command that has a name, every further word is one more argument and every redirection one more redirection, in this order, after what was there; assignments and redirections before the name are put before it, in this order; a redirection after a compound command or a function is one more redirection of it. Nothing else of the command changes. The parts are what Parser::command, Parser::word and Parser::redirect read them as on their own, must not contain <<, and must be separated by at least one blank. Exceptions: x= before an escaped newline, which takes the next word as its value; function f (..) after which nothing is read.", "quantifier": "all commands, words and redirections, all blanks between them, any number of arguments", "why_tests_cant": "tests append a few words to a few commands; that reading a command stops exactly where its last part ends, whatever follows after a blank, is a statement about all of them", "anchors": ["src/parse.rs: Parser::simple_command, Parser::redirect, Parser::word, Parser::compound_command, Parser::maybe_function_declaration, Parser::redirect_list", "src/ast/builder/default_builder.rs: simple_command, compound commands"]}
{"id": "C64", "title": "Texts inside texts", "statement": "The tree of a program is put together from the trees of its parts, to any depth. A word on its own is a command with that word as its name, unless it is one of {, for, case, if, while, until, function, or a name followed by =. A list on a line of a script is one command in the foreground, and with & after it one command in the background. Scripts put into ( ), { }, while, until, if, for, case or the body of a function are again one command, with these scripts as its parts and no redirections, which can stand wherever a command can: in pipelines, in lists and before redirections. A script in $( ) is one word. The scripts must not contain <<, and none of their commands may start with the word that ends the place they stand in.", "quantifier": "all scripts, words and lists, any number of elif and case parts, any nesting", "why_tests_cant": "tests nest one construct in another; that the tree of a part does not depend on what it is nested in holds for all parts", "anchors": ["src/parse.rs: Parser::command, Parser::compound_command, Parser::subshell, Parser::brace_group, Parser::do_group, Parser::loop_command, Parser::if_command, Parser::for_command, Parser::case_command, Parser::function_declaration, Parser::complete_command", "src/ast/builder/default_builder.rs: compound commands, list, simple_command"]}
{"id": "C65", "title": "A text can be lexed line by line", "statement": "The tokens of a text are the tokens of its lines, each lexed on its own, with one newline token between them: no token but the newline contains a newline, and neither quotes, backslashes nor operators join lines (that is left to the parser). So the newline tokens before a token count the lines before it. The characters at which every text can be cut like this, whatever is around them, are exactly the newline and the operators that are no part of a longer one; a text can also be cut around blanks that do not follow a backslash.", "quantifier": "every source text of any length, every sane character class, every character", "why_tests_cant": "tests lex a few lines; that nothing the lexer remembers crosses a newline, and at which characters nothing does, is a statement about all texts before and after", "anchors": ["src/lexer.rs: Lexer::next, Lexer::next_internal", "src/token.rs: Token"]}
{"id": "C66", "title": "Words that mix quotes, escapes, parameters, scripts and arithmetic", "statement": "Quotes, escapes, parameters, substituted scripts and arithmetic substitutions can be mixed in a word in any way and order: a script that parses, written as $(script) or between backticks (with the backslashes these need), in double quotes or outside of them, between any other characters, quoted stretches and parameters, is read as that script in exactly this place of the word, next to exactly the characters and parameters written; what is in the script (quotes, parentheses, here-documents, comments) neither ends the quotes around it nor is changed by them. Likewise $((...)) around an expression (with any blanks around it, or around blanks alone) is this expression in exactly this place, and every expression can be written so; ${#parameter} is the length of this parameter there. The text determines what is written. Such words can stand wherever words stand, and a line of them is one command with exactly these words, so scripts nest in words in scripts to any depth.", "quantifier": "every word (any sequence of characters, parameters, scripts, arithmetic expressions and lengths, quoted or not), every way of writing it, every text after it, every script that parses, any depth of nesting", "why_tests_cant": "how quoting and substitution interact is a combination of three unbounded grammars (words, quotes, scripts); tests compare a few literal words", "anchors": ["src/parse.rs: Parser::word_preserve_trailing_whitespace_raw_with_delim, word_interpolated_raw, backticked_command_substitution_raw, parameter_substitution_raw, subshell_internal", "src/lexer.rs: Lexer::next", "src/ast/builder/default_builder.rs: compress"]}
