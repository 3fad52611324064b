{
 "C05": {
  "status": "partial",
  "note": "The lower bound always holds; the upper bound holds when no token is peeked and is exceeded by at most 2 otherwise. The full property is false of the code: C05_upper_bound_violated is a witness."
 },
 "C11": {
  "note": "Positions: for bodies whose tokens are contiguous (every stream that comes straight from the source). For re-scanned nested backticks they are re-counted: C11_positions_recounted."
 },
 "C14": {
  "status": "partial",
  "note": "Every panic site except one is unreachable; that one (parse.rs:1326) is reachable only if a here-document operator and a backslash are in the input, the backslash last but for whitespace, unless there are backticks: so no source that ends with a newline and has no backtick makes any sequence of calls panic (C14_no_panic_in_lines_partial). The full property is false of the code: C14_panics_in_heredoc gives three witnesses."
 },
 "C18": {
  "status": "partial",
  "note": "For all inputs the positions are those of parts of the input as it is read (C18_positions_of_parts). That these are boundaries of the source is proved for inputs without here-documents (and without removed backslashes around nested backticks), and for inputs with << here-documents, without backticks and without operators nested in the line of an operator. The full property is false of the code: C18_heredoc_shifts_positions, C18_nested_heredoc_shifts_positions and C18_nested_backticks_shift_positions are witnesses."
 },
 "C21": {
  "status": "partial",
  "note": "Every promise except one, and that one too if the unquoted word `function` is not in the input (C21_well_formed_calls_without_function_partial). `function f (<newline>)` calls Builder::subshell with no commands: C21_empty_subshell is a witness that the full property is false of the code."
 },
 "C36": {
  "status": "partial",
  "note": "No group the parser's own methods accept is empty, and inside a program every group except the body of `function f (...)` is non-empty (all of them if the word `function` is not in the input: C36_no_empty_groups_without_function_partial; for the trees see C48); that exception is finding 6 (C21_empty_subshell)."
 },
 "C22": {
  "note": "C22_arithmetic_exact: the parser returns a tree iff the consumed tokens are a sentence of the stratified grammar with that tree (Signs.munch says how adjacent signs are read, e.g. `--` before a variable is a decrement) and nothing that could continue it follows. Also stated w.r.t. the plain grammar without the rule on signs (soundness), and the grammar is proved unambiguous; every tree that can occur is the reading of some token list."
 },
 "C30": {
  "status": "partial",
  "note": "Every delimiter with every way of quoting it or parts of it (WritesDelim), every body, every rest of the line with closed quotes and parentheses (Spans): C30_quoted_body_partial and, for bodies without expansions, C30_unquoted_body_partial (bodies with expansions: C47, C30_every_heredoc); with <<- for lines without tabs after their leading tabs. C30_every_heredoc: every here-document that is returned, for all token streams. The full property is false of the code for <<-: C30_inner_tabs_removed is a witness (tabs inside a line are removed too)."
 },
 "C40": {
  "status": "partial",
  "note": "For all inputs: the token is in the input (or whitespace) and is at its position in a part of the input as it is read. At its position in the source for the inputs named under C18 (otherwise false, see C18), and for brace_group when it is not called before blanks (there it is false: C40_brace_group_reports_blanks)."
 },
 "C41": {
  "status": "partial",
  "note": "For all inputs: the word is at the first position and the keyword is not at the second one, in parts of the input as it is read. In one part, one after the other: for inputs without here-documents. In the source: without backticks too. With here-documents it is false of the code: C41_heredoc_reports_keyword_before_command."
 },
 "C31": {
  "note": "C31_parser_exact: a public method returns a, leaving r and the builder state b', iff the grammar Derives says so (same grammar in both directions); unambiguous."
 },
 "C43": {
  "status": "proved",
  "note": "Proved for all errors: messages are equal iff the reports are, positions and token texts are shown. The one-line claim holds for all sources and histories with the stated exception (`${` newline: C43_examples). C40_message_points_into_source_partial: that the shown line and column are those of the token in the source, for the inputs of C40."
 },
 "C45": {
  "status": "proved",
  "note": "For commands that consume no here-document operator. Errors are another matter: C45_error_reads_next_line (after `!` the parser looks at the first token of the next line before it rejects the newline). The lexer is modelled a second time with its Peekable iterator of characters (LexStream), proved to yield the same tokens (C45_lexer_tokens)."
 },
 "C46": {
  "status": "proved",
  "note": "Counted in the log of a builder that records its calls, for any underlying builder. The constant 5 is met by one token (C46_five_for_one_token)."
 },
 "C47": {
  "status": "proved",
  "note": "Writes (Layout.lean, HereText.lean) is the specification of the layouts, here-documents included. Outside of it: arithmetic with other blanks than the printed ones, backticks around text with quotes, backslashes, braces or parentheses, and lines with inner tabs after <<-. C47_pid_before_digit and C47_keyword_before_escaped_newline show why two side conditions are there."
 },
 "C48": {
  "status": "proved",
  "note": "NfCommand (NormalForm.lean) is the specification. Two exceptions to what one would expect are in it, each with a witness: the body of `function f (<newline>)` is an empty subshell (C48_empty_function_body), and neighbouring literals inside a double quoted part are merged only if the part is the whole word or was joined with another one (C48_quoted_literals_beside_others)."
 },
 "C49": {
  "status": "proved",
  "note": "C49_errors_inside_source is the statement for source texts (byteLen and number of newlines of the text). After failed calls the positions are still inside the source (C49_inside_source_after_errors)."
 },
 "C50": {
  "status": "proved",
  "note": "For complete_command until the end (C50_error_is_final) and for ParserIterator, whose error kind is all that is seen (C50_iterator_error_is_final). C50_other_errors_can_vanish shows that the condition on the error is needed, C50_needs_complete_lines that complete lines are."
 },
 "C51": {
  "status": "partial",
  "note": "Proved for inputs without here-documents. With here-documents it is false of the code: C51_error_in_heredoc_loses_script (after an error in the body of a here-document the parser goes on inside of the body, and the rest of the script is lost)."
 },
 "C52": {
  "status": "proved",
  "note": "C52_final_newline, with C52_lines_concatenate and C52_blocks as consequences; both conditions are needed (C52_conditions_needed)."
 },
 "C53": {
  "status": "proved",
  "note": "What a whole script is: Spec.Whole, met by every text that parses and has no here-documents (C53_whole_of_parse) and by texts with closed here-documents (C53_whole_of_heredoc); words: Spec.WholeWord. One theorem per construct; the conditions are needed (C53_conditions_needed)."
 },
 "C54": {
  "status": "proved",
  "note": "The text of a tree: Spec.Txt (TextSpec.lean). Numbers (positional parameters, file descriptors, arithmetic literals) are no text. The exception for compound assignments and the need for the condition on the order have witnesses (C54_assigned_variable_twice, C54_order_needs_no_heredoc)."
 },
 "C55": {
  "status": "proved",
  "note": "`C55_backticks` is an equivalence for every text `t`, every way `p` of writing it between backticks (`Spec.Ticked`, seven rules) in which quotes, parentheses and braces are closed (`Spec.Spans`) and every list of commands: the word is the substitution of `cs` exactly if `t` alone parses to `cs`. `C55_same_as_dollar` adds that `$(t)` gives the same word (texts without `<<`, not ending in a backslash, not starting with a parenthesis, C53). Shown on a text with an inner substitution in backticks. `C55_tokens_not_text` shows what the rules exclude: `\\$1` and `\\\\&&` between backticks (finding 36)."
 },
 "C56": {
  "status": "proved",
  "note": "`C56_command` is about any two parsers whose unread tokens are alike (`Spec.Alike`, four rules): what one accepts as the next command the other accepts, as the same tree with the texts erased (`Spec.skeleton`), and what is left is alike again. `C56_same_shape` and `C56_both_accepted` are about whole source texts. Proved by induction over the grammar (C31) for the builder that forgets texts (C38). Shown on a command with quotes, arithmetic, a descriptor, backticks and a default; `C56_conditions_needed` shows that here-documents, keywords and numbers must be excluded."
 },
 "C57": {
  "status": "proved",
  "note": "`Spec.Written cc is p` (six rules) says how the text `p` writes the sequence `is` of characters (quoted or not), active characters and parameters; `Spec.DqWritten` (five rules) does so between double quotes. `C57_quote_removal`: one word, the same whatever follows, with `wordItems w = is`. `C57_command_line`: a line of such words is one command with these words. `C57_one_reading`: no text writes two words. Not covered by the relation (so not claimed): an escaped newline within a word (finding 13) or in double quotes, a lone `$`, substitutions (C39, C47, C53, C55 are about them). Generalises C24 and C25. Shown on a word that mixes all forms."
 },
 "C58": {
  "status": "proved",
  "note": "`Spec.Postfix st es st'` (two rules) is the stack discipline; `Spec.args`, `Spec.result`, `Spec.returned` list the builder values in the arguments of a call, its result, and what a method returns, in source order (including the commands inside words that are not built yet). `C58_bottom_up` is about the log of the recording builder `Logged B` for an arbitrary builder `B` (`C20_recording_is_transparent`: recording changes nothing). Methods: all with a production of the grammar (C31); the others (peeking, reserved words, arithmetic) return no builder values; `command_group_internal` with delimiters the parser itself never passes is not covered. Failing runs are not covered. `C58_case`: 32 calls with numbered values."
 },
 "C59": {
  "status": "proved",
  "note": "Given.lean: a builder that collects every string it is given. C59_nothing_lost for every public method, C59_script for whole scripts; C59_for_comment_is_lost and C59_delimiter_is_lost show that the excepted cases do lose text."
 },
 "C60": {
  "status": "proved",
  "note": "C60_success_is_replay: whenever a method succeeds with any builder (which may fail elsewhere), its calls, result and state are the replay (Spec.Replay: every number replaced by what the call of that number returned) of the recording builder's record; C60_script_success for whole scripts; C60_any_builder_replays, C60_script, C60_calls_made: builders that never fail succeed whenever the recorder does; C60_failure_is_the_builders, C60_fails_alike: failures agree or are the builder's own; C60_replay_deterministic, C60_result_deterministic: the record determines everything."
 },
 "C61": {
  "status": "proved",
  "note": "C61_line_tail: with and without the blanks and comment, whatever lines follow; C61_last_line: at the end of input; C61_blocks: files of blocks with comments; C61_conditions_needed: the blank before # is needed, and that no backslash is before it. For texts without << (the rest of a here-document's line is C47/C30)."
 },
 "C62": {
  "status": "proved",
  "note": "C62_command_pipeline, C62_not, C62_pipe, C62_pipeline_list, C62_and, C62_or, C62_semi, C62_amp, C62_list_script: each operator for all operands; C62_precedence: combined; C62_conditions_needed, C62_function_subshell_redirection: witnesses, among them a defect of `function f (..)`. For texts without << whose parts neither begin nor end with blanks."
 },
 "C63": {
  "status": "proved",
  "note": "C63_word, C63_args (any number of words and redirections), C63_prefix (assignments and redirections before the name), C63_redirect (all kinds of commands): for all texts without << that neither begin nor end with blanks; C63_conditions_needed: witnesses for the conditions."
 },
 "C64": {
  "status": "proved",
  "note": "C64_word (words as commands), C64_line, C64_job (lists as scripts), C64_subshell, C64_braces, C64_loop, C64_if, C64_for, C64_for_args, C64_case, C64_function (scripts as commands), C64_substitution, C64_text_word (scripts as words): for all parts whose text has no <<; C64_nested: a nested program with arbitrary parts; C64_conditions_needed: witnesses for the conditions of C64_word."
 },
 "C65": {
  "status": "proved",
  "note": "C65_line_by_line (split the tokens at Newline = lex the split lines), C65_newline_separates, C65_tokens_within_lines, C65_newlines_count; C65_separators: exactly which characters separate in every context; C65_blanks_separate."
 },
 "C66": {
  "status": "proved",
  "note": "C66_word: Woven cc bs p -> the word method reads p as a word whose bits are exactly bs, whatever follows; C66_whole, C66_command_line for words in scripts; C66_one_reading: the text determines the bits; C66_every_expression: every expression of C39 can be substituted. SubstText: $(script), backticks, $((expression)), $(( )), ${#parameter}. Example: a here-document script in double quotes and a script in backticks in one word."
 },
 "C19": {
  "status": "proved",
  "note": "C19_acceptance_independent_of_builder for builders that never fail; C19_success_with_any_builder, C19_failure_with_any_builder: a builder that may fail only adds failures of its own."
 }
}