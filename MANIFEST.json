{
 "claims": [
  {
   "property": "C01",
   "status": "proved",
   "theorems": [
    "Conch.C01_lexer_loses_nothing",
    "Conch.C01_concat_tokens"
   ],
   "note": ""
  },
  {
   "property": "C02",
   "status": "proved",
   "theorems": [
    "Conch.C02_token_shapes",
    "Conch.C02_tokens_nonempty",
    "Conch.C02_token_count"
   ],
   "note": ""
  },
  {
   "property": "C03",
   "status": "proved",
   "theorems": [
    "Conch.C03_tokens_iff_grammar",
    "Conch.C03_longest_operator",
    "Conch.C03_escape_protects_one"
   ],
   "note": ""
  },
  {
   "property": "C04",
   "status": "proved",
   "theorems": [
    "Conch.C04_relex",
    "Conch.C04_lexer_image",
    "Conch.C04_dense_tokens"
   ],
   "note": ""
  },
  {
   "property": "C05",
   "status": "partial",
   "theorems": [
    "Conch.C05_size_hint_partial",
    "Conch.C05_upper_bound_violated"
   ],
   "note": "The lower bound always holds; the upper bound holds when no token is peeked and is exceeded by at most 2 otherwise. The full property is false of the code: C05_upper_bound_violated is a witness."
  },
  {
   "property": "C06",
   "status": "proved",
   "theorems": [
    "Conch.C06_next_yields_sequence",
    "Conch.C06_lexer_fused"
   ],
   "note": ""
  },
  {
   "property": "C07",
   "status": "proved",
   "theorems": [
    "Conch.C07_token_len",
    "Conch.C07_positional",
    "Conch.C07_lexer_positional"
   ],
   "note": ""
  },
  {
   "property": "C08",
   "status": "proved",
   "theorems": [
    "Conch.C08_pos_at_end",
    "Conch.C08_line_of_any_tokens",
    "Conch.C08_pos_after_all_commands"
   ],
   "note": ""
  },
  {
   "property": "C09",
   "status": "proved",
   "theorems": [
    "Conch.C09_lookahead_invisible",
    "Conch.C09_peek_shows_upcoming"
   ],
   "note": ""
  },
  {
   "property": "C10",
   "status": "proved",
   "theorems": [
    "Conch.C10_stream_is_a_list",
    "Conch.C10_stream_with_position"
   ],
   "note": ""
  },
  {
   "property": "C11",
   "status": "proved",
   "theorems": [
    "Conch.C11_substream",
    "Conch.C11_unclosed",
    "Conch.C11_lazy_remover",
    "Conch.C11_lazy_remover_unclosed",
    "Conch.C11_positions_recounted"
   ],
   "note": "Positions: for bodies whose tokens are contiguous (every stream that comes straight from the source). For re-scanned nested backticks they are re-counted: C11_positions_recounted."
  },
  {
   "property": "C12",
   "status": "proved",
   "theorems": [
    "Conch.C12_region",
    "Conch.C12_single_quoted",
    "Conch.C12_unquoted"
   ],
   "note": ""
  },
  {
   "property": "C13",
   "status": "proved",
   "theorems": [
    "Conch.C13_budget_irrelevant",
    "Conch.C13_recursion_equations",
    "Conch.C13_recursion_unique",
    "Conch.C13_arith_budget_irrelevant",
    "Conch.C13_arith_recursion",
    "Conch.C13_loop_budget",
    "Conch.C13_terminates"
   ],
   "note": ""
  },
  {
   "property": "C14",
   "status": "partial",
   "theorems": [
    "Conch.C14_no_panic_partial",
    "Conch.C14_no_panic_at_line_end_partial",
    "Conch.C14_no_panic_without_heredoc_partial",
    "Conch.C14_panics_in_heredoc",
    "Conch.C14_no_panic_in_lines_partial"
   ],
   "note": "Every panic site except one is unreachable; that one (parse.rs:1326) is reachable only if a here-document operator and a backslash are in the input, the backslash last but for whitespace, unless there are backticks: so no source that ends with a newline and has no backtick makes any sequence of calls panic (C14_no_panic_in_lines_partial). The full property is false of the code: C14_panics_in_heredoc gives three witnesses."
  },
  {
   "property": "C15",
   "status": "proved",
   "theorems": [
    "Conch.C15_command_consumes",
    "Conch.C15_at_most_n_items",
    "Conch.C15_iteration_ends"
   ],
   "note": ""
  },
  {
   "property": "C16",
   "status": "proved",
   "theorems": [
    "Conch.C16_fused"
   ],
   "note": ""
  },
  {
   "property": "C17",
   "status": "proved",
   "theorems": [
    "Conch.C17_only_blanks_left",
    "Conch.C17_none_means_blanks"
   ],
   "note": ""
  },
  {
   "property": "C18",
   "status": "partial",
   "theorems": [
    "Conch.C18_positions_of_parts",
    "Conch.C18_error_positions_partial",
    "Conch.C18_error_positions_in_source_partial",
    "Conch.C18_heredoc_shifts_positions",
    "Conch.C18_nested_heredoc_shifts_positions",
    "Conch.C18_nested_backticks_shift_positions"
   ],
   "note": "For all inputs the positions are those of parts of the input as it is read (C18_positions_of_parts). That these are boundaries of the source is proved for inputs without here-documents (and without removed backslashes around nested backticks), and for inputs with << here-documents, without backticks and without operators nested in the line of an operator. The full property is false of the code: C18_heredoc_shifts_positions, C18_nested_heredoc_shifts_positions and C18_nested_backticks_shift_positions are witnesses."
  },
  {
   "property": "C19",
   "status": "proved",
   "theorems": [
    "Conch.C19_acceptance_independent_of_builder",
    "Conch.C19_success_with_any_builder",
    "Conch.C19_failure_with_any_builder",
    "Conch.C19_empty_and_default_builder",
    "Conch.C19_same_commands"
   ],
   "note": "C19_acceptance_independent_of_builder for builders that never fail; C19_success_with_any_builder, C19_failure_with_any_builder: a builder that may fail only adds failures of its own."
  },
  {
   "property": "C20",
   "status": "proved",
   "theorems": [
    "Conch.C20_recording_is_transparent",
    "Conch.C20_builder_error_stops_parse",
    "Conch.C20_custom_error_is_the_builders"
   ],
   "note": ""
  },
  {
   "property": "C21",
   "status": "partial",
   "theorems": [
    "Conch.C21_well_formed_calls_partial",
    "Conch.C21_well_formed_calls_without_function_partial",
    "Conch.C21_empty_subshell"
   ],
   "note": "Every promise except one, and that one too if the unquoted word `function` is not in the input (C21_well_formed_calls_without_function_partial). `function f (<newline>)` calls Builder::subshell with no commands: C21_empty_subshell is a witness that the full property is false of the code."
  },
  {
   "property": "C22",
   "status": "proved",
   "theorems": [
    "Conch.C22_arithmetic_sound",
    "Conch.C22_arithmetic_complete",
    "Conch.C22_arithmetic_exact",
    "Conch.C22_arithmetic_unambiguous",
    "Conch.C22_arithmetic_range"
   ],
   "note": "C22_arithmetic_exact: the parser returns a tree iff the consumed tokens are a sentence of the stratified grammar with that tree (Signs.munch says how adjacent signs are read, e.g. `--` before a variable is a decrement) and nothing that could continue it follows. Also stated w.r.t. the plain grammar without the rule on signs (soundness), and the grammar is proved unambiguous; every tree that can occur is the reading of some token list."
  },
  {
   "property": "C23",
   "status": "proved",
   "theorems": [
    "Conch.C23_literal",
    "Conch.C23_numeral_unique"
   ],
   "note": ""
  },
  {
   "property": "C24",
   "status": "proved",
   "theorems": [
    "Conch.C24_arguments",
    "Conch.C24_line_of_arguments",
    "Conch.C24_quoting_round_trip",
    "Conch.C24_single_quotes",
    "Conch.C24_quoted_text"
   ],
   "note": ""
  },
  {
   "property": "C25",
   "status": "proved",
   "theorems": [
    "Conch.C25_double_quotes",
    "Conch.C25_missing_quote",
    "Conch.C25_every_stream",
    "Conch.C25_quoting_round_trip",
    "Conch.C25_quoted_text"
   ],
   "note": ""
  },
  {
   "property": "C26",
   "status": "proved",
   "theorems": [
    "Conch.C26_display_parse_parameter",
    "Conch.C26_display_parse_word",
    "Conch.C26_display_round_trip"
   ],
   "note": ""
  },
  {
   "property": "C27",
   "status": "proved",
   "theorems": [
    "Conch.C27_peek_reserved_word",
    "Conch.C27_peek_no_words",
    "Conch.C27_reserved_word",
    "Conch.C27_peek_reserved_token",
    "Conch.C27_peek_reserved_token_whitespace"
   ],
   "note": ""
  },
  {
   "property": "C28",
   "status": "proved",
   "theorems": [
    "Conch.C28_blanks_split",
    "Conch.C28_skip_whitespace",
    "Conch.C28_newline_some",
    "Conch.C28_newline_none",
    "Conch.C28_linebreak",
    "Conch.C28_comment_verbatim"
   ],
   "note": ""
  },
  {
   "property": "C29",
   "status": "proved",
   "theorems": [
    "Conch.C29_number_is_descriptor",
    "Conch.C29_no_descriptor",
    "Conch.C29_other_words",
    "Conch.C29_only_numbers_are_descriptors",
    "Conch.C29_words_are_no_descriptors",
    "Conch.C29_builder_gets_descriptor",
    "Conch.C29_dup_target",
    "Conch.C29_bad_descriptor",
    "Conch.C29_descriptor_text",
    "Conch.C29_no_descriptor_text",
    "Conch.C29_other_number_text"
   ],
   "note": ""
  },
  {
   "property": "C30",
   "status": "partial",
   "theorems": [
    "Conch.C30_quoted_body_partial",
    "Conch.C30_unquoted_body_partial",
    "Conch.C30_every_heredoc",
    "Conch.C30_inner_tabs_removed"
   ],
   "note": "Every delimiter with every way of quoting it or parts of it (WritesDelim), every body, every rest of the line with closed quotes and parentheses (Spans): C30_quoted_body_partial and, for bodies without expansions, C30_unquoted_body_partial (bodies with expansions: C47, C30_every_heredoc); with <<- for lines without tabs after their leading tabs. C30_every_heredoc: every here-document that is returned, for all token streams. The full property is false of the code for <<-: C30_inner_tabs_removed is a witness (tabs inside a line are removed too)."
  },
  {
   "property": "C31",
   "status": "proved",
   "theorems": [
    "Conch.C31_parser_accepts_grammar",
    "Conch.C31_parser_within_grammar",
    "Conch.C31_parser_exact",
    "Conch.C31_unambiguous"
   ],
   "note": "C31_parser_exact: a public method returns a, leaving r and the builder state b', iff the grammar Derives says so (same grammar in both directions); unambiguous."
  },
  {
   "property": "C32",
   "status": "proved",
   "theorems": [
    "Conch.C32_only_joins_neighbours",
    "Conch.C32_nothing_left_to_join",
    "Conch.C32_text_is_kept",
    "Conch.C32_idempotent",
    "Conch.C32_single_concat_not_idempotent",
    "Conch.C32_default_builder_compresses"
   ],
   "note": ""
  },
  {
   "property": "C33",
   "status": "proved",
   "theorems": [
    "Conch.C33_builder_total",
    "Conch.C33_builder_never_fails",
    "Conch.C33_job",
    "Conch.C33_list_order",
    "Conch.C33_pipe",
    "Conch.C33_simple_order",
    "Conch.C33_compound_order"
   ],
   "note": ""
  },
  {
   "property": "C34",
   "status": "proved",
   "theorems": [
    "Conch.C34_pairs",
    "Conch.C34_missing_keyword"
   ],
   "note": ""
  },
  {
   "property": "C35",
   "status": "proved",
   "theorems": [
    "Conch.C35_simple_command",
    "Conch.C35_assignments_only",
    "Conch.C35_assignment_iff"
   ],
   "note": ""
  },
  {
   "property": "C36",
   "status": "partial",
   "theorems": [
    "Conch.C36_no_empty_groups",
    "Conch.C36_no_empty_groups_inside_partial",
    "Conch.C36_no_empty_groups_without_function_partial"
   ],
   "note": "No group the parser's own methods accept is empty, and inside a program every group except the body of `function f (...)` is non-empty (all of them if the word `function` is not in the input: C36_no_empty_groups_without_function_partial; for the trees see C48); that exception is finding 6 (C21_empty_subshell)."
  },
  {
   "property": "C37",
   "status": "proved",
   "theorems": [
    "Conch.C37_probe_consumes_nothing"
   ],
   "note": ""
  },
  {
   "property": "C38",
   "status": "proved",
   "theorems": [
    "Conch.C38_core_builders_agree",
    "Conch.C38_string_types_agree"
   ],
   "note": ""
  },
  {
   "property": "C39",
   "status": "proved",
   "theorems": [
    "Conch.C39_round_trip",
    "Conch.C39_text_determines_trees",
    "Conch.C39_word_round_trip",
    "Conch.C39_expansion_round_trip"
   ],
   "note": ""
  },
  {
   "property": "C40",
   "status": "partial",
   "theorems": [
    "Conch.C40_message_points_into_source_partial",
    "Conch.C40_reported_token_in_part",
    "Conch.C40_reported_token_in_input",
    "Conch.C40_unmatched_is_opener",
    "Conch.C40_reported_token_is_there_partial",
    "Conch.C40_reported_token_in_source_partial",
    "Conch.C40_brace_group_reports_blanks"
   ],
   "note": "For all inputs: the token is in the input (or whitespace) and is at its position in a part of the input as it is read. At its position in the source for the inputs named under C18 (otherwise false, see C18), and for brace_group when it is not called before blanks (there it is false: C40_brace_group_reports_blanks)."
  },
  {
   "property": "C41",
   "status": "partial",
   "theorems": [
    "Conch.C41_incomplete_error_in_parts",
    "Conch.C41_incomplete_error_sound_partial",
    "Conch.C41_incomplete_error_in_source_partial",
    "Conch.C41_heredoc_reports_keyword_before_command"
   ],
   "note": "For all inputs: the word is at the first position and the keyword is not at the second one, in parts of the input as it is read. In one part, one after the other: for inputs without here-documents. In the source: without backticks too. With here-documents it is false of the code: C41_heredoc_reports_keyword_before_command."
  },
  {
   "property": "C42",
   "status": "proved",
   "theorems": [
    "Conch.C42_method_local",
    "Conch.C42_method_local_heredoc",
    "Conch.C42_command_local",
    "Conch.C42_command_local_heredoc",
    "Conch.C42_scripts_concatenate",
    "Conch.C42_heredoc_scripts_concatenate",
    "Conch.C42_commands_unique",
    "Conch.C42_conditions_needed"
   ],
   "note": ""
  },
  {
   "property": "C43",
   "status": "proved",
   "theorems": [
    "Conch.C43_message_tells_error",
    "Conch.C43_messages_of_methods",
    "Conch.C43_custom",
    "Conch.C43_one_line",
    "Conch.C43_positions_shown",
    "Conch.C43_incomplete_shown",
    "Conch.C43_token_shown",
    "Conch.C43_examples"
   ],
   "note": "Proved for all errors: messages are equal iff the reports are, positions and token texts are shown. The one-line claim holds for all sources and histories with the stated exception (`${` newline: C43_examples). C40_message_points_into_source_partial: that the shown line and column are those of the token in the source, for the inputs of C40."
  },
  {
   "property": "C44",
   "status": "proved",
   "theorems": [
    "Conch.C44_forwarded_builder",
    "Conch.C44_forwarded_iterator"
   ],
   "note": ""
  },
  {
   "property": "C45",
   "status": "proved",
   "theorems": [
    "Conch.C45_lexer_tokens",
    "Conch.C45_lexer_within_line",
    "Conch.C45_lexer_newline",
    "Conch.C45_within_line",
    "Conch.C45_line_done",
    "Conch.C45_session",
    "Conch.C45_session_chars",
    "Conch.C45_error_reads_next_line"
   ],
   "note": "For commands that consume no here-document operator. Errors are another matter: C45_error_reads_next_line (after `!` the parser looks at the first token of the next line before it rejects the newline). The lexer is modelled a second time with its Peekable iterator of characters (LexStream), proved to yield the same tokens (C45_lexer_tokens)."
  },
  {
   "property": "C46",
   "status": "proved",
   "theorems": [
    "Conch.C46_calls_per_token",
    "Conch.C46_calls_bounded",
    "Conch.C46_whole_history",
    "Conch.C46_calls_per_character",
    "Conch.C46_five_for_one_token",
    "Conch.C46_witness_nested",
    "Conch.C46_history_witness"
   ],
   "note": "Counted in the log of a builder that records its calls, for any underlying builder. The constant 5 is met by one token (C46_five_for_one_token)."
  },
  {
   "property": "C47",
   "status": "proved",
   "theorems": [
    "Conch.C47_every_layout_is_read",
    "Conch.C47_layout_changes_nothing",
    "Conch.C47_text_determines_trees",
    "Conch.C47_pid_before_digit",
    "Conch.C47_keyword_before_escaped_newline"
   ],
   "note": "Writes (Layout.lean, HereText.lean) is the specification of the layouts, here-documents included. Outside of it: arithmetic with other blanks than the printed ones, backticks around text with quotes, backslashes, braces or parentheses, and lines with inner tabs after <<-. C47_pid_before_digit and C47_keyword_before_escaped_newline show why two side conditions are there."
  },
  {
   "property": "C48",
   "status": "proved",
   "theorems": [
    "Conch.C48_results_in_normal_form",
    "Conch.C48_trees_in_normal_form",
    "Conch.C48_quoted_literals_beside_others",
    "Conch.C48_empty_function_body"
   ],
   "note": "NfCommand (NormalForm.lean) is the specification. Two exceptions to what one would expect are in it, each with a witness: the body of `function f (<newline>)` is an empty subshell (C48_empty_function_body), and neighbouring literals inside a double quoted part are merged only if the part is the whole word or was joined with another one (C48_quoted_literals_beside_others)."
  },
  {
   "property": "C49",
   "status": "proved",
   "theorems": [
    "Conch.C49_position_moves_forward",
    "Conch.C49_errors_point_forward",
    "Conch.C49_errors_inside_source",
    "Conch.C49_inside_source_after_errors"
   ],
   "note": "C49_errors_inside_source is the statement for source texts (byteLen and number of newlines of the text). After failed calls the positions are still inside the source (C49_inside_source_after_errors)."
  },
  {
   "property": "C50",
   "status": "proved",
   "theorems": [
    "Conch.C50_error_is_final",
    "Conch.C50_other_errors_can_vanish",
    "Conch.C50_needs_complete_lines",
    "Conch.C50_iterator_error_is_final"
   ],
   "note": "For complete_command until the end (C50_error_is_final) and for ParserIterator, whose error kind is all that is seen (C50_iterator_error_is_final). C50_other_errors_can_vanish shows that the condition on the error is needed, C50_needs_complete_lines that complete lines are."
  },
  {
   "property": "C51",
   "status": "partial",
   "theorems": [
    "Conch.C51_rest_is_untouched_partial",
    "Conch.C51_rest_of_source_partial",
    "Conch.C51_goes_on_after_error",
    "Conch.C51_error_in_heredoc_loses_script"
   ],
   "note": "Proved for inputs without here-documents. With here-documents it is false of the code: C51_error_in_heredoc_loses_script (after an error in the body of a here-document the parser goes on inside of the body, and the rest of the script is lost)."
  },
  {
   "property": "C52",
   "status": "proved",
   "theorems": [
    "Conch.C52_final_newline",
    "Conch.C52_lines_concatenate",
    "Conch.C52_blocks",
    "Conch.C52_conditions_needed"
   ],
   "note": "C52_final_newline, with C52_lines_concatenate and C52_blocks as consequences; both conditions are needed (C52_conditions_needed)."
  },
  {
   "property": "C53",
   "status": "proved",
   "theorems": [
    "Conch.C53_whole_of_parse",
    "Conch.C53_whole_of_heredoc",
    "Conch.C53_whole_parses",
    "Conch.C53_sequence",
    "Conch.C53_subshell",
    "Conch.C53_braces",
    "Conch.C53_loop",
    "Conch.C53_if",
    "Conch.C53_command",
    "Conch.C53_quoted_word",
    "Conch.C53_name_word",
    "Conch.C53_substitution",
    "Conch.C53_function",
    "Conch.C53_for_args",
    "Conch.C53_for",
    "Conch.C53_case",
    "Conch.C53_conditions_needed"
   ],
   "note": "What a whole script is: Spec.Whole, met by every text that parses and has no here-documents (C53_whole_of_parse) and by texts with closed here-documents (C53_whole_of_heredoc); words: Spec.WholeWord. One theorem per construct; the conditions are needed (C53_conditions_needed)."
  },
  {
   "property": "C54",
   "status": "proved",
   "theorems": [
    "Conch.C54_no_text_twice",
    "Conch.C54_count",
    "Conch.C54_text_in_order",
    "Conch.C54_command",
    "Conch.C54_word",
    "Conch.C54_script",
    "Conch.C54_order_needs_no_heredoc",
    "Conch.C54_assigned_variable_twice"
   ],
   "note": "The text of a tree: Spec.Txt (TextSpec.lean). Numbers (positional parameters, file descriptors, arithmetic literals) are no text. The exception for compound assignments and the need for the condition on the order have witnesses (C54_assigned_variable_twice, C54_order_needs_no_heredoc)."
  },
  {
   "property": "C55",
   "status": "proved",
   "theorems": [
    "Conch.C55_backticks",
    "Conch.C55_same_as_dollar",
    "Conch.C55_tokens_not_text"
   ],
   "note": "`C55_backticks` is an equivalence for every text `t`, every way `p` of writing it between backticks (`Spec.Ticked`, seven rules) in which quotes, parentheses and braces are closed (`Spec.Spans`) and every list of commands: the word is the substitution of `cs` exactly if `t` alone parses to `cs`. `C55_same_as_dollar` adds that `$(t)` gives the same word (texts without `<<`, not ending in a backslash, not starting with a parenthesis, C53). Shown on a text with an inner substitution in backticks. `C55_tokens_not_text` shows what the rules exclude: `\\$1` and `\\\\&&` between backticks (finding 36)."
  },
  {
   "property": "C56",
   "status": "proved",
   "theorems": [
    "Conch.C56_command",
    "Conch.C56_same_shape",
    "Conch.C56_both_accepted",
    "Conch.C56_conditions_needed"
   ],
   "note": "`C56_command` is about any two parsers whose unread tokens are alike (`Spec.Alike`, four rules): what one accepts as the next command the other accepts, as the same tree with the texts erased (`Spec.skeleton`), and what is left is alike again. `C56_same_shape` and `C56_both_accepted` are about whole source texts. Proved by induction over the grammar (C31) for the builder that forgets texts (C38). Shown on a command with quotes, arithmetic, a descriptor, backticks and a default; `C56_conditions_needed` shows that here-documents, keywords and numbers must be excluded."
  },
  {
   "property": "C57",
   "status": "proved",
   "theorems": [
    "Conch.C57_quote_removal_any_builder",
    "Conch.C57_quote_removal",
    "Conch.C57_command_line",
    "Conch.C57_one_reading"
   ],
   "note": "`Spec.Written cc is p` (six rules) says how the text `p` writes the sequence `is` of characters (quoted or not), active characters and parameters; `Spec.DqWritten` (five rules) does so between double quotes. `C57_quote_removal`: one word, the same whatever follows, with `wordItems w = is`. `C57_command_line`: a line of such words is one command with these words. `C57_one_reading`: no text writes two words. Not covered by the relation (so not claimed): an escaped newline within a word (finding 13) or in double quotes, a lone `$`, substitutions (C39, C47, C53, C55 are about them). Generalises C24 and C25. Shown on a word that mixes all forms."
  },
  {
   "property": "C58",
   "status": "proved",
   "theorems": [
    "Conch.C58_bottom_up",
    "Conch.C58_used_once",
    "Conch.C58_no_command",
    "Conch.C58_case"
   ],
   "note": "`Spec.Postfix st es st'` (two rules) is the stack discipline; `Spec.args`, `Spec.result`, `Spec.returned` list the builder values in the arguments of a call, its result, and what a method returns, in source order (including the commands inside words that are not built yet). `C58_bottom_up` is about the log of the recording builder `Logged B` for an arbitrary builder `B` (`C20_recording_is_transparent`: recording changes nothing). Methods: all with a production of the grammar (C31); the others (peeking, reserved words, arithmetic) return no builder values; `command_group_internal` with delimiters the parser itself never passes is not covered. Failing runs are not covered. `C58_case`: 32 calls with numbered values."
  },
  {
   "property": "C59",
   "status": "proved",
   "theorems": [
    "Conch.C59_nothing_lost",
    "Conch.C59_script",
    "Conch.C59_for_comment_is_lost",
    "Conch.C59_delimiter_is_lost"
   ],
   "note": "Given.lean: a builder that collects every string it is given. C59_nothing_lost for every public method, C59_script for whole scripts; C59_for_comment_is_lost and C59_delimiter_is_lost show that the excepted cases do lose text."
  },
  {
   "property": "C60",
   "status": "proved",
   "theorems": [
    "Conch.C60_success_is_replay",
    "Conch.C60_failure_is_the_builders",
    "Conch.C60_any_builder_replays",
    "Conch.C60_replay_deterministic",
    "Conch.C60_result_deterministic",
    "Conch.C60_calls_made",
    "Conch.C60_fails_alike",
    "Conch.C60_script",
    "Conch.C60_script_success",
    "Conch.C60_case"
   ],
   "note": "C60_success_is_replay: whenever a method succeeds with any builder (which may fail elsewhere), its calls, result and state are the replay (Spec.Replay: every number replaced by what the call of that number returned) of the recording builder's record; C60_script_success for whole scripts; C60_any_builder_replays, C60_script, C60_calls_made: builders that never fail succeed whenever the recorder does; C60_failure_is_the_builders, C60_fails_alike: failures agree or are the builder's own; C60_replay_deterministic, C60_result_deterministic: the record determines everything."
  },
  {
   "property": "C61",
   "status": "proved",
   "theorems": [
    "Conch.C61_line_tail",
    "Conch.C61_last_line",
    "Conch.C61_blocks",
    "Conch.C61_case",
    "Conch.C61_conditions_needed"
   ],
   "note": "C61_line_tail: with and without the blanks and comment, whatever lines follow; C61_last_line: at the end of input; C61_blocks: files of blocks with comments; C61_conditions_needed: the blank before # is needed, and that no backslash is before it. For texts without << (the rest of a here-document's line is C47/C30)."
  },
  {
   "property": "C62",
   "status": "proved",
   "theorems": [
    "Conch.C62_and",
    "Conch.C62_or",
    "Conch.C62_pipeline_list",
    "Conch.C62_command_pipeline",
    "Conch.C62_pipe",
    "Conch.C62_not",
    "Conch.C62_semi",
    "Conch.C62_amp",
    "Conch.C62_list_script",
    "Conch.C62_precedence",
    "Conch.C62_conditions_needed",
    "Conch.C62_function_subshell_redirection"
   ],
   "note": "C62_command_pipeline, C62_not, C62_pipe, C62_pipeline_list, C62_and, C62_or, C62_semi, C62_amp, C62_list_script: each operator for all operands; C62_precedence: combined; C62_conditions_needed, C62_function_subshell_redirection: witnesses, among them a defect of `function f (..)`. For texts without << whose parts neither begin nor end with blanks."
  },
  {
   "property": "C63",
   "status": "proved",
   "theorems": [
    "Conch.C63_word",
    "Conch.C63_args",
    "Conch.C63_prefix",
    "Conch.C63_redirect",
    "Conch.C63_conditions_needed"
   ],
   "note": "C63_word, C63_args (any number of words and redirections), C63_prefix (assignments and redirections before the name), C63_redirect (all kinds of commands): for all texts without << that neither begin nor end with blanks; C63_conditions_needed: witnesses for the conditions."
  },
  {
   "property": "C64",
   "status": "proved",
   "theorems": [
    "Conch.C64_word",
    "Conch.C64_line",
    "Conch.C64_job",
    "Conch.C64_subshell",
    "Conch.C64_braces",
    "Conch.C64_function",
    "Conch.C64_text_word",
    "Conch.C64_substitution",
    "Conch.C64_loop",
    "Conch.C64_if",
    "Conch.C64_for_args",
    "Conch.C64_for",
    "Conch.C64_case",
    "Conch.C64_nested",
    "Conch.C64_conditions_needed"
   ],
   "note": "C64_word (words as commands), C64_line, C64_job (lists as scripts), C64_subshell, C64_braces, C64_loop, C64_if, C64_for, C64_for_args, C64_case, C64_function (scripts as commands), C64_substitution, C64_text_word (scripts as words): for all parts whose text has no <<; C64_nested: a nested program with arbitrary parts; C64_conditions_needed: witnesses for the conditions of C64_word."
  },
  {
   "property": "C65",
   "status": "proved",
   "theorems": [
    "Conch.C65_tokens_within_lines",
    "Conch.C65_line_by_line",
    "Conch.C65_newline_separates",
    "Conch.C65_newlines_count",
    "Conch.C65_blanks_separate",
    "Conch.C65_separators"
   ],
   "note": "C65_line_by_line (split the tokens at Newline = lex the split lines), C65_newline_separates, C65_tokens_within_lines, C65_newlines_count; C65_separators: exactly which characters separate in every context; C65_blanks_separate."
  },
  {
   "property": "C66",
   "status": "proved",
   "theorems": [
    "Conch.C66_word",
    "Conch.C66_whole",
    "Conch.C66_command_line",
    "Conch.C66_one_reading",
    "Conch.C66_every_expression"
   ],
   "note": "C66_word: Woven cc bs p -> the word method reads p as a word whose bits are exactly bs, whatever follows; C66_whole, C66_command_line for words in scripts; C66_one_reading: the text determines the bits; C66_every_expression: every expression of C39 can be substituted. SubstText: $(script), backticks, $((expression)), $(( )), ${#parameter}. Example: a here-document script in double quotes and a script in backticks in one word."
  }
 ]
}