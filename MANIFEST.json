{
 "claims": [
  {
   "property": "C01",
   "status": "proved",
   "theorems": [
    "Lol.C01_tokenize_terminates",
    "Lol.C01_bound_irrelevant"
   ],
   "note": "Fuel model; theorem shows length+1 rounds always suffice and larger bounds change nothing."
  },
  {
   "property": "C02",
   "status": "proved",
   "theorems": [
    "Lol.C02_no_panic_on_ascii"
   ],
   "note": ""
  },
  {
   "property": "C03",
   "status": "partial",
   "theorems": [
    "Lol.C03_panics_iff",
    "Lol.C03_not_total",
    "Lol.C03_no_panic_partial"
   ],
   "note": "False as asked: C03_not_total refutes it, C03_panics_iff gives the exact panic condition, C03_no_panic_partial the part that holds."
  },
  {
   "property": "C04",
   "status": "proved",
   "theorems": [
    "Lol.C04_tokens_tile_source",
    "Lol.C04_ranges_ordered"
   ],
   "note": ""
  },
  {
   "property": "C05",
   "status": "proved",
   "theorems": [
    "Lol.C05_offsets_exact"
   ],
   "note": ""
  },
  {
   "property": "C06",
   "status": "proved",
   "theorems": [
    "Lol.C06_lexeme_spells_type",
    "Lol.C06_non_ascii_string"
   ],
   "note": "The source text under the range is related to the type by the separate relation Spells; C06_non_ascii_string shows how non-ASCII strings break the payload."
  },
  {
   "property": "C07",
   "status": "partial",
   "theorems": [
    "Lol.C07_line_column_partial",
    "Lol.C07_not_general",
    "Lol.C07_exact"
   ],
   "note": "False as asked when a token contains a newline (C07_not_general); C07_line_column_partial is the part that holds, C07_exact says what line and column are in every case."
  },
  {
   "property": "C08",
   "status": "proved",
   "theorems": [
    "Lol.C08_no_i32_overflow"
   ],
   "note": ""
  },
  {
   "property": "C09",
   "status": "proved",
   "theorems": [
    "Lol.C09_position_order"
   ],
   "note": ""
  },
  {
   "property": "C10",
   "status": "proved",
   "theorems": [
    "Lol.C10_keyword_first_match",
    "Lol.C10_longest_match"
   ],
   "note": ""
  },
  {
   "property": "C11",
   "status": "partial",
   "theorems": [
    "Lol.C11_never_emitted",
    "Lol.C11_others_emitted",
    "Lol.C11_not_all"
   ],
   "note": "False as asked: C11_not_all refutes it; the six never-emitted keywords are proved never emitted, all others are proved emitted."
  },
  {
   "property": "C12",
   "status": "proved",
   "theorems": [
    "Lol.C12_identifier_iff",
    "Lol.C12_identifier_range"
   ],
   "note": ""
  },
  {
   "property": "C13",
   "status": "proved",
   "theorems": [
    "Lol.C13_int_iff",
    "Lol.C13_int_range"
   ],
   "note": ""
  },
  {
   "property": "C14",
   "status": "partial",
   "theorems": [
    "Lol.C14_number_at_end",
    "Lol.C14_digits_alone",
    "Lol.C14_not_general",
    "Lol.C14_number_before_char_partial"
   ],
   "note": "False as asked: C14_not_general refutes it, C14_number_at_end and C14_digits_alone describe what happens at the end of the source; C14_number_before_char_partial is the part that holds."
  },
  {
   "property": "C15",
   "status": "proved",
   "theorems": [
    "Lol.C15_closed_or_open",
    "Lol.C15_string_closed",
    "Lol.C15_string_open"
   ],
   "note": ""
  },
  {
   "property": "C16",
   "status": "proved",
   "theorems": [
    "Lol.C16_single_line_comment",
    "Lol.C16_comment_tokens"
   ],
   "note": ""
  },
  {
   "property": "C17",
   "status": "proved",
   "theorems": [
    "Lol.C17_multi_line_comment",
    "Lol.C17_error_iff",
    "Lol.C17_error_range_end"
   ],
   "note": ""
  },
  {
   "property": "C18",
   "status": "proved",
   "theorems": [
    "Lol.C18_position_independent",
    "Lol.C18_leading_whitespace",
    "Lol.C18_types_unchanged"
   ],
   "note": ""
  },
  {
   "property": "C19",
   "status": "proved",
   "theorems": [
    "Lol.C19_punctuation",
    "Lol.C19_no_question_mark",
    "Lol.C19_question_symbol",
    "Lol.C19_symbol_one_char"
   ],
   "note": ""
  },
  {
   "property": "C20",
   "status": "proved",
   "theorems": [
    "Lol.C20_terminates",
    "Lol.C20_bound_irrelevant"
   ],
   "note": ""
  },
  {
   "property": "C21",
   "status": "partial",
   "theorems": [
    "Lol.C21_only_two_panics",
    "Lol.C21_returns_partial",
    "Lol.C21_panics",
    "Lol.C21_access_panics"
   ],
   "note": "False as asked: C21_panics and C21_access_panics refute it, C21_only_two_panics describes the panics; C21_returns_partial is the part that holds."
  },
  {
   "property": "C22",
   "status": "proved",
   "theorems": [
    "Lol.C22_tokens_sublist"
   ],
   "note": ""
  },
  {
   "property": "C23",
   "status": "proved",
   "theorems": [
    "Lol.C23_statements_only"
   ],
   "note": ""
  },
  {
   "property": "C24",
   "status": "proved",
   "theorems": [
    "Lol.C24_statements",
    "Lol.C24_lossless",
    "Lol.C24_no_separators",
    "Lol.C24_joined",
    "Lol.C24_separated",
    "Lol.C24_no_empty"
   ],
   "note": ""
  },
  {
   "property": "C25",
   "status": "proved",
   "theorems": [
    "Lol.C25_peek_next",
    "Lol.C25_peek_peek",
    "Lol.C25_peek_invisible",
    "Lol.C25_next_if",
    "Lol.C25_next_if_token_type"
   ],
   "note": ""
  },
  {
   "property": "C26",
   "status": "proved",
   "theorems": [
    "Lol.C26_sound"
   ],
   "note": ""
  },
  {
   "property": "C27",
   "status": "proved",
   "theorems": [
    "Lol.C27_complete",
    "Lol.C27_iff",
    "Lol.C27_unambiguous",
    "Lol.C27_toks_injective"
   ],
   "note": ""
  },
  {
   "property": "C28",
   "status": "proved",
   "theorems": [
    "Lol.C28_expression_tokens",
    "Lol.C28_access_tokens",
    "Lol.C28_assignment_tokens"
   ],
   "note": ""
  },
  {
   "property": "C29",
   "status": "proved",
   "theorems": [
    "Lol.C29_expression_range",
    "Lol.C29_access_range",
    "Lol.C29_assignment_range",
    "Lol.C29_source_range"
   ],
   "note": ""
  },
  {
   "property": "C30",
   "status": "proved",
   "theorems": [
    "Lol.C30_binary",
    "Lol.C30_unary",
    "Lol.C30_nary",
    "Lol.C30_accepted",
    "Lol.C30_rejected"
   ],
   "note": ""
  },
  {
   "property": "C31",
   "status": "proved",
   "theorems": [
    "Lol.C31_declaration",
    "Lol.C31_error"
   ],
   "note": "C31_declaration: iff with the three forms of a declaration; C31_error: iff listing every error with the token it names. For the statement alone; C39_flat/C39_first carry it to programs."
  },
  {
   "property": "C32",
   "status": "proved",
   "theorems": [
    "Lol.C32_assignment",
    "Lol.C32_set_slot",
    "Lol.C32_expression",
    "Lol.C32_kinds",
    "Lol.C32_panic"
   ],
   "note": "iff for assignments, slot settings and plain accesses; C32_kinds: nothing else but errors; C32_panic: exactly when the access is followed by something else. For the statement alone; C39 carries it to programs."
  },
  {
   "property": "C33",
   "status": "proved",
   "theorems": [
    "Lol.C33_visible",
    "Lol.C33_gimmeh",
    "Lol.C33_found_yr",
    "Lol.C33_i_iz",
    "Lol.C33_single"
   ],
   "note": "iff for VISIBLE, GIMMEH, FOUND YR, I IZ (a trailing AN before MKAY is accepted by the code and by the grammar), and GTFO, KTHXBYE. For the statement alone; C39 carries it to programs."
  },
  {
   "property": "C34",
   "status": "proved",
   "theorems": [
    "Lol.C34_loop_iff",
    "Lol.C34_loop_anywhere"
   ],
   "note": "At every statement of the program the tree has a loop node iff LoopAt holds; loops inside bodies come from such statements."
  },
  {
   "property": "C35",
   "status": "proved",
   "theorems": [
    "Lol.C35_function_iff",
    "Lol.C35_function_anywhere"
   ],
   "note": "At every statement of the program the tree has a function node iff FunctionAt holds; functions inside bodies come from such statements."
  },
  {
   "property": "C36",
   "status": "proved",
   "theorems": [
    "Lol.C36_conditional_iff",
    "Lol.C36_conditional_anywhere"
   ],
   "note": "At every statement of the program the tree has a conditional iff ConditionalAt holds; conditionals inside bodies come from such statements."
  },
  {
   "property": "C37",
   "status": "proved",
   "theorems": [
    "Lol.C37_switch_iff",
    "Lol.C37_switch_anywhere"
   ],
   "note": "At every statement of the program the tree has a switch iff SwitchAt holds; switches inside bodies come from such statements."
  },
  {
   "property": "C38",
   "status": "proved",
   "theorems": [
    "Lol.C38_error_free_iff"
   ],
   "note": ""
  },
  {
   "property": "C39",
   "status": "proved",
   "theorems": [
    "Lol.C39_flat",
    "Lol.C39_alone",
    "Lol.C39_change",
    "Lol.C39_first"
   ],
   "note": "C39_flat: parse of a flat program is the concatenation of the trees of its statements parsed alone (panics included); C39_alone: every statement can be parsed alone; C39_change: changing one statement changes only its own nodes."
  },
  {
   "property": "C40",
   "status": "proved",
   "theorems": [
    "Lol.C40_leftover",
    "Lol.C40_at_most_two"
   ],
   "note": "C40_leftover: the leftover tokens are reported exactly, right after the node or the error; C40_at_most_two: the converse. For the statement alone; C39 carries it to programs."
  },
  {
   "property": "C41",
   "status": "partial",
   "theorems": [
    "Lol.C41_read_partial",
    "Lol.C41_kept_partial",
    "Lol.C41_grammar_partial",
    "Lol.C41_nodes_partial",
    "Lol.C41_flat_partial",
    "Lol.C41_dropped"
   ],
   "note": "False as stated: C41_dropped gives two witnesses (an empty statement ends the program silently; an error at the end of a loop drops its body). C41_read_partial: every program is read up to an empty statement; what follows it does not matter and leaves no token in the tree, and every statement before it leaves a token in the tree, or is OIC or IF U SAY SO, or belongs to a construct that fails and whose error is in the tree. C41_kept_partial: the same for the statements before the first empty one. C41_flat_partial: in flat programs without empty statements every statement gives one or two nodes. C41_grammar_partial, C41_nodes_partial: in programs without errors nothing before the first empty statement is dropped, at any depth."
  },
  {
   "property": "C42",
   "status": "partial",
   "theorems": [
    "Lol.C42_no_empty_partial",
    "Lol.C42_loop_closed_at_once",
    "Lol.C42_function_closed_at_once",
    "Lol.C42_closed_at_once"
   ],
   "note": "The claim is false: witnesses for every construct, and a closing keyword directly after a header is always the first, erroneous, node of the body. Without empty statements no block of the tree is empty."
  },
  {
   "property": "C43",
   "status": "partial",
   "theorems": [
    "Lol.C43_next_reported",
    "Lol.C43_next_reported_anywhere",
    "Lol.C43_after_empty_partial",
    "Lol.C43_takes_next"
   ],
   "note": "The claim is false: the statement after HAI, a function or a switch is always reported as a whole. After an empty statement parsing goes on normally."
  },
  {
   "property": "C44",
   "status": "proved",
   "theorems": [
    "Lol.C44_loop_iff",
    "Lol.C44_block_iff",
    "Lol.C44_anywhere",
    "Lol.C44_loop_not_closed",
    "Lol.C44_function_not_closed",
    "Lol.C44_not_closed"
   ],
   "note": "Exact: the errors appear iff the construct of the program runs to the end or to an empty statement; syntactic corollaries for constructs whose closing keyword starts no later statement."
  },
  {
   "property": "C45",
   "status": "partial",
   "theorems": [
    "Lol.C45_iter_errors_panics",
    "Lol.C45_search_partial",
    "Lol.C45_counters_partial"
   ],
   "note": "False as asked: C45_iter_errors_panics shows that every first call panics; C45_search_partial describes the search that runs before the panic."
  },
  {
   "property": "C46",
   "status": "proved",
   "theorems": [
    "Lol.C46_error_iff",
    "Lol.C46_ok_iff",
    "Lol.C46_panic_iff",
    "Lol.C46_terminates"
   ],
   "note": ""
  },
  {
   "property": "C47",
   "status": "partial",
   "theorems": [
    "Lol.C47_line_partial",
    "Lol.C47_one_error_partial",
    "Lol.C47_error_free_partial",
    "Lol.C47_own_statement",
    "Lol.C47_comments_matter"
   ],
   "note": "The claim is false (witnesses with an error, a panic, a leftover and HAI). Proved: error-free programs have comments only in HAI statements; a comment that starts a statement is always an error; a line with just a comment, put after a line that is one statement (at any depth), adds one error node there and changes nothing else, positions aside; a program without errors and empty statements gets exactly one error by it."
  },
  {
   "property": "C48",
   "status": "proved",
   "theorems": [
    "Lol.C48_no_noob_type"
   ],
   "note": ""
  },
  {
   "property": "C49",
   "status": "proved",
   "theorems": [
    "Lol.C49_inner_blocks",
    "Lol.C49_source_order",
    "Lol.C49_complete"
   ],
   "note": ""
  },
  {
   "property": "C50",
   "status": "proved",
   "theorems": [
    "Lol.C50_well_formed"
   ],
   "note": ""
  },
  {
   "property": "C51",
   "status": "proved",
   "theorems": [
    "Lol.C51_no_any_of"
   ],
   "note": ""
  },
  {
   "property": "C52",
   "status": "proved",
   "theorems": [
    "Lol.C52_node",
    "Lol.C52_error",
    "Lol.C52_panic",
    "Lol.C52_exactly_one"
   ],
   "note": "C52_node, C52_error, C52_panic: iff against the declarative grammars SimpleG and SimpleFail; C52_exactly_one: they cover every such statement and are unambiguous."
  },
  {
   "property": "C53",
   "status": "proved",
   "theorems": [
    "Lol.C53_tree_iff",
    "Lol.C53_panic_iff",
    "Lol.C53_unique"
   ],
   "note": "Soundness, completeness, totality and determinism of the reading relation."
  },
  {
   "property": "C54",
   "status": "proved",
   "theorems": [
    "Lol.C54_lines",
    "Lol.C54_unquoted"
   ],
   "note": "Composition of runs at line ends; C54_unquoted removes the side condition."
  },
  {
   "property": "C55",
   "status": "proved",
   "theorems": [
    "Lol.C55_replace",
    "Lol.C55_map",
    "Lol.C55_same",
    "Lol.C55_kinds",
    "Lol.C55_panics",
    "Lol.C55_leading_whitespace"
   ],
   "note": "Replacement of tokens commutes with the parser, on token lists (C55_map) and on statements (C55_replace); the parser on kinds (C55_kinds), panics (C55_panics), white space before a source (C55_leading_whitespace)."
  },
  {
   "property": "C56",
   "status": "proved",
   "theorems": [
    "Lol.C56_append",
    "Lol.C56_error_free",
    "Lol.C56_sources",
    "Lol.C56_sources_error_free"
   ],
   "note": "C56_append for parts made of pieces (whole nodes, statements that open no block); C56_error_free for error-free programs; C56_sources and C56_sources_error_free for source texts."
  },
  {
   "property": "C57",
   "status": "proved",
   "theorems": [
    "Lol.C57_tokenize",
    "Lol.C57_text",
    "Lol.C57_statements",
    "Lol.C57_program",
    "Lol.C57_trees"
   ],
   "note": "C57_tokenize for texts, C57_text for their existence, C57_statements and C57_program for statements and trees. Non-ASCII strings and tokens that only occur at the end of a source are outside Writable."
  },
  {
   "property": "C58",
   "status": "proved",
   "theorems": [
    "Lol.C58_type_eq",
    "Lol.C58_range_eq",
    "Lol.C58_token_eq",
    "Lol.C58_across_sources",
    "Lol.C58_error_eq",
    "Lol.C58_display_text",
    "Lol.C58_display",
    "Lol.C58_debug",
    "Lol.C58_range_debug",
    "Lol.C58_token_debug",
    "Lol.C58_debug_source",
    "Lol.C58_display_in_source"
   ],
   "note": "C58_across_sources is the witness that tokens of different sources can be equal without being the same. C58_token_debug holds for every printed form of token types (the derived Debug of TokenType is a parameter)."
  },
  {
   "property": "C59",
   "status": "proved",
   "theorems": [
    "Lol.C59_statements",
    "Lol.C59_print",
    "Lol.C59_trees",
    "Lol.C59_again",
    "Lol.C59_injective",
    "Lol.C59_source"
   ],
   "note": "trees without errors = CompleteTree (iff); printBlock and parse are inverse; source text up to positions"
  },
  {
   "property": "C60",
   "status": "proved",
   "theorems": [
    "Lol.C60_calls",
    "Lol.C60_none",
    "Lol.C60_one",
    "Lol.C60_tight",
    "Lol.C60_least",
    "Lol.C60_source"
   ],
   "note": "Calls counted on the model of the iterator; skipping commas and ellipses inside a call removes tokens and is not counted"
  },
  {
   "property": "C61",
   "status": "proved",
   "theorems": [
    "Lol.C61_errors",
    "Lol.C61_size",
    "Lol.C61_tight",
    "Lol.C61_depth"
   ],
   "note": "The stack of the machine is not modelled"
  },
  {
   "property": "C62",
   "status": "proved",
   "theorems": [
    "Lol.C62_block_eq",
    "Lol.C62_node_eq",
    "Lol.C62_expr_eq",
    "Lol.C62_determined",
    "Lol.C62_equivalence",
    "Lol.C62_same_source",
    "Lol.C62_places",
    "Lol.C62_across_sources"
   ],
   "note": "C62_block_eq and its like hold for every comparison of tokens; same_source and places are about the == of tokens, which is reflexive on the tokens of a source because no float of a source is NaN (C66)."
  },
  {
   "property": "C63",
   "status": "proved",
   "theorems": [
    "Lol.C63_statements",
    "Lol.C63_tokens",
    "Lol.C63_parse",
    "Lol.C63_lines"
   ],
   "note": "For every comparison of tokens that tells kinds (and, for whole token lists, start lines) apart; the == of tokens is one."
  },
  {
   "property": "C64",
   "status": "proved",
   "theorems": [
    "Lol.C64_type",
    "Lol.C64_type_iff",
    "Lol.C64_value",
    "Lol.C64_value_parse",
    "Lol.C64_value_noob",
    "Lol.C64_value_source",
    "Lol.C64_no_noob_type",
    "Lol.C64_statements",
    "Lol.C64_own_lines",
    "Lol.C64_division_lost"
   ],
   "note": "Conversions that no other code of the crate calls, and the statement iterator made from statements."
  },
  {
   "property": "C65",
   "status": "proved",
   "theorems": [
    "Lol.C65_layout",
    "Lol.C65_tokens",
    "Lol.C65_single_space",
    "Lol.C65_at_end",
    "Lol.C65_parse",
    "Lol.C65_program",
    "Lol.C65_trees",
    "Lol.C65_line_break"
   ],
   "note": "Single spaces, ends of texts and new line breaks are shown to make a difference by concrete texts."
  },
  {
   "property": "C66",
   "status": "proved",
   "theorems": [
    "Lol.C66_type_eq",
    "Lol.C66_equivalence",
    "Lol.C66_value",
    "Lol.C66_token",
    "Lol.C66_not_nan",
    "Lol.C66_eq_refl",
    "Lol.C66_monotone",
    "Lol.C66_same_number",
    "Lol.C66_exact",
    "Lol.C66_every_value",
    "Lol.C66_eq_iff"
   ],
   "note": "The algorithm of the standard library is trusted to give the nearest f32, as documented; everything else follows from this."
  },
  {
   "property": "C67",
   "status": "proved",
   "theorems": [
    "Lol.C67_image",
    "Lol.C67_writable",
    "Lol.C67_after_digit"
   ],
   "note": "Strings that are not ASCII are excluded: the bytes left over after them are read as tokens again."
  },
  {
   "property": "C68",
   "status": "proved",
   "theorems": [
    "Lol.C68_change",
    "Lol.C68_there",
    "Lol.C68_panic",
    "Lol.C68_up_to"
   ],
   "note": "For the changed statement the nodes are given by the two cases of Own; that tokens of a statement can be taken by the statement before it, or be reported where OIC was expected, is what the code does (Misread)."
  },
  {
   "property": "C69",
   "status": "proved",
   "theorems": [
    "Lol.C69_says",
    "Lol.C69_statement",
    "Lol.C69_never",
    "Lol.C69_missing_r",
    "Lol.C69_missing_has_a"
   ],
   "note": "Which of several errors is reported first, and that each is reported whenever its situation occurs, is C53 and C54; here the other direction is stated for whole trees, readable error by error."
  },
  {
   "property": "C70",
   "status": "proved",
   "theorems": [
    "Lol.C70_same",
    "Lol.C70_more",
    "Lol.C70_enough",
    "Lol.C70_loops",
    "Lol.C70_tree",
    "Lol.C70_exact",
    "Lol.C70_unbounded",
    "Lol.C70_next"
   ],
   "note": "The size of a frame and the calls between two of the counted calls (a bounded number) are not modelled."
  },
  {
   "property": "C71",
   "status": "proved",
   "theorems": [
    "Lol.C71_same",
    "Lol.C71_linear",
    "Lol.C71_bound",
    "Lol.C71_all",
    "Lol.C71_quadratic",
    "Lol.C71_not_linear"
   ],
   "note": "The counter is part of the model: see the comment in Verif/Lexer/Cost.lean for what is counted (find is taken to be linear, copying is not counted)."
  },
  {
   "property": "C72",
   "status": "proved",
   "theorems": [
    "Lol.C72_tokens",
    "Lol.C72_newline",
    "Lol.C72_statement",
    "Lol.C72_alone",
    "Lol.C72_flat",
    "Lol.C72_inside"
   ],
   "note": "C72_tokens: parts of the token list; C72_statement, C72_alone: statements; C72_flat, C72_inside: their nodes in the tree of the program; C72_newline: why the newline is needed."
  },
  {
   "property": "C73",
   "status": "proved",
   "theorems": [
    "Lol.C73_words",
    "Lol.C73_other",
    "Lol.C73_used",
    "Lol.C73_carriage_return",
    "Lol.C73_windows",
    "Lol.C73_line_ends"
   ],
   "note": "C73_words, C73_other: the tokens of programs without errors; C73_used: exactly which keywords have a use; C73_carriage_return, C73_windows, C73_line_ends: Windows line ends."
  },
  {
   "property": "C74",
   "status": "proved",
   "theorems": [
    "Lol.C74_cut",
    "Lol.C74_panics",
    "Lol.C74_only_wide",
    "Lol.C74_right_iff",
    "Lol.C74_new_string"
   ],
   "note": ""
  },
  {
   "property": "C75",
   "status": "proved",
   "theorems": [
    "Lol.C75_segment",
    "Lol.C75_access_segment",
    "Lol.C75_expression",
    "Lol.C75_access",
    "Lol.C75_assignment"
   ],
   "note": "Strings must be ASCII and closed and symbols no part of a number: otherwise the text is read differently out of its place (C72, C74)."
  },
  {
   "property": "C76",
   "status": "proved",
   "theorems": [
    "Lol.C76_kept",
    "Lol.C76_mem",
    "Lol.C76_all",
    "Lol.C76_markers",
    "Lol.C76_lost"
   ],
   "note": "For token lists parsed without errors: the statements read and the tree have the same tokens but for markers, AN and MKAY; without ellipses this covers the whole token list; markers are in no tree without HAI; each keyword is missing in the tree of some program."
  },
  {
   "property": "C77",
   "status": "proved",
   "theorems": [
    "Lol.C77_line",
    "Lol.C77_fail",
    "Lol.C77_error_free"
   ],
   "note": "Props/EditLine.lean. The text before the line must be complete lines (LinesOf), the two lines must be single statements that start with no keyword of a block (OneStatement). Positions are left out of the comparison since they change after the line."
  },
  {
   "property": "C78",
   "status": "proved",
   "theorems": [
    "Lol.C78_body",
    "Lol.C78_part",
    "Lol.C78_text",
    "Lol.C78_in_loop",
    "Lol.C78_in_function",
    "Lol.C78_in_conditional"
   ],
   "note": "Every block of every tree; texts only for sources without empty statements and with movable tokens (closed ASCII strings); the converse for error-free programs."
  },
  {
   "property": "C79",
   "status": "proved",
   "theorems": [
    "Lol.C79_tree",
    "Lol.C79_panic",
    "Lol.C79_text",
    "Lol.C79_text_panic"
   ],
   "note": "tree, panic, for token lists and for source texts"
  },
  {
   "property": "C80",
   "status": "proved",
   "theorems": [
    "Lol.C80_replace",
    "Lol.C80_there",
    "Lol.C80_panic",
    "Lol.C80_lines",
    "Lol.C80_lines_there",
    "Lol.C80_no_fail",
    "Lol.C80_errors",
    "Lol.C80_error_free"
   ],
   "note": "Both for token lists, up to any replacement of tokens that keeps their kinds, and for source texts, up to positions. 'Only there' includes the case that the tree does not change because the statement is not reached (an empty statement ends the program before it) or is dropped with a construct in error; C80_there and C80_lines_there exclude the first. A statement whose tokens are not read as a statement (Misread) gives the same errors as in C68."
  },
  {
   "property": "C81",
   "status": "proved",
   "theorems": [
    "Lol.C81_where",
    "Lol.C81_safe",
    "Lol.C81_alone",
    "Lol.C81_text",
    "Lol.C81_skipped"
   ],
   "note": "C81_where: the statement that is the cause; C81_safe: no statement panics alone, then the program is parsed; C81_skipped: the converse is false."
  },
  {
   "property": "C82",
   "status": "proved",
   "theorems": [
    "Lol.C82_tokens",
    "Lol.C82_program",
    "Lol.C82_trees",
    "Lol.C82_capitals"
   ],
   "note": "C82_tokens, C82_program, C82_trees; C82_capitals shows why the new names may not be in capital letters."
  },
  {
   "property": "C83",
   "status": "proved",
   "theorems": [
    "Lol.C83_statements",
    "Lol.C83_lines",
    "Lol.C83_tree",
    "Lol.C83_hidden"
   ],
   "note": "Completion by closers for statements and for source lines; the tree of a program cut off; the converse refuted by a witness."
  },
  {
   "property": "C84",
   "status": "proved",
   "theorems": [
    "Lol.C84_before",
    "Lol.C84_nine",
    "Lol.C84_digits",
    "Lol.C84_after",
    "Lol.C84_edit"
   ],
   "note": "Tokens before a change, after it, and both; the number 9 is shown to be necessary, and digits are shown to have no bound."
  },
  {
   "property": "C85",
   "status": "proved",
   "theorems": [
    "Lol.C85_begin",
    "Lol.C85_count",
    "Lol.C85_lines",
    "Lol.C85_tight",
    "Lol.C85_exact"
   ],
   "note": "C85_begin: first tokens; C85_count: the two bounds; C85_lines: bound in the text; C85_tight: reached for every size; C85_exact: the equation for programs without errors."
  },
  {
   "property": "C86",
   "status": "proved",
   "theorems": [
    "Lol.C86_joiners",
    "Lol.C86_exact",
    "Lol.C86_tokens",
    "Lol.C86_trees",
    "Lol.C86_gaps",
    "Lol.C86_short",
    "Lol.C86_again",
    "Lol.C86_canonical"
   ],
   "note": "every gap in one character, same tokens and tree; the list of joining words is exact"
  },
  {
   "property": "C87",
   "status": "proved",
   "theorems": [
    "Lol.C87_kinds",
    "Lol.C87_one_test",
    "Lol.C87_text"
   ],
   "note": "Closed, TakesStatement, Finished and EndsUnclosed are stated with stmt and parse only; C56 is the case of pieces without errors."
  },
  {
   "property": "C88",
   "status": "proved",
   "theorems": [
    "Lol.C88_cast",
    "Lol.C88_wrapping",
    "Lol.C88_wrapping_tree",
    "Lol.C88_builds",
    "Lol.C88_checked",
    "Lol.C88_small",
    "Lol.C88_blanks",
    "Lol.C88_long_comment",
    "Lol.C88_index"
   ],
   "note": "The tokenizer is modelled a second time with i32 counters and both overflow behaviours. C88_small: equal to the unbounded model below 2^31-1 bytes, tokens and tree. C88_wrapping, C88_wrapping_tree: modulo 2^32 without checks, below 2^32 characters. C88_builds, C88_checked: with checks, an overflow panic exactly when a position does not fit, as long as no lexeme has 2^31 bytes. C88_blanks, C88_long_comment, C88_index: the bounds are sharp. C88_cast: what the cast does."
  },
  {
   "property": "C89",
   "status": "proved",
   "theorems": [
    "Lol.C89_tokenize",
    "Lol.C89_unique",
    "Lol.C89_next",
    "Lol.C89_whole"
   ],
   "note": "Both directions for every outcome; the specification relations are in Lexer/Spec.lean, Lexer/RunSpec.lean and the parser's reading relations."
  },
  {
   "property": "C90",
   "status": "proved",
   "theorems": [
    "Lol.C90_tokens",
    "Lol.C90_error",
    "Lol.C90_flat",
    "Lol.C90_empty_line"
   ],
   "note": "C90_tokens: the tokens with Windows line ends, line by line (crlf, lineTypes, endLine, crlfType in CrlfSpec). C90_error: same outcome. C90_flat: an error for each such line; flat programs only, because a failed block reports one error for all its lines."
  },
  {
   "property": "C91",
   "status": "proved",
   "theorems": [
    "Lol.C91_tokens",
    "Lol.C91_tree"
   ],
   "note": "C91_tokens, C91_tree: subsequence of the source; lengths in characters and bytes."
  },
  {
   "property": "C92",
   "status": "proved",
   "theorems": [
    "Lol.C92_tokens",
    "Lol.C92_tree",
    "Lol.C92_error",
    "Lol.C92_panic",
    "Lol.C92_exceptions"
   ],
   "note": "C92_tokens, C92_tree, C92_error, C92_panic; C92_exceptions: witnesses for the two conditions."
  },
  {
   "property": "C93",
   "status": "proved",
   "theorems": [
    "Lol.C93_listed",
    "Lol.C93_one_line",
    "Lol.C93_in_order"
   ],
   "note": "The list of the errors: exactly the error nodes at all depths, in source order, without overlap; on one line when there is no ellipsis."
  },
  {
   "property": "C94",
   "status": "proved",
   "theorems": [
    "Lol.C94_comma",
    "Lol.C94_newline",
    "Lol.C94_leading",
    "Lol.C94_first"
   ],
   "note": "Both directions, and a comma before all other tokens (C94_leading, C94_first); the exceptions (comment, ellipsis before the comma, ellipsis after a first comma) are shown by examples."
  },
  {
   "property": "C95",
   "status": "proved",
   "theorems": [
    "Lol.C95_tokens",
    "Lol.C95_text",
    "Lol.C95_comma",
    "Lol.C95_undo",
    "Lol.C95_undo_joins"
   ],
   "note": "Token lists and texts; C95_comma shows that the comma has to be left out."
  },
  {
   "property": "C96",
   "status": "proved",
   "theorems": [
    "Lol.C96_an",
    "Lol.C96_an_same",
    "Lol.C96_mkay"
   ],
   "note": "C96_an and C96_mkay: the words left out of the statements of an error-free program; C96_an_same: two programs that differ only in such ANs."
  },
  {
   "property": "C97",
   "status": "proved",
   "theorems": [
    "Lol.C97_put_in",
    "Lol.C97_iff"
   ],
   "note": "C97_put_in: closed expressions put in place of value tokens keep an error-free program error-free and the tree is the substituted one. C97_iff: if the expressions do not end with a variable access, the program is error-free exactly if the substituted one is."
  },
  {
   "property": "C98",
   "status": "proved",
   "theorems": [
    "Lol.C98_replace",
    "Lol.C98_roles",
    "Lol.C98_panics",
    "Lol.C98_errors"
   ],
   "note": "For all programs, errors and panics included. TIL and WILE are left out: the tree does not hold their tokens; NOOB is left out of the types because it is a literal too."
  },
  {
   "property": "C99",
   "status": "proved",
   "theorems": [
    "Lol.C99_tokens",
    "Lol.C99_program",
    "Lol.C99_trees",
    "Lol.C99_only"
   ],
   "note": "Strings of the text must be ASCII, as in C82. C99_only shows that the list of placeable keywords is complete."
  },
  {
   "property": "C100",
   "status": "proved",
   "theorems": [
    "Lol.C100_tokens",
    "Lol.C100_space_stays",
    "Lol.C100_an",
    "Lol.C100_mkay"
   ],
   "note": "C100_tokens is on the tokens; C100_an and C100_mkay on the trees; C100_space_stays shows that the white space must stay."
  },
  {
   "property": "C101",
   "status": "proved",
   "theorems": [
    "Lol.C101_put_in",
    "Lol.C101_iff"
   ],
   "note": "Both directions for all source texts cut into pieces of white space and lexemes. White space on both sides has to keep the lexemes apart (a single space after a word that no keyword has inside, or any other white space); that this is needed is shown by example."
  },
  {
   "property": "C102",
   "status": "proved",
   "theorems": [
    "Lol.C102_insert",
    "Lol.C102_there",
    "Lol.C102_errors",
    "Lol.C102_error_free"
   ],
   "note": "C102_insert: the tree with the program inserted; C102_there: its nodes are there when no statement of the source is empty; C102_errors: the list of errors stays; C102_error_free: errors with it iff without it."
  },
  {
   "property": "C103",
   "status": "proved",
   "theorems": [
    "Lol.C103_exchange",
    "Lol.C103_there",
    "Lol.C103_iff",
    "Lol.C103_before",
    "Lol.C103_after",
    "Lol.C103_swap",
    "Lol.C103_move"
   ],
   "note": "C103_exchange: exchanging a program for another in an error-free source; C103_there: the trees differ in its nodes when no statement is empty; C103_iff: acceptance does not depend on the program; C103_before, C103_after: inserting and deleting; C103_swap, C103_move: swapping two programs and moving one."
  },
  {
   "property": "C104",
   "status": "proved",
   "theorems": [
    "Lol.C104_delete",
    "Lol.C104_delete_lines",
    "Lol.C104_iff",
    "Lol.C104_lines_iff",
    "Lol.C104_exchange",
    "Lol.C104_panic",
    "Lol.C104_lines_panic"
   ],
   "note": "For any source, also with errors: a program without errors, or plain statements in error or not, after a plain statement can be deleted (C104_delete, C104_delete_lines); trees and panics with and without it agree, the panics at the same place in the code (C104_iff, C104_lines_iff, C104_panic, C104_lines_panic); exchange keeps the errors (C104_exchange)."
  },
  {
   "property": "C105",
   "status": "proved",
   "theorems": [
    "Lol.C105_loop",
    "Lol.C105_conditional",
    "Lol.C105_both",
    "Lol.C105_into_loop",
    "Lol.C105_loop_iff",
    "Lol.C105_into_conditional",
    "Lol.C105_conditional_iff",
    "Lol.C105_both_iff",
    "Lol.C105_errors"
   ],
   "note": "Loop and conditional around lines: the construct is a program again (C105_loop, C105_conditional, C105_both); in place in sources without errors (C105_into_loop, C105_into_conditional, C105_loop_iff, C105_conditional_iff, C105_both_iff); in sources with errors after a statement (C105_errors)."
  },
  {
   "property": "C106",
   "status": "proved",
   "theorems": [
    "Lol.C106_insert",
    "Lol.C106_there",
    "Lol.C106_errors",
    "Lol.C106_delete",
    "Lol.C106_iff",
    "Lol.C106_panic",
    "Lol.C106_exchange",
    "Lol.C106_of_error_free",
    "Lol.C106_of_statements"
   ],
   "note": "Lines with errors of their own inserted (C106_insert, C106_there, C106_errors) and deleted (C106_delete, C106_iff, C106_panic), exchanged (C106_exchange); the programs of C102 and the statements of C80 are among them (C106_of_error_free, C106_of_statements)."
  },
  {
   "property": "C107",
   "status": "proved",
   "theorems": [
    "Lol.C107_loop",
    "Lol.C107_conditional",
    "Lol.C107_both",
    "Lol.C107_loop_errors",
    "Lol.C107_conditional_errors",
    "Lol.C107_both_errors",
    "Lol.C107_nested",
    "Lol.C107_into_loop",
    "Lol.C107_into_conditional"
   ],
   "note": "Programs with errors as bodies: C107_loop, C107_conditional, C107_both (again as in C106), their errors (C107_loop_errors, C107_conditional_errors, C107_both_errors; to any depth C107_nested), in a source (C107_into_loop, C107_into_conditional)."
  },
  {
   "property": "C108",
   "status": "proved",
   "theorems": [
    "Lol.C108_branches",
    "Lol.C108_errors",
    "Lol.C108_into"
   ],
   "note": "Branches: C108_branches; errors: C108_errors; in a source: C108_into."
  }
 ]
}