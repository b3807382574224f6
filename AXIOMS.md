# Axioms of the property theorems

Output of `#print axioms` for every theorem named in MANIFEST.json (namespace `Lol`), grouped by the answer.

## none

`C25_peek_next`, `C25_peek_peek`

## propext

`C03_not_total`, `C06_non_ascii_string`, `C07_not_general`, `C11_others_emitted`, `C21_panics`, `C29_access_range`, `C30_rejected`, `C41_dropped`, `C42_closed_at_once`, `C43_after_empty_partial`, `C45_iter_errors_panics`, `C46_error_iff`, `C46_ok_iff`, `C46_panic_iff`, `C47_comments_matter`, `C58_across_sources`, `C60_none`, `C62_expr_eq`, `C64_type`, `C64_value`, `C64_value_parse`, `C64_value_noob`, `C64_division_lost`, `C65_single_space`, `C65_at_end`, `C65_line_break`, `C66_eq_refl`, `C70_next`, `C73_line_ends`, `C76_lost`, `C82_capitals`, `C86_again`, `C86_canonical`, `C90_empty_line`, `C92_exceptions`, `C93_listed`, `C95_comma`, `C95_undo_joins`, `C99_only`, `C100_space_stays`

## Quot.sound, propext

`C15_closed_or_open`, `C24_lossless`, `C24_no_separators`, `C24_joined`, `C24_separated`, `C24_no_empty`, `C25_next_if_token_type`, `C27_unambiguous`, `C27_toks_injective`, `C28_expression_tokens`, `C28_access_tokens`, `C28_assignment_tokens`, `C29_expression_range`, `C29_assignment_range`, `C45_search_partial`, `C45_counters_partial`, `C58_type_eq`, `C58_error_eq`, `C59_statements`, `C61_errors`, `C62_block_eq`, `C62_node_eq`, `C62_determined`, `C62_equivalence`, `C62_across_sources`, `C64_type_iff`, `C66_type_eq`, `C66_eq_iff`, `C69_missing_r`, `C69_missing_has_a`, `C71_same`, `C71_all`, `C72_newline`, `C84_nine`, `C86_joiners`, `C86_exact`, `C86_gaps`, `C86_short`, `C88_builds`, `C88_index`

## Classical.choice, Quot.sound, propext

`C01_tokenize_terminates`, `C01_bound_irrelevant`, `C02_no_panic_on_ascii`, `C03_panics_iff`, `C03_no_panic_partial`, `C04_tokens_tile_source`, `C04_ranges_ordered`, `C05_offsets_exact`, `C06_lexeme_spells_type`, `C07_line_column_partial`, `C07_exact`, `C08_no_i32_overflow`, `C09_position_order`, `C10_keyword_first_match`, `C10_longest_match`, `C11_never_emitted`, `C11_not_all`, `C12_identifier_iff`, `C12_identifier_range`, `C13_int_iff`, `C13_int_range`, `C14_number_at_end`, `C14_digits_alone`, `C14_not_general`, `C14_number_before_char_partial`, `C15_string_closed`, `C15_string_open`, `C16_single_line_comment`, `C16_comment_tokens`, `C17_multi_line_comment`, `C17_error_iff`, `C17_error_range_end`, `C18_position_independent`, `C18_leading_whitespace`, `C18_types_unchanged`, `C19_punctuation`, `C19_no_question_mark`, `C19_question_symbol`, `C19_symbol_one_char`, `C20_terminates`, `C20_bound_irrelevant`, `C21_only_two_panics`, `C21_returns_partial`, `C21_access_panics`, `C22_tokens_sublist`, `C23_statements_only`, `C24_statements`, `C25_peek_invisible`, `C25_next_if`, `C26_sound`, `C27_complete`, `C27_iff`, `C29_source_range`, `C30_binary`, `C30_unary`, `C30_nary`, `C30_accepted`, `C31_declaration`, `C31_error`, `C32_assignment`, `C32_set_slot`, `C32_expression`, `C32_kinds`, `C32_panic`, `C33_visible`, `C33_gimmeh`, `C33_found_yr`, `C33_i_iz`, `C33_single`, `C34_loop_iff`, `C34_loop_anywhere`, `C35_function_iff`, `C35_function_anywhere`, `C36_conditional_iff`, `C36_conditional_anywhere`, `C37_switch_iff`, `C37_switch_anywhere`, `C38_error_free_iff`, `C39_flat`, `C39_alone`, `C39_change`, `C39_first`, `C40_leftover`, `C40_at_most_two`, `C41_read_partial`, `C41_kept_partial`, `C41_grammar_partial`, `C41_nodes_partial`, `C41_flat_partial`, `C42_no_empty_partial`, `C42_loop_closed_at_once`, `C42_function_closed_at_once`, `C43_next_reported`, `C43_next_reported_anywhere`, `C43_takes_next`, `C44_loop_iff`, `C44_block_iff`, `C44_anywhere`, `C44_loop_not_closed`, `C44_function_not_closed`, `C44_not_closed`, `C46_terminates`, `C47_line_partial`, `C47_one_error_partial`, `C47_error_free_partial`, `C47_own_statement`, `C48_no_noob_type`, `C49_inner_blocks`, `C49_source_order`, `C49_complete`, `C50_well_formed`, `C51_no_any_of`, `C52_node`, `C52_error`, `C52_panic`, `C52_exactly_one`, `C53_tree_iff`, `C53_panic_iff`, `C53_unique`, `C54_lines`, `C54_unquoted`, `C55_replace`, `C55_map`, `C55_same`, `C55_kinds`, `C55_panics`, `C55_leading_whitespace`, `C56_append`, `C56_error_free`, `C56_sources`, `C56_sources_error_free`, `C57_tokenize`, `C57_text`, `C57_statements`, `C57_program`, `C57_trees`, `C58_range_eq`, `C58_token_eq`, `C58_display_text`, `C58_display`, `C58_debug`, `C58_range_debug`, `C58_token_debug`, `C58_debug_source`, `C58_display_in_source`, `C59_print`, `C59_trees`, `C59_again`, `C59_injective`, `C59_source`, `C60_calls`, `C60_one`, `C60_tight`, `C60_least`, `C60_source`, `C61_size`, `C61_tight`, `C61_depth`, `C62_same_source`, `C62_places`, `C63_statements`, `C63_tokens`, `C63_parse`, `C63_lines`, `C64_value_source`, `C64_no_noob_type`, `C64_statements`, `C64_own_lines`, `C65_layout`, `C65_tokens`, `C65_parse`, `C65_program`, `C65_trees`, `C66_equivalence`, `C66_value`, `C66_token`, `C66_not_nan`, `C66_monotone`, `C66_same_number`, `C66_exact`, `C66_every_value`, `C67_image`, `C67_writable`, `C67_after_digit`, `C68_change`, `C68_there`, `C68_panic`, `C68_up_to`, `C69_says`, `C69_statement`, `C69_never`, `C70_same`, `C70_more`, `C70_enough`, `C70_loops`, `C70_tree`, `C70_exact`, `C70_unbounded`, `C71_linear`, `C71_bound`, `C71_quadratic`, `C71_not_linear`, `C72_tokens`, `C72_statement`, `C72_alone`, `C72_flat`, `C72_inside`, `C73_words`, `C73_other`, `C73_used`, `C73_carriage_return`, `C73_windows`, `C74_cut`, `C74_panics`, `C74_only_wide`, `C74_right_iff`, `C74_new_string`, `C75_segment`, `C75_access_segment`, `C75_expression`, `C75_access`, `C75_assignment`, `C76_kept`, `C76_mem`, `C76_all`, `C76_markers`, `C77_line`, `C77_fail`, `C77_error_free`, `C78_body`, `C78_part`, `C78_text`, `C78_in_loop`, `C78_in_function`, `C78_in_conditional`, `C79_tree`, `C79_panic`, `C79_text`, `C79_text_panic`, `C80_replace`, `C80_there`, `C80_panic`, `C80_lines`, `C80_lines_there`, `C80_no_fail`, `C80_errors`, `C80_error_free`, `C81_where`, `C81_safe`, `C81_alone`, `C81_text`, `C81_skipped`, `C82_tokens`, `C82_program`, `C82_trees`, `C83_statements`, `C83_lines`, `C83_tree`, `C83_hidden`, `C84_before`, `C84_digits`, `C84_after`, `C84_edit`, `C85_begin`, `C85_count`, `C85_lines`, `C85_tight`, `C85_exact`, `C86_tokens`, `C86_trees`, `C87_kinds`, `C87_one_test`, `C87_text`, `C88_cast`, `C88_wrapping`, `C88_wrapping_tree`, `C88_checked`, `C88_small`, `C88_blanks`, `C88_long_comment`, `C89_tokenize`, `C89_unique`, `C89_next`, `C89_whole`, `C90_tokens`, `C90_error`, `C90_flat`, `C91_tokens`, `C91_tree`, `C92_tokens`, `C92_tree`, `C92_error`, `C92_panic`, `C93_one_line`, `C93_in_order`, `C94_comma`, `C94_newline`, `C94_leading`, `C94_first`, `C95_tokens`, `C95_text`, `C95_undo`, `C96_an`, `C96_an_same`, `C96_mkay`, `C97_put_in`, `C97_iff`, `C98_replace`, `C98_roles`, `C98_panics`, `C98_errors`, `C99_tokens`, `C99_program`, `C99_trees`, `C100_tokens`, `C100_an`, `C100_mkay`, `C101_put_in`, `C101_iff`, `C102_insert`, `C102_there`, `C102_errors`, `C102_error_free`, `C103_exchange`, `C103_there`, `C103_iff`, `C103_before`, `C103_after`, `C103_swap`, `C103_move`, `C104_delete`, `C104_delete_lines`, `C104_iff`, `C104_lines_iff`, `C104_exchange`, `C104_panic`, `C104_lines_panic`, `C105_loop`, `C105_conditional`, `C105_both`, `C105_into_loop`, `C105_loop_iff`, `C105_into_conditional`, `C105_conditional_iff`, `C105_both_iff`, `C105_errors`, `C106_insert`, `C106_there`, `C106_errors`, `C106_delete`, `C106_iff`, `C106_panic`, `C106_exchange`, `C106_of_error_free`, `C106_of_statements`, `C107_loop`, `C107_conditional`, `C107_both`, `C107_loop_errors`, `C107_conditional_errors`, `C107_both_errors`, `C107_nested`, `C107_into_loop`, `C107_into_conditional`, `C108_branches`, `C108_errors`, `C108_into`
