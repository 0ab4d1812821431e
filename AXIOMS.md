# Axioms of the property theorems

Written by `tools/axioms.py` from `#print axioms`.  All names are in the namespace `ALint.Props`.

## Classical.choice, Quot.sound, propext (370 theorems)

C01_lines, C02_pipeline, C03_finite_iff, C03_pipeline_never, C04_valid, C04_invalid, C04_cp1252, C04_decodes_partial, C05_ctrl, C07_formats, C07_own, C07_alone, C14_opens, C14_bad, C15_missing_partial, C15_present, C17_bof, C17_eof, C19_muted_iff, C21_recorded, C22_supplied_partial, C23_pattern_accepted_iff, C24_dash_in_pattern, C24_case_in_pattern, C25_literal, C25_pattern_partial, C25_described_accepted, C25_exact_length, C25_violated, C26_literal, C26_pattern_partial, C27_literal_before_pattern, C27_specific_first, C28_canonical_same_meaning_partial, C29_idempotent_partial, C29_is_canonical_partial, C29_hint, C30_same_gives_same_canonical, C30_same_canonical_iff_partial, C30_same_canonical_describes_partial, C31_symmetric, C31_transitive, C31_same_describes, C32_reported, C32_reported_text, C32_curly, C32_square, C32_unique, C32_closed, C32_unclosed, C32_iff, C32_terminates, C33_roundtrip_partial, C36_valid_partial, C36_legal, C36_reported, C36_returns_partial, C36_constructed, C38_balance, C39_determined, C39_exact, C39_each, C39_reported, C39_where, C42_boundary, C43_counts, C43_jump_counts, C43_options, C43_no_options, C44_lookup, C44_total, C44_refines, C44_refines_functions, C45_modules, C45_order, C47_loop, C47_goto_partial, C47_actions_partial, C48_unique, C48_unique_check, C48_kept, C48_dupe, C48_stored, C48_line, C48_count, C49_positive, C49_number, C49_first_next, C49_first_same, C49_next, C50_unique, C50_label, C50_no_label, C50_known, C51_names, C51_lines, C51_special, C51_check, C52_listing, C52_listing_read, C52_priorities_partial, C53_exact, C53_here, C54_acyclic_partial, C54_exact_partial, C55_exact, C55_walk, C56_roundtrip, C57_tells_partial, C57_destination, C57_exact_partial, C57_reading, C57_report_partial, C58_settings, C58_clean, C59_accepted_partial, C59_nothing_else, C59_kept, C59_dialplan_partial, C59_loads, C60_version, C61_rewrite_partial, C61_ends, C62_old_or_new, C64_report, C65_line_partial, C65_file_partial, C67_show, C66_read, C66_read_odbc, C66_located, C66_located_program, C68_recorded_partial, C68_reports, C69_listed, C69_exact_partial, C69_case, C69_identifiers, C69_violated_order, C70_output, C70_needed, C70_needed_function, C70_func_odbc, C71_directive_partial, C72_own_partial, C73_runs, C73_confined, C73_refused, C73_violated_unknown, C73_usage, C74_list, C74_ends, C74_agrees_partial, C74_violated_builtin, C75_determined, C75_gotoif_partial, C75_iftime_partial, C75_gosubif_partial, C75_execif_partial, C75_destinations_partial, C75_violated_execif, C76_silent, C76_plain, C76_set, C76_args, C76_plain_text, C76_args_text, C76_set_text, C76_gotoif, C76_gosubif, C76_execif, C77_understood, C77_silent, C77_printed, C78_applications, C78_functions, C78_accepted, C78_spelling, C78_missing, C78_function_accepted, C78_function_spelling, C78_function_missing, C78_usable, C79_upgrade, C79_order, C84_says, C85_dialplan_check, C85_func_odbc_check, C85_muting, C85_muting_func_odbc, C86_lists, C87_test, C87_untested, C88_generated, C88_all_partial, C89_untouched_partial, C90_includes_refused, C91_said, C91_unique, C91_exact, C91_breaks, C91_regular, C92_set_partial, C92_exact_partial, C92_violated_balance, C93_said_partial, C93_enough_partial, C93_depth_partial, C93_exact_partial, C93_exact_text_partial, C93_unique, C94_says, C94_steps, C94_jump, C94_check, C94_tells, C94_unique, C94_tells_check, C94_files, C95_shows, C95_all, C96_told_unique, C96_order, C96_unique, C96_total, C96_knows, C96_files, C96_check, C96_alone, C97_again_partial, C97_files, C97_rewritten_partial, C97_untouched, C98_dialplan_check, C99_refused, C99_listed, C99_effect, C101_ends, C101_refused, C101_self_include, C102_violated, C102_answered_partial, C102_never, C103_files, C103_show_usage, C103_ident_usage, C103_help, C103_no_other, C103_exact, C103_words, C103_once, C103_settings, C103_check_usage, C103_check_twice, C103_dialplan_check, C103_modules, C103_dialplan_show, C103_ident_scan, C103_odbc_check, C103_annotate, C104_asks, C104_unique, C104_other, C104_history, C104_malformed, C105_page, C105_server_partial, C105_sent, C106_asked, C106_exact, C106_status, C106_options_partial, C106_violated, C107_dialplan_check, C107_func_odbc_check, C107_heading_tells, C107_report_tells, C107_same_report, C107_python_texts, C108_kinds_partial, C109_quote_visible, C109_line_tells, C109_dialplan_check, C110_reading, C110_dialplan, C110_odbc, C110_dialplan_check, C110_modules_show, C110_dialplan_show, C110_ident_scan, C110_func_odbc_check, C110_func_odbc_annotate, C111_line, C111_silent, C111_fine, C111_passed, C112_status, C112_passed, C112_position, C113_says, C113_iff, C113_silent, C113_status, C113_passed, C113_dialplan, C114_before, C114_lines, C114_jumps, C115_same_data, C115_comments, C116_same_data, C116_terminators, C116_dos, C117_inlined, C117_outlined, C118_inserted, C118_removed, C119_moved, C120_spelled_partial, C120_violated, C121_order_partial, C121_violated, C121_violated_spelling, C122_order_partial, C122_violated, C122_violated_again, C123_pieces_partial, C123_divided_partial, C123_joined_partial, C123_violated, C123_violated_comment, C124_down, C124_up, C125_taken, C125_added, C126_taken_partial, C126_added_partial, C126_taken_own_partial, C126_added_own_partial, C126_violated, C126_violated_spelling, C127_inlined, C127_outlined, C127_inserted, C127_removed, C127_down, C127_up, C127_taken, C127_added, C128_moved, C128_distinct, C128_status, C128_dialplan, C129_inserted, C129_removed, C129_inlined, C129_outlined, C129_status, C129_dialplan, C130_taken, C130_added, C130_status_taken, C130_status_added, C130_dialplan_taken, C130_dialplan_added, C131_swapped, C131_status, C131_dialplan, C132_without, C132_status

## Quot.sound, propext (139 theorems)

C01_unique, C02_beginning, C03_terminates_iff, C03_self_include, C03_pipeline_ends, C06_terminator, C08_roundtrip, C09_cases, C09_no_comment, C09_comment, C09_fast_path, C10_messages, C10_data_end, C11_header, C11_assign, C11_blank, C11_other, C11_parts_unique, C11_elements, C12_arrow, C12_equals, C13_violated, C13_single_partial, C14_relative, C14_root_directory, C14_only_includes, C14_beside, C16_delivered, C16_contexts, C16_dialplan, C17_hints, C18_exhaustive, C18_conserved, C19_covers_every_value, C20_exit_status, C20_exit_status_iff_output, C22_printing, C22_files, C23_literal_accepted, C24_dash_in_literal, C24_dash_in_extension, C27_irreflexive, C27_transitive, C27_trichotomy, C32_plain, C33_violated_tail, C34_text, C34_string, C34_compact, C35_rejoin_partial, C35_unlimited_partial, C35_limited_partial, C37_occurrences, C37_lines, C37_complete, C37_exact_partial, C37_violated, C40_lossless, C40_strings, C40_some, C41_roundtrip, C42_plain, C42_removal, C44_outcome, C44_unknown, C46_background, C47_violated_hang, C47_gosub, C52_grouped, C54_violated_cycle, C55_at_most_one, C59_violated_case, C59_file, C62_failed, C63_words, C63_lines, C64_independent_partial, C66_located_files, C66_located_odbc, C69_symmetric, C69_order_partial, C69_once, C69_exit, C69_violated_missed, C70_exit, C70_program, C71_assignment, C71_header, C71_other, C76_goto, C76_gosub, C76_iftime, C79_more, C80_lossless, C80_comment_partial, C80_nothing_partial, C80_open_partial, C81_groups, C81_unfold, C82_wiped_partial, C82_exact_partial, C82_violated_config, C83_ordinary, C83_check, C85_messages, C85_silent, C86_program, C87_ignore, C88_names, C89_violated_execif, C89_violated_other, C90_answered, C95_silent, C95_semicolon, C98_shown, C98_printable, C98_read_back, C98_cut, C99_permission, C99_announced, C99_screen, C99_done, C100_nested, C100_room, C100_closed, C101_same, C101_check, C103_parsers, C104_status_partial, C104_violated, C105_no_markup, C105_no_markup_failed, C105_posted, C105_lines, C108_same_partial, C108_messages, C108_func_odbc, C109_quote_tells, C111_elem

## No axioms (6 theorems)

C21_reset_keeps_printed, C79_applications, C79_functions, C88_violated, C91_special, C92_special

## propext (91 theorems)

C02_expansion, C02_unique, C04_violated, C12_not_header, C14_absolute, C14_no_directory, C15_violated, C17_layout_exists, C18_grouping, C22_violated_label, C22_violated_dynamic, C23_empty_rejected, C24_leading_dash, C25_raises, C26_violated, C28_violated_rejected, C28_violated_underscore, C28_violated_non_ascii, C29_violated_bracket, C29_violated_idempotent, C30_violated, C31_reflexive, C31_implied_by_equality, C33_no_colons, C33_violated_zeros, C33_violated_empty, C33_violated_paren, C34_iter, C35_violated, C36_violated_type, C36_violated_digit, C47_violated_goto, C47_aligned, C47_gotoif_partial, C52_violated_order, C55_unknown, C57_violated_general, C57_violated_reopened, C57_violated_noComma, C57_violated_label, C57_violated_digits, C57_violated_pattern, C57_violated_app, C57_violated_hang, C57_violated_bytes, C57_violated_nul, C61_violated_link, C62_sequence, C63_words_unique, C64_violated_leak, C64_violated_failure, C64_violated_spelling, C65_violated_comma, C65_violated_semicolon, C65_violated_linefeed, C65_violated_escape, C65_violated_cp1252, C65_violated_meaning, C68_violated_slice, C71_violated_quote, C72_nested, C72_violated_missed, C72_violated_spurious, C75_violated_execif_file, C75_violated_nameless, C80_cases, C80_violated_double, C80_violated_single, C81_violated_include, C82_violated_jumps, C82_violated_general, C87_failing, C87_alone, C87_suite, C92_violated_inside, C92_violated_crash, C93_described, C93_described_all, C93_violated_twice, C93_violated_old, C97_violated_again, C97_violated_links, C97_violated_twice, C97_violated_names, C101_unique, C102_others, C105_unique, C105_escaped, C105_violated_leak, C108_violated, C108_violated_kinds
