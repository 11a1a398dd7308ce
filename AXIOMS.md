# Axioms of the property theorems

Output of `#print axioms` for every theorem named in `MANIFEST.json`.

| theorem | axioms |
|---|---|
| `Ledger.C01_text_round_trip` | propext, Classical.choice, Quot.sound |
| `Ledger.C01_parse_print_parse` | propext, Classical.choice, Quot.sound |
| `Ledger.C01_value_round_trip` | propext, Classical.choice, Quot.sound |
| `Ledger.C02_convert` | propext, Classical.choice, Quot.sound |
| `Ledger.C02_parse_exact` | propext, Classical.choice, Quot.sound |
| `Ledger.C02_otherwise_none` | propext, Classical.choice, Quot.sound |
| `Ledger.C03_inverse_violated` | propext, Classical.choice, Quot.sound |
| `Ledger.C03_inverse_of_negative_unchanged` | none |
| `Ledger.C03_inverse_partial` | propext, Classical.choice, Quot.sound |
| `Ledger.C04_invert` | propext, Classical.choice, Quot.sound |
| `Ledger.C04_abs` | propext, Classical.choice, Quot.sound |
| `Ledger.C05_add_exact` | propext, Classical.choice, Quot.sound |
| `Ledger.C05_add_different` | none |
| `Ledger.C05_accepted` | propext, Classical.choice, Quot.sound |
| `Ledger.C05_add_overflow` | propext, Classical.choice, Quot.sound |
| `Ledger.C05_add_sound` | propext, Classical.choice, Quot.sound |
| `Ledger.C05_sub` | propext, Classical.choice, Quot.sound |
| `Ledger.C06_mul` | propext, Classical.choice, Quot.sound |
| `Ledger.C06_div` | propext, Classical.choice, Quot.sound |
| `Ledger.C06_div_zero` | propext, Classical.choice, Quot.sound |
| `Ledger.C06_accepted` | propext, Classical.choice, Quot.sound |
| `Ledger.C06_sound` | propext, Classical.choice, Quot.sound |
| `Ledger.C06_refused` | propext, Classical.choice, Quot.sound |
| `Ledger.C06_error` | propext, Classical.choice, Quot.sound |
| `Ledger.C06_div_mul` | propext, Classical.choice, Quot.sound |
| `Ledger.C07_balance_is_sum` | propext, Classical.choice, Quot.sound |
| `Ledger.C07_entry_is_total` | propext, Classical.choice, Quot.sound |
| `Ledger.C07_entries_always` | propext, Quot.sound |
| `Ledger.C08_order_irrelevant` | propext, Classical.choice, Quot.sound |
| `Ledger.C09_subtract_violated` | propext, Classical.choice, Quot.sound |
| `Ledger.C09_subtract_partial` | propext, Classical.choice, Quot.sound |
| `Ledger.C09_undo_partial` | propext, Classical.choice, Quot.sound |
| `Ledger.C09_exactly` | propext, Classical.choice, Quot.sound |
| `Ledger.C10_merge` | propext, Classical.choice, Quot.sound |
| `Ledger.C11_find_or_create` | propext, Quot.sound |
| `Ledger.C11_distinct` | propext, Quot.sound |
| `Ledger.C12_nodes` | propext, Quot.sound |
| `Ledger.C13_direct_price` | propext, Classical.choice, Quot.sound |
| `Ledger.C14_none_iff` | propext, Classical.choice, Quot.sound |
| `Ledger.C14_price` | propext, Classical.choice, Quot.sound |
| `Ledger.C14_outcome` | propext, Classical.choice, Quot.sound |
| `Ledger.C15_moment_violated` | propext, Classical.choice, Quot.sound |
| `Ledger.C15_moment_ignored_violated` | none |
| `Ledger.C15_moment_partial` | propext, Classical.choice, Quot.sound |
| `Ledger.C15_window_exact_partial` | propext, Classical.choice, Quot.sound |
| `Ledger.C16_oldest_leg_violated` | propext, Classical.choice, Quot.sound |
| `Ledger.C16_oldest_leg_partial` | propext, Classical.choice, Quot.sound |
| `Ledger.C16_date_exact_partial` | propext, Classical.choice, Quot.sound |
| `Ledger.C17_exchange` | propext, Classical.choice, Quot.sound |
| `Ledger.C17_rounded` | propext, Classical.choice, Quot.sound |
| `Ledger.C17_basis` | propext, Classical.choice, Quot.sound |
| `Ledger.C18_written_lot_violated` | propext, Classical.choice, Quot.sound |
| `Ledger.C18_written_lot_partial` | propext, Classical.choice, Quot.sound |
| `Ledger.C18_lot_annotation_violated` | propext, Classical.choice, Quot.sound |
| `Ledger.C18_first_wins_violated` | propext, Quot.sound |
| `Ledger.C18_lot_annotation_partial` | propext, Quot.sound |
| `Ledger.C18_stored_exact_partial` | propext, Classical.choice, Quot.sound |
| `Ledger.C19_flag_violated` | propext, Classical.choice, Quot.sound |
| `Ledger.C19_flag_partial` | propext, Quot.sound |
| `Ledger.C19_flag_exact_partial` | propext, Quot.sound |
| `Ledger.C20_registered_found` | propext, Classical.choice, Quot.sound |
| `Ledger.C21_register_idempotent` | propext, Classical.choice, Quot.sound |
| `Ledger.C21_register_existing` | propext, Classical.choice, Quot.sound |
| `Ledger.C21_register_adds` | propext, Classical.choice, Quot.sound |
| `Ledger.C22_lookup_violated` | propext, Classical.choice, Quot.sound |
| `Ledger.C22_lookup_partial` | propext, Classical.choice, Quot.sound |
| `Ledger.C22_lookup_top_partial` | propext, Classical.choice, Quot.sound |
| `Ledger.C23_fullnames_violated` | propext, Classical.choice, Quot.sound |
| `Ledger.C23_fullnames_partial` | propext, Classical.choice, Quot.sound |
| `Ledger.C23_fullnames_exact_partial` | propext, Classical.choice, Quot.sound |
| `Ledger.C23_fullnames_proper_partial` | propext, Classical.choice, Quot.sound |
| `Ledger.C24_flatten_each_once` | propext, Quot.sound |
| `Ledger.C24_flatten_parents_first` | propext, Quot.sound |
| `Ledger.C24_flatten_sorted` | propext, Quot.sound |
| `Ledger.C24_flatten_order_independent` | propext, Quot.sound |
| `Ledger.C24_flatten_registration_order` | propext, Classical.choice, Quot.sound |
| `Ledger.C24_reachable_wf` | propext, Classical.choice, Quot.sound |
| `Ledger.C25_journal_totals` | propext, Classical.choice, Quot.sound |
| `Ledger.C25_total_is_subtree_sum` | propext, Classical.choice, Quot.sound |
| `Ledger.C25_total_of_parent` | propext, Classical.choice, Quot.sound |
| `Ledger.C26_journal_report` | propext, Classical.choice, Quot.sound |
| `Ledger.C26_balance_report` | propext, Classical.choice, Quot.sound |
| `Ledger.C26_balance_report_sound` | propext, Classical.choice, Quot.sound |
| `Ledger.C27_journal_partial` | propext, Classical.choice, Quot.sound |
| `Ledger.C27_whole_violated` | propext, Classical.choice, Quot.sound |
| `Ledger.C27_line_violated` | propext, Classical.choice, Quot.sound |
| `Ledger.C27_line_partial` | propext, Classical.choice, Quot.sound |
| `Ledger.C28_accounts_command` | propext, Classical.choice, Quot.sound |
| `Ledger.C28_accounts_sorted` | propext, Quot.sound |
| `Ledger.C28_accounts_independent` | propext, Quot.sound |
| `Ledger.C29_order_irrelevant` | propext, Classical.choice, Quot.sound |
| `Ledger.C30_exactly` | propext, Classical.choice, Quot.sound |
| `Ledger.C30_balances_violated` | propext, Classical.choice, Quot.sound |
| `Ledger.C30_two_commodities_violated` | propext, Classical.choice, Quot.sound |
| `Ledger.C30_balances_partial` | propext, Classical.choice, Quot.sound |
| `Ledger.C31_blank_violated` | propext, Classical.choice, Quot.sound |
| `Ledger.C31_blank_both_signs` | propext, Classical.choice, Quot.sound |
| `Ledger.C31_blank_partial` | propext, Classical.choice, Quot.sound |
| `Ledger.C32_ambiguous_refused` | propext, Classical.choice, Quot.sound |
| `Ledger.C33_amounts_present` | propext, Classical.choice, Quot.sound |
| `Ledger.C33_journal_complete` | propext, Classical.choice, Quot.sound |
| `Ledger.C34_exactly` | propext, Classical.choice, Quot.sound |
| `Ledger.C34_written_cost_violated` | propext, Classical.choice, Quot.sound |
| `Ledger.C34_text_violated` | propext, Classical.choice, Quot.sound |
| `Ledger.C34_nothing_altered_partial` | propext, Classical.choice, Quot.sound |
| `Ledger.C35_implied_rate_violated` | propext, Classical.choice, Quot.sound |
| `Ledger.C35_implied_rate_partial` | propext, Classical.choice, Quot.sound |
| `Ledger.C36_costs_create_prices` | propext, Classical.choice, Quot.sound |
| `Ledger.C36_each_cost` | propext, Classical.choice, Quot.sound |
| `Ledger.C37_exactly` | propext, Classical.choice, Quot.sound |
| `Ledger.C37_same_commodity_violated` | propext, Classical.choice, Quot.sound |
| `Ledger.C37_text_violated` | propext, Classical.choice, Quot.sound |
| `Ledger.C37_same_commodity_partial` | propext, Classical.choice, Quot.sound |
| `Ledger.C38_exactly` | propext, Classical.choice, Quot.sound |
| `Ledger.C38_cost_sign_violated` | propext, Classical.choice, Quot.sound |
| `Ledger.C38_cost_sign_partial` | propext, Classical.choice, Quot.sound |
| `Ledger.C38_booked_sign_partial` | propext, Classical.choice, Quot.sound |
| `Ledger.C39_grand_total` | propext, Classical.choice, Quot.sound |
| `Ledger.C40_parse_keeps` | propext, Classical.choice, Quot.sound |
| `Ledger.C40_file_order` | propext, Classical.choice, Quot.sound |
| `Ledger.C41_last_line` | propext, Classical.choice, Quot.sound |
| `Ledger.C41_closed_partial` | propext, Classical.choice, Quot.sound |
| `Ledger.C41_header_violated` | propext, Classical.choice, Quot.sound |
| `Ledger.C41_return_violated` | propext, Classical.choice, Quot.sound |
| `Ledger.C41_unterminated_violated` | propext, Classical.choice, Quot.sound |
| `Ledger.C41_files_like_one_partial` | propext, Classical.choice, Quot.sound |
| `Ledger.C41_texts_like_one_partial` | propext, Classical.choice, Quot.sound |
| `Ledger.C41_run_like_one_partial` | propext, Classical.choice, Quot.sound |
| `Ledger.C42_ignored_lines` | propext, Classical.choice, Quot.sound |
| `Ledger.C42_ignored_texts` | propext, Classical.choice, Quot.sound |
| `Ledger.C43_each_posting_once` | propext, Classical.choice, Quot.sound |
| `Ledger.C43_accounts_exist` | propext, Classical.choice, Quot.sound |
| `Ledger.C44_count_violated` | propext, Classical.choice, Quot.sound |
| `Ledger.C44_count_partial` | propext, Classical.choice, Quot.sound |
| `Ledger.C45_notes_violated` | propext, Classical.choice, Quot.sound |
| `Ledger.C45_notes_partial` | propext, Classical.choice, Quot.sound |
| `Ledger.C45_single_notes_partial` | propext, Classical.choice, Quot.sound |
| `Ledger.C46_header_round_trip` | propext, Classical.choice, Quot.sound |
| `Ledger.C47_posting_round_trip` | propext, Classical.choice, Quot.sound |
| `Ledger.C47_account_round_trip` | propext, Quot.sound |
| `Ledger.C48_symbol_position` | propext, Quot.sound |
| `Ledger.C49_always_violated` | propext, Classical.choice, Quot.sound |
| `Ledger.C49_spacing_violated` | propext, Classical.choice, Quot.sound |
| `Ledger.C49_first_lost_violated` | propext, Classical.choice, Quot.sound |
| `Ledger.C49_spacing_partial` | propext, Classical.choice, Quot.sound |
| `Ledger.C50_unreadable_violated` | propext, Classical.choice, Quot.sound |
| `Ledger.C50_unreadable_cost_violated` | propext, Classical.choice, Quot.sound |
| `Ledger.C50_never_fails_violated` | propext, Quot.sound |
| `Ledger.C50_readable_partial` | propext, Quot.sound |
| `Ledger.C51_exactly` | propext, Classical.choice, Quot.sound |
| `Ledger.C51_trailing_violated` | propext, Classical.choice, Quot.sound |
| `Ledger.C51_two_spaces_violated` | propext, Classical.choice, Quot.sound |
| `Ledger.C51_trailing_partial` | propext, Classical.choice, Quot.sound |
| `Ledger.C52_semicolon_violated` | propext, Classical.choice, Quot.sound |
| `Ledger.C52_note_violated` | propext, Classical.choice, Quot.sound |
| `Ledger.C52_note_partial` | propext, Classical.choice, Quot.sound |
| `Ledger.C53_dates_exact` | propext, Classical.choice, Quot.sound |
| `Ledger.C53_day_read` | propext, Classical.choice, Quot.sound |
| `Ledger.C53_header_date` | propext, Classical.choice, Quot.sound |
| `Ledger.C53_datetime` | propext, Classical.choice, Quot.sound |
| `Ledger.C53_date_text` | propext, Classical.choice, Quot.sound |
| `Ledger.C54_date_only_violated` | propext, Classical.choice, Quot.sound |
| `Ledger.C54_line_ending_violated` | propext, Classical.choice, Quot.sound |
| `Ledger.C54_date_only_partial` | propext, Classical.choice, Quot.sound |
| `Ledger.C54_exactly` | propext, Classical.choice, Quot.sound |
| `Ledger.C55_price_line` | propext, Quot.sound |
| `Ledger.C55_price_recorded` | propext, Classical.choice, Quot.sound |
| `Ledger.C55_times_exact` | propext, Classical.choice, Quot.sound |
| `Ledger.C55_written_price` | propext, Classical.choice, Quot.sound |
| `Ledger.C55_price_found` | propext, Classical.choice, Quot.sound |
| `Ledger.C55_time_text` | propext, Classical.choice, Quot.sound |
| `Ledger.C56_price_lines_violated` | propext, Classical.choice, Quot.sound |
| `Ledger.C56_price_reached_partial` | propext, Classical.choice, Quot.sound |
| `Ledger.C57_tilde_violated` | propext, Classical.choice, Quot.sound |
| `Ledger.C57_include_in_place_violated` | propext, Classical.choice, Quot.sound |
| `Ledger.C57_missing_file_violated` | propext, Classical.choice, Quot.sound |
| `Ledger.C57_include_in_place_partial` | propext, Classical.choice, Quot.sound |
| `Ledger.C57_text_partial` | propext, Classical.choice, Quot.sound |
| `Ledger.C57_missing_file_partial` | propext, Classical.choice, Quot.sound |
| `Ledger.C57_depth` | propext, Classical.choice, Quot.sound |
| `Ledger.C57_cycle_overflows` | propext, Classical.choice, Quot.sound |
| `Ledger.C58_split` | propext, Classical.choice, Quot.sound |
| `Ledger.C59_dash_violated` | propext, Classical.choice, Quot.sound |
| `Ledger.C59_refused_partial` | propext, Classical.choice, Quot.sound |
| `Ledger.C60_accounts` | propext, Classical.choice, Quot.sound |
| `Ledger.C60_balance` | propext, Classical.choice, Quot.sound |
| `Ledger.C60_refused` | propext, Classical.choice, Quot.sound |
| `Ledger.C60_words_ignored` | propext, Classical.choice, Quot.sound |
| `Ledger.C61_program_violated` | propext, Classical.choice, Quot.sound |
| `Ledger.C61_program_partial` | propext, Classical.choice, Quot.sound |
| `Ledger.C61_exactly` | propext, Classical.choice, Quot.sound |
| `Ledger.C62_exactly` | propext, Classical.choice, Quot.sound |
| `Ledger.C62_references_violated` | propext, Classical.choice, Quot.sound |
| `Ledger.C62_moved_violated` | propext, Quot.sound |
| `Ledger.C62_references_partial` | propext, Classical.choice, Quot.sound |
| `Ledger.C63_commodities_violated` | propext, Quot.sound |
| `Ledger.C63_commodities_text_violated` | propext, Classical.choice, Quot.sound |
| `Ledger.C63_transaction_violated` | propext, Classical.choice, Quot.sound |
| `Ledger.C63_commodities_partial` | propext, Classical.choice, Quot.sound |
| `Ledger.C63_three_commodities_partial` | propext, Classical.choice, Quot.sound |
| `Ledger.C63_accounts_violated` | propext, Classical.choice, Quot.sound |
| `Ledger.C63_accounts_text_violated` | propext, Classical.choice, Quot.sound |
| `Ledger.C63_accounts_partial` | propext, Classical.choice, Quot.sound |
| `Ledger.C64_exactly` | propext, Quot.sound |
| `Ledger.C64_equal_commodities_violated` | propext, Classical.choice, Quot.sound |
| `Ledger.C64_other_pointer_violated` | propext |
| `Ledger.C64_one_pool_partial` | propext, Quot.sound |
| `Ledger.C65_one_per_line` | propext, Classical.choice, Quot.sound |
| `Ledger.C66_ends_violated` | propext |
| `Ledger.C66_debug_violated` | none |
| `Ledger.C66_release_violated` | propext, Quot.sound |
| `Ledger.C66_ends_partial` | propext, Classical.choice, Quot.sound |
| `Ledger.C67_i32_round_trip` | propext, Classical.choice, Quot.sound |
| `Ledger.C67_out_of_range` | propext, Classical.choice, Quot.sound |
| `Ledger.C67_truncates` | propext, Classical.choice, Quot.sound |
| `Ledger.C67_both_sides` | propext, Classical.choice, Quot.sound |
| `Ledger.C68_exactly` | propext, Classical.choice, Quot.sound |
| `Ledger.C68_back_pointer_violated` | propext, Quot.sound |
| `Ledger.C68_back_pointer_partial` | propext, Quot.sound |
| `Ledger.C69_posting_as_written` | propext, Classical.choice, Quot.sound |
| `Ledger.C70_complete_as_written` | propext, Classical.choice, Quot.sound |
| `Ledger.C70_blank_as_written_violated` | propext, Classical.choice, Quot.sound |
| `Ledger.C70_blank_as_written_partial` | propext, Classical.choice, Quot.sound |
| `Ledger.C70_rate_as_written` | propext, Classical.choice, Quot.sound |
| `Ledger.C71_text_as_written_partial` | propext, Classical.choice, Quot.sound |
| `Ledger.C71_complete_text` | propext, Classical.choice, Quot.sound |
| `Ledger.C71_text_balances_partial` | propext, Classical.choice, Quot.sound |
| `Ledger.C71_text_violated` | propext, Classical.choice, Quot.sound |
| `Ledger.C71_lines_unique` | propext, Quot.sound |
| `Ledger.C72_report_as_written_violated` | propext, Classical.choice, Quot.sound |
| `Ledger.C72_report_as_written_partial` | propext, Classical.choice, Quot.sound |
| `Ledger.C72_accounts_as_written_partial` | propext, Classical.choice, Quot.sound |
| `Ledger.C72_command_line_partial` | propext, Classical.choice, Quot.sound |
| `Ledger.C73_balances_agree` | propext, Classical.choice, Quot.sound |
| `Ledger.C73_balances_sums` | propext, Classical.choice, Quot.sound |
| `Ledger.C74_amounts_fine` | propext, Classical.choice, Quot.sound |
| `Ledger.C74_totals_fine` | propext, Classical.choice, Quot.sound |
| `Ledger.C75_comma_report` | propext, Classical.choice, Quot.sound |
| `Ledger.C75_comma_read_back` | propext, Classical.choice, Quot.sound |
| `Ledger.C76_register` | propext, Classical.choice, Quot.sound |
| `Ledger.C76_addresses` | propext, Classical.choice, Quot.sound |
| `Ledger.C76_push` | propext, Classical.choice, Quot.sound |
| `Ledger.C76_same_trees` | propext, Classical.choice, Quot.sound |
| `Ledger.C77_fullname_violated` | propext, Classical.choice, Quot.sound |
| `Ledger.C77_fullname_partial` | propext, Classical.choice, Quot.sound |
| `Ledger.C77_fullname_stays` | propext, Classical.choice, Quot.sound |
| `Ledger.C78_report_violated` | propext, Classical.choice, Quot.sound |
| `Ledger.C78_report_partial` | propext, Classical.choice, Quot.sound |
| `Ledger.C78_same_report_partial` | propext, Classical.choice, Quot.sound |
| `Ledger.C79_words` | propext |
| `Ledger.C79_words_unique` | propext |
| `Ledger.C79_run_command` | propext, Classical.choice, Quot.sound |
| `Ledger.C79_quoted` | propext, Classical.choice, Quot.sound |
| `Ledger.C80_defective_refused` | propext, Classical.choice, Quot.sound |
| `Ledger.C80_only_overflow` | propext, Classical.choice, Quot.sound |
| `Ledger.C80_accepted_iff` | propext, Classical.choice, Quot.sound |
| `Ledger.C81_read_iff` | propext, Classical.choice, Quot.sound |
| `Ledger.C81_outcome` | propext, Classical.choice, Quot.sound |
| `Ledger.C81_report` | propext, Classical.choice, Quot.sound |
| `Ledger.C81_accounts` | propext, Classical.choice, Quot.sound |
| `Ledger.C82_direct_price` | propext, Classical.choice, Quot.sound |
| `Ledger.C82_find_price` | propext, Classical.choice, Quot.sound |
| `Ledger.C82_each_cost` | propext, Classical.choice, Quot.sound |
| `Ledger.C83_total_order` | propext, Classical.choice, Quot.sound |
| `Ledger.C83_report_order` | propext, Classical.choice, Quot.sound |
| `Ledger.C83_order_unique` | propext |
| `Ledger.C84_literals` | propext, Classical.choice, Quot.sound |
| `Ledger.C84_literals_unique` | propext, Quot.sound |
| `Ledger.C84_lines` | propext, Classical.choice, Quot.sound |
| `Ledger.C84_determined` | propext, Classical.choice, Quot.sound |
| `Ledger.C85_null_violated` | propext, Classical.choice, Quot.sound |
| `Ledger.C85_operations` | propext, Quot.sound |
| `Ledger.C85_finalize` | propext, Classical.choice, Quot.sound |
| `Ledger.C85_parse_partial` | propext, Classical.choice, Quot.sound |
| `Ledger.C85_files_partial` | propext, Classical.choice, Quot.sound |
| `Ledger.C85_same_results` | propext, Classical.choice, Quot.sound |
| `Ledger.C86_text` | propext, Classical.choice, Quot.sound |
| `Ledger.C86_run` | propext, Classical.choice, Quot.sound |
| `Ledger.C86_output` | propext, Classical.choice, Quot.sound |
| `Ledger.C87_reading` | propext, Classical.choice, Quot.sound |
| `Ledger.C87_run` | propext, Classical.choice, Quot.sound |
| `Ledger.C87_state_in_order` | propext, Classical.choice, Quot.sound |
| `Ledger.C87_reports` | propext, Classical.choice, Quot.sound |
| `Ledger.C88_one_cause` | propext, Classical.choice, Quot.sound |
| `Ledger.C88_first_fault` | propext, Classical.choice, Quot.sound |
| `Ledger.C88_run` | propext, Classical.choice, Quot.sound |
| `Ledger.C88_run_any_sums` | propext, Classical.choice, Quot.sound |
| `Ledger.C89_journal` | propext, Classical.choice, Quot.sound |
| `Ledger.C89_report` | propext, Classical.choice, Quot.sound |
| `Ledger.C89_program` | propext, Classical.choice, Quot.sound |
| `Ledger.C89_sums` | propext, Classical.choice, Quot.sound |
| `Ledger.C89_only_own` | propext, Classical.choice, Quot.sound |
| `Ledger.C90_line` | propext, Classical.choice, Quot.sound |
| `Ledger.C90_one` | propext, Classical.choice, Quot.sound |
| `Ledger.C90_header_line` | propext, Classical.choice, Quot.sound |
| `Ledger.C90_refused` | propext, Classical.choice, Quot.sound |
| `Ledger.C90_header_refused` | propext, Classical.choice, Quot.sound |
| `Ledger.C90_taken` | propext, Classical.choice, Quot.sound |
| `Ledger.C90_lost_amount` | propext, Classical.choice, Quot.sound |
| `Ledger.C91_top_line` | propext, Classical.choice, Quot.sound |
| `Ledger.C91_one_line` | propext, Classical.choice, Quot.sound |
| `Ledger.C91_price_line` | propext, Classical.choice, Quot.sound |
| `Ledger.C91_price_refused` | propext, Classical.choice, Quot.sound |
| `Ledger.C91_price_one` | propext, Classical.choice, Quot.sound |
| `Ledger.C91_one_text` | propext, Classical.choice, Quot.sound |
| `Ledger.C91_one_run` | propext, Classical.choice, Quot.sound |
| `Ledger.C91_transactions` | propext, Classical.choice, Quot.sound |
| `Ledger.C92_run_any_sums` | propext, Classical.choice, Quot.sound |
| `Ledger.C92_report_any_sums` | propext, Classical.choice, Quot.sound |
| `Ledger.C92_panic` | propext, Classical.choice, Quot.sound |
| `Ledger.C92_outcome` | propext, Classical.choice, Quot.sound |
| `Ledger.C92_report` | propext, Classical.choice, Quot.sound |
| `Ledger.C92_accounts` | propext, Classical.choice, Quot.sound |
| `Ledger.C92_run_panic` | propext, Classical.choice, Quot.sound |
| `Ledger.C92_accounts_panic` | propext, Classical.choice, Quot.sound |
| `Ledger.C92_direct_price` | propext, Classical.choice, Quot.sound |
| `Ledger.C92_find_price` | propext, Classical.choice, Quot.sound |
| `Ledger.C93_exactly` | propext, Classical.choice, Quot.sound |
| `Ledger.C93_line_feed_violated` | propext, Classical.choice, Quot.sound |
| `Ledger.C93_separated_partial` | propext, Classical.choice, Quot.sound |
| `Ledger.C94_refused` | propext, Classical.choice, Quot.sound |
| `Ledger.C94_one` | propext, Classical.choice, Quot.sound |
| `Ledger.C95_one` | propext, Classical.choice, Quot.sound |
| `Ledger.C95_program` | propext, Classical.choice, Quot.sound |
| `Ledger.C96_root_zero` | propext, Classical.choice, Quot.sound |
| `Ledger.C96_books_partial` | propext, Classical.choice, Quot.sound |
| `Ledger.C96_exactly` | propext, Classical.choice, Quot.sound |
| `Ledger.C96_books_violated` | propext, Classical.choice, Quot.sound |
| `Ledger.C97_order_partial` | propext, Classical.choice, Quot.sound |
| `Ledger.C97_text_violated` | propext, Classical.choice, Quot.sound |
| `Ledger.C97_bookings` | propext, Classical.choice, Quot.sound |
| `Ledger.C97_text_partial` | propext, Classical.choice, Quot.sound |
| `Ledger.C98_local` | propext, Classical.choice, Quot.sound |
| `Ledger.C98_elsewhere` | propext, Classical.choice, Quot.sound |
| `Ledger.C99_reading` | propext, Classical.choice, Quot.sound |
| `Ledger.C99_run` | propext, Classical.choice, Quot.sound |
| `Ledger.C99_refused` | propext, Classical.choice, Quot.sound |
| `Ledger.C100_journal` | propext, Classical.choice, Quot.sound |
| `Ledger.C100_files` | propext, Classical.choice, Quot.sound |
| `Ledger.C101_until` | propext, Classical.choice, Quot.sound |
| `Ledger.C101_slim` | propext, Classical.choice, Quot.sound |
| `Ledger.C101_files` | propext, Classical.choice, Quot.sound |
| `Ledger.C101_slim_violated` | propext, Classical.choice, Quot.sound |
| `Ledger.C102_price` | propext, Classical.choice, Quot.sound |
| `Ledger.C102_cost` | propext, Classical.choice, Quot.sound |
| `Ledger.C102_report` | propext, Classical.choice, Quot.sound |
| `Ledger.C102_postings` | propext, Classical.choice, Quot.sound |
| `Ledger.C102_exact` | propext, Classical.choice, Quot.sound |
| `Ledger.C103_journal` | propext, Classical.choice, Quot.sound |
| `Ledger.C103_text` | propext, Classical.choice, Quot.sound |
| `Ledger.C103_exact` | propext, Classical.choice, Quot.sound |
| `Ledger.C104_reading` | propext, Classical.choice, Quot.sound |
| `Ledger.C104_accounts` | propext, Classical.choice, Quot.sound |
| `Ledger.C104_balance` | propext, Classical.choice, Quot.sound |
| `Ledger.C105_any_sums` | propext, Classical.choice, Quot.sound |
| `Ledger.C105_report` | propext, Classical.choice, Quot.sound |
| `Ledger.C105_accounts` | propext, Classical.choice, Quot.sound |
| `Ledger.C105_panic` | propext, Classical.choice, Quot.sound |
| `Ledger.C106_source` | propext, Classical.choice, Quot.sound |
| `Ledger.C106_texts` | propext, Classical.choice, Quot.sound |
| `Ledger.C106_readable` | propext, Classical.choice, Quot.sound |
| `Ledger.C106_outside` | propext, Classical.choice, Quot.sound |
| `Ledger.C106_inside` | propext, Classical.choice, Quot.sound |
| `Ledger.C106_byte_order_mark` | propext, Classical.choice, Quot.sound |
| `Ledger.C106_wide_text` | propext, Classical.choice, Quot.sound |
| `Ledger.C107_comment_violated` | propext, Classical.choice, Quot.sound |
| `Ledger.C107_last_partial` | propext, Classical.choice, Quot.sound |
| `Ledger.C108_refused` | propext, Classical.choice, Quot.sound |
| `Ledger.C108_fault` | propext, Classical.choice, Quot.sound |
| `Ledger.C108_steady` | propext, Classical.choice, Quot.sound |
| `Ledger.C109_endless` | propext, Classical.choice, Quot.sound |
| `Ledger.C109_depth` | propext, Classical.choice, Quot.sound |
| `Ledger.C109_run` | propext, Classical.choice, Quot.sound |
| `Ledger.C109_no_circle` | propext, Classical.choice, Quot.sound |
| `Ledger.C110_text` | propext, Classical.choice, Quot.sound |
| `Ledger.C110_run` | propext, Classical.choice, Quot.sound |
| `Ledger.C110_program` | propext, Classical.choice, Quot.sound |
| `Ledger.C111_direct_price` | propext, Classical.choice, Quot.sound |
| `Ledger.C111_no_price` | propext, Classical.choice, Quot.sound |
| `Ledger.C111_find_price` | propext, Classical.choice, Quot.sound |
| `Ledger.C111_files` | propext, Classical.choice, Quot.sound |
| `Ledger.C112_command` | propext, Classical.choice, Quot.sound |
| `Ledger.C112_slack` | propext, Classical.choice, Quot.sound |
| `Ledger.C112_sum` | propext, Classical.choice, Quot.sound |
| `Ledger.C112_sum_succeeds` | propext, Classical.choice, Quot.sound |
| `Ledger.C112_totals` | propext, Classical.choice, Quot.sound |
| `Ledger.C112_totals_succeed` | propext, Classical.choice, Quot.sound |
| `Ledger.C112_report` | propext, Classical.choice, Quot.sound |
| `Ledger.C112_report_succeeds` | propext, Classical.choice, Quot.sound |
| `Ledger.C112_blank` | propext, Classical.choice, Quot.sound |
| `Ledger.C113_derived` | propext, Classical.choice, Quot.sound |
| `Ledger.C113_text` | propext, Classical.choice, Quot.sound |
| `Ledger.C114_white_space` | propext, Quot.sound |
| `Ledger.C114_digits` | propext, Quot.sound |
| `Ledger.C114_trim` | propext, Quot.sound |
| `Ledger.C115_order` | propext, Classical.choice, Quot.sound |
| `Ledger.C115_equal` | propext, Classical.choice, Quot.sound |
| `Ledger.C115_amounts` | propext, Classical.choice, Quot.sound |
| `Ledger.C115_best_fit` | propext, Classical.choice, Quot.sound |
| `Ledger.C115_results` | propext, Classical.choice, Quot.sound |
| `Ledger.C115_respects` | propext, Classical.choice, Quot.sound |
| `Ledger.C116_parts` | propext, Quot.sound |
| `Ledger.C116_panics` | propext, Quot.sound |
| `Ledger.C116_reads` | propext, Classical.choice, Quot.sound |
| `Ledger.C116_written` | propext, Classical.choice, Quot.sound |
| `Ledger.C117_sums` | propext, Classical.choice, Quot.sound |
| `Ledger.C117_transaction` | propext, Classical.choice, Quot.sound |
| `Ledger.C117_report_violated` | propext, Classical.choice, Quot.sound |
| `Ledger.C117_report_partial` | propext, Classical.choice, Quot.sound |
| `Ledger.C117_shown_violated` | propext, Classical.choice, Quot.sound |
| `Ledger.C118_text` | propext, Classical.choice, Quot.sound |
| `Ledger.C118_report` | propext, Classical.choice, Quot.sound |
| `Ledger.C118_accounts` | propext, Classical.choice, Quot.sound |
| `Ledger.C119_text` | propext, Classical.choice, Quot.sound |
| `Ledger.C119_run` | propext, Classical.choice, Quot.sound |
| `Ledger.C120_text_partial` | propext, Classical.choice, Quot.sound |
| `Ledger.C120_report_partial` | propext, Classical.choice, Quot.sound |
| `Ledger.C120_exactly` | propext, Classical.choice, Quot.sound |
| `Ledger.C120_text_violated` | propext, Classical.choice, Quot.sound |
| `Ledger.C120_sums` | propext, Classical.choice, Quot.sound |
| `Ledger.C121_add` | propext, Classical.choice, Quot.sound |
| `Ledger.C121_accounts` | propext, Classical.choice, Quot.sound |
| `Ledger.C121_twice` | propext, Classical.choice, Quot.sound |
| `Ledger.C122_cancel_partial` | propext, Classical.choice, Quot.sound |
| `Ledger.C122_cancel_violated` | propext, Classical.choice, Quot.sound |
| `Ledger.C122_exactly` | propext, Classical.choice, Quot.sound |
| `Ledger.C122_when` | propext, Classical.choice, Quot.sound |
| `Ledger.C123_names` | propext, Classical.choice, Quot.sound |
| `Ledger.C123_accounts` | propext, Classical.choice, Quot.sound |
| `Ledger.C123_order` | propext, Classical.choice, Quot.sound |
| `Ledger.C124_sums` | propext, Classical.choice, Quot.sound |
| `Ledger.C124_zero` | propext, Classical.choice, Quot.sound |
| `Ledger.C125_text` | propext, Classical.choice, Quot.sound |
| `Ledger.C125_sums` | propext, Classical.choice, Quot.sound |
| `Ledger.C125_accounts` | propext, Classical.choice, Quot.sound |
| `Ledger.C126_times` | propext, Classical.choice, Quot.sound |
| `Ledger.C126_refused` | propext, Classical.choice, Quot.sound |
| `Ledger.C127_split` | propext, Classical.choice, Quot.sound |
| `Ledger.C128_refused` | propext, Classical.choice, Quot.sound |
| `Ledger.C128_lines` | propext, Classical.choice, Quot.sound |
