{
 "claims": [
  {
   "property": "C01",
   "status": "proved",
   "theorems": [
    "Ledger.C01_text_round_trip",
    "Ledger.C01_parse_print_parse",
    "Ledger.C01_value_round_trip"
   ],
   "note": "Proved for every representable quantity that is not a negative zero, hence for all from_str can produce; the value also survives for negative zero."
  },
  {
   "property": "C02",
   "status": "proved",
   "theorems": [
    "Ledger.C02_convert",
    "Ledger.C02_parse_exact",
    "Ledger.C02_otherwise_none"
   ],
   "note": "Characterisation (iff) of from_str by the grammar and the positional value."
  },
  {
   "property": "C03",
   "status": "partial",
   "theorems": [
    "Ledger.C03_inverse_violated",
    "Ledger.C03_inverse_of_negative_unchanged",
    "Ledger.C03_inverse_partial"
   ],
   "note": "False for negative amounts (inverse returns them unchanged): violation proved with a witness and in general; proved for all non-negative amounts."
  },
  {
   "property": "C04",
   "status": "proved",
   "theorems": [
    "Ledger.C04_invert",
    "Ledger.C04_abs"
   ],
   "note": "Proved for all amounts."
  },
  {
   "property": "C05",
   "status": "proved",
   "theorems": [
    "Ledger.C05_add_exact",
    "Ledger.C05_add_different",
    "Ledger.C05_accepted",
    "Ledger.C05_add_overflow",
    "Ledger.C05_add_sound",
    "Ledger.C05_sub"
   ],
   "note": "Proved as stated for +, +=, -= and Amount::add, with the exact condition of success."
  },
  {
   "property": "C06",
   "status": "proved",
   "theorems": [
    "Ledger.C06_mul",
    "Ledger.C06_div",
    "Ledger.C06_div_zero",
    "Ledger.C06_accepted",
    "Ledger.C06_sound",
    "Ledger.C06_refused",
    "Ledger.C06_error",
    "Ledger.C06_div_mul"
   ],
   "note": "Proved as stated for *, *= and /, with the exact condition of success, the kind of the failure and the error bound of rounded results."
  },
  {
   "property": "C07",
   "status": "proved",
   "theorems": [
    "Ledger.C07_balance_is_sum",
    "Ledger.C07_entry_is_total",
    "Ledger.C07_entries_always"
   ],
   "note": "Proved by induction over the list of additions."
  },
  {
   "property": "C08",
   "status": "proved",
   "theorems": [
    "Ledger.C08_order_irrelevant"
   ],
   "note": "Proved for every permutation."
  },
  {
   "property": "C09",
   "status": "partial",
   "theorems": [
    "Ledger.C09_subtract_violated",
    "Ledger.C09_subtract_partial",
    "Ledger.C09_undo_partial",
    "Ledger.C09_exactly"
   ],
   "note": "False for a negative amount in a commodity not present: witness; proved in all other cases, and for subtracting what was just added. Exactly: within the range the claim holds if and only if the amount is not negative or the commodity is there; otherwise the amount is added."
  },
  {
   "property": "C10",
   "status": "proved",
   "theorems": [
    "Ledger.C10_merge"
   ],
   "note": "Proved."
  },
  {
   "property": "C11",
   "status": "proved",
   "theorems": [
    "Ledger.C11_find_or_create",
    "Ledger.C11_distinct"
   ],
   "note": "Proved for every history of pool operations."
  },
  {
   "property": "C12",
   "status": "proved",
   "theorems": [
    "Ledger.C12_nodes"
   ],
   "note": "Proved as an invariant of every history of pool operations."
  },
  {
   "property": "C13",
   "status": "proved",
   "theorems": [
    "Ledger.C13_direct_price"
   ],
   "note": "Proved for every history; the direct price is the latest recording of the pair, the last one among equals."
  },
  {
   "property": "C14",
   "status": "proved",
   "theorems": [
    "Ledger.C14_none_iff",
    "Ledger.C14_price",
    "Ledger.C14_outcome"
   ],
   "note": "Proved for every history, for any path search that meets the contract of petgraph's astar (a shortest path if there is one); an instance of the contract is implemented and verified. C14_outcome covers rounded products and overflow; C14_price says when the rate is exact."
  },
  {
   "property": "C15",
   "status": "partial",
   "theorems": [
    "Ledger.C15_moment_violated",
    "Ledger.C15_moment_ignored_violated",
    "Ledger.C15_moment_partial",
    "Ledger.C15_window_exact_partial"
   ],
   "note": "False: moment and oldest are ignored (violation proved in general and with a witness). Proved: when all recordings lie in the interval the price does too; and exactly when an answer is after the moment or before the oldest date (`C15_window_exact_partial`)."
  },
  {
   "property": "C16",
   "status": "partial",
   "theorems": [
    "Ledger.C16_oldest_leg_violated",
    "Ledger.C16_oldest_leg_partial",
    "Ledger.C16_date_exact_partial"
   ],
   "note": "False when the legs are dated after the clock or there are no older legs (witness). Proved when no leg is dated after the clock value; and in general that the date is that of a single leg, and for more legs the oldest among them and the clock (`C16_date_exact_partial`)."
  },
  {
   "property": "C17",
   "status": "proved",
   "theorems": [
    "Ledger.C17_exchange",
    "Ledger.C17_rounded",
    "Ledger.C17_basis"
   ],
   "note": "C17_exchange: exact where the quotient and the products are representable. C17_rounded: every exchange that succeeds, with the rounding of cost and price, and exactly when no price is proposed."
  },
  {
   "property": "C18",
   "status": "partial",
   "theorems": [
    "Ledger.C18_written_lot_violated",
    "Ledger.C18_written_lot_partial",
    "Ledger.C18_lot_annotation_violated",
    "Ledger.C18_first_wins_violated",
    "Ledger.C18_lot_annotation_partial",
    "Ledger.C18_stored_exact_partial"
   ],
   "note": "False: the first annotation of a symbol wins for ever (witness and general theorem). Proved for the first annotation; and that the stored one is exactly the first one ever looked up with (`C18_stored_exact_partial`)."
  },
  {
   "property": "C19",
   "status": "partial",
   "theorems": [
    "Ledger.C19_flag_violated",
    "Ledger.C19_flag_partial",
    "Ledger.C19_flag_exact_partial"
   ],
   "note": "False for a commodity annotated after its creation (witness). C19_flag_exact_partial says exactly when the flag is set (the first lookup had an annotation) and when an annotation is stored (some lookup had one)."
  },
  {
   "property": "C20",
   "status": "proved",
   "theorems": [
    "Ledger.C20_registered_found"
   ],
   "note": "Proved for every tree a program can have and every later history of registrations and bookings."
  },
  {
   "property": "C21",
   "status": "proved",
   "theorems": [
    "Ledger.C21_register_idempotent",
    "Ledger.C21_register_existing",
    "Ledger.C21_register_adds"
   ],
   "note": "Proved."
  },
  {
   "property": "C22",
   "status": "partial",
   "theorems": [
    "Ledger.C22_lookup_violated",
    "Ledger.C22_lookup_partial",
    "Ledger.C22_lookup_top_partial"
   ],
   "note": "False: a missing account below an existing one panics (witness). Proved: complete characterisation of the outcome of every lookup."
  },
  {
   "property": "C23",
   "status": "partial",
   "theorems": [
    "Ledger.C23_fullnames_violated",
    "Ledger.C23_fullnames_partial",
    "Ledger.C23_fullnames_exact_partial",
    "Ledger.C23_fullnames_proper_partial"
   ],
   "note": "False for names with empty parts, A::B and A:B (witness). Proved for accounts without empty parts; C23_fullnames_exact_partial says exactly which accounts share a full name."
  },
  {
   "property": "C24",
   "status": "proved",
   "theorems": [
    "Ledger.C24_flatten_each_once",
    "Ledger.C24_flatten_parents_first",
    "Ledger.C24_flatten_sorted",
    "Ledger.C24_flatten_order_independent",
    "Ledger.C24_flatten_registration_order",
    "Ledger.C24_reachable_wf"
   ],
   "note": "Proved for every well-formed tree; all trees of a program are."
  },
  {
   "property": "C25",
   "status": "proved",
   "theorems": [
    "Ledger.C25_journal_totals",
    "Ledger.C25_total_is_subtree_sum",
    "Ledger.C25_total_of_parent"
   ],
   "note": "Proved for every tree and journal within the decimal range; outside it see C112."
  },
  {
   "property": "C26",
   "status": "proved",
   "theorems": [
    "Ledger.C26_journal_report",
    "Ledger.C26_balance_report",
    "Ledger.C26_balance_report_sound"
   ],
   "note": "Proved within the decimal range; outside it, whenever all totals exist (and see C112 for the figures then)."
  },
  {
   "property": "C27",
   "status": "partial",
   "theorems": [
    "Ledger.C27_journal_partial",
    "Ledger.C27_whole_violated",
    "Ledger.C27_line_violated",
    "Ledger.C27_line_partial"
   ],
   "note": "False if an entry without commodity is followed by another entry (witness, two journals; C27_whole_violated: for every whole number without commodity followed by a whole number that is not negative, the line is that of another balance). Proved for balances in which only the last entry may be without commodity; for journals no condition on the symbols is needed (C74)."
  },
  {
   "property": "C28",
   "status": "proved",
   "theorems": [
    "Ledger.C28_accounts_command",
    "Ledger.C28_accounts_sorted",
    "Ledger.C28_accounts_independent"
   ],
   "note": "Proved."
  },
  {
   "property": "C29",
   "status": "proved",
   "theorems": [
    "Ledger.C29_order_irrelevant"
   ],
   "note": "Proved for every permutation of the amounts of each account, and independently of how the postings are spread over transactions."
  },
  {
   "property": "C30",
   "status": "partial",
   "theorems": [
    "Ledger.C30_exactly",
    "Ledger.C30_balances_violated",
    "Ledger.C30_two_commodities_violated",
    "Ledger.C30_balances_partial"
   ],
   "note": "False for the code: the sum is never checked (C30_balances_violated: 10 EUR and 20 EUR accepted; C30_two_commodities_violated). C30_exactly: exactly which accepted transactions of a text balance, both directions: without an implied rate, those written to sum to zero and those with a blank posting whose rest is nowhere negative; with an implied rate, no written costs and no rounding, those whose two sums have opposite signs. Missing: implied rates together with written costs, or rounded. C30_balances_partial: the same direction stated for one transaction."
  },
  {
   "property": "C31",
   "status": "partial",
   "theorems": [
    "Ledger.C31_blank_violated",
    "Ledger.C31_blank_both_signs",
    "Ledger.C31_blank_partial"
   ],
   "note": "False for negative sums (C31_blank_violated). C31_blank_partial: accepted and right for non-negative sums, any number of postings. C31_blank_both_signs characterises both signs."
  },
  {
   "property": "C32",
   "status": "proved",
   "theorems": [
    "Ledger.C32_ambiguous_refused"
   ],
   "note": "Proved for every transaction and pool."
  },
  {
   "property": "C33",
   "status": "proved",
   "theorems": [
    "Ledger.C33_amounts_present",
    "Ledger.C33_journal_complete"
   ],
   "note": "Proved for one transaction (finalize)."
  },
  {
   "property": "C34",
   "status": "partial",
   "theorems": [
    "Ledger.C34_exactly",
    "Ledger.C34_written_cost_violated",
    "Ledger.C34_text_violated",
    "Ledger.C34_nothing_altered_partial"
   ],
   "note": "False for written costs: a derived rate replaces them (C34_written_cost_violated, from text C34_text_violated). C34_nothing_altered_partial: everything else is kept. C34_exactly says which costs are replaced: those of the postings in the commodity an implied rate leads from, and no others."
  },
  {
   "property": "C35",
   "status": "partial",
   "theorems": [
    "Ledger.C35_implied_rate_violated",
    "Ledger.C35_implied_rate_partial"
   ],
   "note": "False when a posting has a written cost (C35_implied_rate_violated). C35_implied_rate_partial covers every transaction without written costs, any number of postings."
  },
  {
   "property": "C36",
   "status": "proved",
   "theorems": [
    "Ledger.C36_costs_create_prices",
    "Ledger.C36_each_cost"
   ],
   "note": "Proved for every accepted transaction and every earlier history."
  },
  {
   "property": "C37",
   "status": "partial",
   "theorems": [
    "Ledger.C37_exactly",
    "Ledger.C37_same_commodity_violated",
    "Ledger.C37_text_violated",
    "Ledger.C37_same_commodity_partial"
   ],
   "note": "False when a derived rate replaces the cost (C37_same_commodity_violated). C37_same_commodity_partial covers the other transactions; C37_exactly: nothing else lets such a posting pass."
  },
  {
   "property": "C38",
   "status": "partial",
   "theorems": [
    "Ledger.C38_exactly",
    "Ledger.C38_cost_sign_violated",
    "Ledger.C38_cost_sign_partial",
    "Ledger.C38_booked_sign_partial"
   ],
   "note": "Proved for parse_cost and for the posting that parse_post books. Violated for total costs: the booked cost is positive for a sale. C38_exactly says which costs have the sign of the amount."
  },
  {
   "property": "C39",
   "status": "proved",
   "theorems": [
    "Ledger.C39_grand_total"
   ],
   "note": "For every journal reachable by parsing, registering accounts and pool calls, within the decimal range."
  },
  {
   "property": "C40",
   "status": "proved",
   "theorems": [
    "Ledger.C40_parse_keeps",
    "Ledger.C40_file_order"
   ],
   "note": "Transactions prefix, posting lists prefix, commodities and priced pairs kept (any reachable journal, any source that parses). File order: new transactions match the header lines one to one in order, included files at their place; sources without undecodable lines and without stray carriage returns at line starts."
  },
  {
   "property": "C41",
   "status": "partial",
   "theorems": [
    "Ledger.C41_last_line",
    "Ledger.C41_closed_partial",
    "Ledger.C41_header_violated",
    "Ledger.C41_return_violated",
    "Ledger.C41_unterminated_violated",
    "Ledger.C41_files_like_one_partial",
    "Ledger.C41_texts_like_one_partial",
    "Ledger.C41_run_like_one_partial"
   ],
   "note": "Violated by unterminated last lines of three kinds: header lines without a space (C41_header_violated, whatever precedes and follows), lone carriage returns (C41_return_violated), and price lines (C93). All other unterminated last lines are read as if terminated (C41_last_line), so that reading files one after the other comes to the same as the concatenation (C41_closed_partial). Failures included: for the lines joined by empty lines, for terminated texts, and for whole runs of the program (C41_run_like_one_partial: one -f with the joined text gives what several -f give)."
  },
  {
   "property": "C42",
   "status": "proved",
   "theorems": [
    "Ledger.C42_ignored_lines",
    "Ledger.C42_ignored_texts"
   ],
   "note": "Equality of results (failures included) for insertion of any ignored lines at any point outside transactions; the point is described by the inductive AtTop on the lines before it."
  },
  {
   "property": "C43",
   "status": "proved",
   "theorems": [
    "Ledger.C43_each_posting_once",
    "Ledger.C43_accounts_exist"
   ],
   "note": "For every reachable journal."
  },
  {
   "property": "C44",
   "status": "partial",
   "theorems": [
    "Ledger.C44_count_violated",
    "Ledger.C44_count_partial"
   ],
   "note": "Violated on a second read (witness). Partial: returns the total count; right exactly for a journal without transactions."
  },
  {
   "property": "C45",
   "status": "partial",
   "theorems": [
    "Ledger.C45_notes_violated",
    "Ledger.C45_notes_partial",
    "Ledger.C45_single_notes_partial"
   ],
   "note": "Violated: a later comment replaces an earlier one (witness). Partial: exact characterisation of which comment is kept, for every body of comment and posting lines, and no loss when there is one comment per place."
  },
  {
   "property": "C46",
   "status": "proved",
   "theorems": [
    "Ledger.C46_header_round_trip"
   ],
   "note": "Any blanks between the parts are allowed."
  },
  {
   "property": "C47",
   "status": "proved",
   "theorems": [
    "Ledger.C47_posting_round_trip",
    "Ledger.C47_account_round_trip"
   ],
   "note": "Proved for every text built from the grammar of Spec/Posting.lean, blanks between the parts included. A lot needs a symbol before it."
  },
  {
   "property": "C48",
   "status": "proved",
   "theorems": [
    "Ledger.C48_symbol_position"
   ],
   "note": "Proved for every number and symbol of the grammar within the quantifier; for others the first character is taken for a part of the number or of the symbol."
  },
  {
   "property": "C49",
   "status": "partial",
   "theorems": [
    "Ledger.C49_always_violated",
    "Ledger.C49_spacing_violated",
    "Ledger.C49_first_lost_violated",
    "Ledger.C49_spacing_partial"
   ],
   "note": "Violated: the character after @ or @@ is dropped whatever it is (witnesses, and in general). Partial: any spacing with a space after the sign gives the same. It is false of every cost: written right after the sign, a cost always loses a character."
  },
  {
   "property": "C50",
   "status": "partial",
   "theorems": [
    "Ledger.C50_unreadable_violated",
    "Ledger.C50_unreadable_cost_violated",
    "Ledger.C50_never_fails_violated",
    "Ledger.C50_readable_partial"
   ],
   "note": "Violated: an unreadable number is never a failure; the posting is read without an amount (witnesses, and in general). Partial: readable numbers give exactly the amount written."
  },
  {
   "property": "C51",
   "status": "partial",
   "theorems": [
    "Ledger.C51_exactly",
    "Ledger.C51_trailing_violated",
    "Ledger.C51_two_spaces_violated",
    "Ledger.C51_trailing_partial"
   ],
   "note": "Violated: an account followed by two spaces panics (witness, and for every account). Partial: trailing blanks change nothing on a posting with an amount, nor after an account when they contain no pair of spaces. Exactly, for every line: read the same if and only if there are two spaces in a row before the blanks or none even with them; refused lines stay refused."
  },
  {
   "property": "C52",
   "status": "partial",
   "theorems": [
    "Ledger.C52_semicolon_violated",
    "Ledger.C52_note_violated",
    "Ledger.C52_note_partial"
   ],
   "note": "Violated: '10 ; lunch' is read with the commodity ';' (witnesses). Partial: a note after an amount with commodity changes nothing. False on every line with only a number, or nothing, before the semicolon, whatever the account and note."
  },
  {
   "property": "C53",
   "status": "proved",
   "theorems": [
    "Ledger.C53_dates_exact",
    "Ledger.C53_day_read",
    "Ledger.C53_header_date",
    "Ledger.C53_datetime",
    "Ledger.C53_date_text"
   ],
   "note": "Proved: eight digits in the shape YYYY-MM-DD are read as that day exactly if it is a calendar day, and refused otherwise; lifted to headers."
  },
  {
   "property": "C54",
   "status": "partial",
   "theorems": [
    "Ledger.C54_date_only_violated",
    "Ledger.C54_line_ending_violated",
    "Ledger.C54_date_only_partial",
    "Ledger.C54_exactly"
   ],
   "note": "Violated: a date followed by the end of the line is refused, for every date. Partial: a date with nothing after it, or followed by blanks starting with a space. Exactly: opened if and only if the blanks, if any, start with a space; otherwise refused."
  },
  {
   "property": "C55",
   "status": "proved",
   "theorems": [
    "Ledger.C55_price_line",
    "Ledger.C55_price_recorded",
    "Ledger.C55_times_exact",
    "Ledger.C55_written_price",
    "Ledger.C55_price_found",
    "Ledger.C55_time_text"
   ],
   "note": "Proved for every price line of the grammar PriceLine (with or without time), and its effect on a pool. C55_price_found: from then on the new price is the one found for the pair, unless a later one is recorded; other pairs find what they found before."
  },
  {
   "property": "C56",
   "status": "partial",
   "theorems": [
    "Ledger.C56_price_lines_violated",
    "Ledger.C56_price_reached_partial"
   ],
   "note": "Violated for every line starting with P (universal refutation). Partial: which lines reach the price parser and what they do."
  },
  {
   "property": "C57",
   "status": "partial",
   "theorems": [
    "Ledger.C57_tilde_violated",
    "Ledger.C57_include_in_place_violated",
    "Ledger.C57_missing_file_violated",
    "Ledger.C57_include_in_place_partial",
    "Ledger.C57_text_partial",
    "Ledger.C57_missing_file_partial",
    "Ledger.C57_depth",
    "Ledger.C57_cycle_overflows"
   ],
   "note": "Violated: a name that starts with a tilde or backslash and has no slash is never looked up, and the root directory as name panics. Otherwise the file is read in place, also in a text that is given directly (C57_text_partial), a missing file changes nothing, and a file that includes itself overflows the stack at every depth."
  },
  {
   "property": "C58",
   "status": "proved",
   "theorems": [
    "Ledger.C58_split"
   ],
   "note": "Proved for every list of words and -f options."
  },
  {
   "property": "C59",
   "status": "partial",
   "theorems": [
    "Ledger.C59_dash_violated",
    "Ledger.C59_refused_partial"
   ],
   "note": "Violated: a lone '-' is ignored. Partial: exact characterisation of the argument lists that are accepted."
  },
  {
   "property": "C60",
   "status": "proved",
   "theorems": [
    "Ledger.C60_accounts",
    "Ledger.C60_balance",
    "Ledger.C60_refused",
    "Ledger.C60_words_ignored"
   ],
   "note": "Proved: four theorems, one for each kind of verb and one for the further words."
  },
  {
   "property": "C61",
   "status": "partial",
   "theorems": [
    "Ledger.C61_program_violated",
    "Ledger.C61_program_partial",
    "Ledger.C61_exactly"
   ],
   "note": "Violated: the program name is taken as the verb, so that every program path not starting with a, b or - refuses all arguments. Partial: a program named b, bal or balance. Exactly, by the name of the program: what it does for every name that does not start with a dash, and for a lone dash."
  },
  {
   "property": "C62",
   "status": "partial",
   "theorems": [
    "Ledger.C62_exactly",
    "Ledger.C62_references_violated",
    "Ledger.C62_moved_violated",
    "Ledger.C62_references_partial"
   ],
   "note": "Violated: the fifth posting of a transaction moves the postings when the allocator moves the vector (witness, and in general). Partial: references are right whatever the allocator does while the postings fit into the first allocation, in particular up to four postings. Exactly: valid if and only if the allocator extended the vector in place each time it was full since."
  },
  {
   "property": "C63",
   "status": "partial",
   "theorems": [
    "Ledger.C63_commodities_violated",
    "Ledger.C63_commodities_text_violated",
    "Ledger.C63_transaction_violated",
    "Ledger.C63_commodities_partial",
    "Ledger.C63_three_commodities_partial",
    "Ledger.C63_accounts_violated",
    "Ledger.C63_accounts_text_violated",
    "Ledger.C63_accounts_partial"
   ],
   "note": "Violated: the fourth commodity (or fourth account below a parent) moves the table and every pointer into it dangles (witnesses, also within one transaction, and in general). Partial: exact condition under which a commodity or account stays where it is."
  },
  {
   "property": "C64",
   "status": "partial",
   "theorems": [
    "Ledger.C64_exactly",
    "Ledger.C64_equal_commodities_violated",
    "Ledger.C64_other_pointer_violated",
    "Ledger.C64_one_pool_partial"
   ],
   "note": "Violated: equal commodities at different addresses make Balance::add panic (witness, and in general). Partial: with one commodity per symbol the addition is the one of the model by symbols. Exactly: for all pointers to commodities of which those with the same symbol are equal, it panics if the first equal entry has another pointer and otherwise works as with symbols."
  },
  {
   "property": "C65",
   "status": "proved",
   "theorems": [
    "Ledger.C65_one_per_line"
   ],
   "note": "Proved for every text and any number of calls."
  },
  {
   "property": "C66",
   "status": "partial",
   "theorems": [
    "Ledger.C66_ends_violated",
    "Ledger.C66_debug_violated",
    "Ledger.C66_release_violated",
    "Ledger.C66_ends_partial"
   ],
   "note": "Violated: the 256th call yields an item again in a release build and panics in a debug build (witnesses, and exact values of all calls in a release build). Partial: the first 255 calls."
  },
  {
   "property": "C67",
   "status": "proved",
   "theorems": [
    "Ledger.C67_i32_round_trip",
    "Ledger.C67_out_of_range",
    "Ledger.C67_truncates",
    "Ledger.C67_both_sides"
   ],
   "note": "Proved for all i32; larger quantities are refused."
  },
  {
   "property": "C68",
   "status": "partial",
   "theorems": [
    "Ledger.C68_exactly",
    "Ledger.C68_back_pointer_violated",
    "Ledger.C68_back_pointer_partial"
   ],
   "note": "Violated: the fifth transaction moves the transactions when the allocator moves the vector. Partial: up to four transactions, and while they fit into the allocation. Exactly: valid if and only if the allocator extended the vector in place each time it was full since."
  },
  {
   "property": "C69",
   "status": "proved",
   "theorems": [
    "Ledger.C69_posting_as_written"
   ],
   "note": "Proved for every posting text of the grammar EntryText; a per-unit cost must be representable. Texts with a note on the posting line are outside the grammar."
  },
  {
   "property": "C70",
   "status": "partial",
   "theorems": [
    "Ledger.C70_complete_as_written",
    "Ledger.C70_blank_as_written_violated",
    "Ledger.C70_blank_as_written_partial",
    "Ledger.C70_rate_as_written"
   ],
   "note": "Complete transactions: proved, including costs and lots. Exchanges of two commodities at an implied rate: proved (C70_rate_as_written), where the postings in the first commodity have no written costs. One blank posting, beside postings with or without costs: proved for sums that are not negative; negative sums are booked wrongly (C70_blank_as_written_violated). Products, rates and sums must be representable."
  },
  {
   "property": "C71",
   "status": "partial",
   "theorems": [
    "Ledger.C71_text_as_written_partial",
    "Ledger.C71_complete_text",
    "Ledger.C71_text_balances_partial",
    "Ledger.C71_text_violated",
    "Ledger.C71_lines_unique"
   ],
   "note": "Violated where C70 is (C71_text_violated: a transaction in a text that does not balance). Proved for texts whose transactions are accepted as in C70 (complete ones without restriction, C71_complete_text), with include lines nested to any depth and with or without a line feed at the end. C71_text_balances_partial: the added transactions balance at cost and have all amounts. C71_lines_unique: every text is divided into lines in exactly one way, so the hypothesis on lines costs nothing."
  },
  {
   "property": "C72",
   "status": "partial",
   "theorems": [
    "Ledger.C72_report_as_written_violated",
    "Ledger.C72_report_as_written_partial",
    "Ledger.C72_accounts_as_written_partial",
    "Ledger.C72_command_line_partial"
   ],
   "note": "Proved end to end from the texts of the files to the printed lines, for both commands, for texts as in C71 and totals in the range of the quantity type. False where C70 is false (C72_report_as_written_violated). The order of several commodities on one line is the subject of C83."
  },
  {
   "property": "C73",
   "status": "proved",
   "theorems": [
    "Ledger.C73_balances_agree",
    "Ledger.C73_balances_sums"
   ],
   "note": "Proved for every reachable journal, as an equivalence including failure, and with the sums themselves for amounts in range."
  },
  {
   "property": "C74",
   "status": "proved",
   "theorems": [
    "Ledger.C74_amounts_fine",
    "Ledger.C74_totals_fine"
   ],
   "note": "Proved as stated, for every reachable journal."
  },
  {
   "property": "C75",
   "status": "proved",
   "theorems": [
    "Ledger.C75_comma_report",
    "Ledger.C75_comma_read_back"
   ],
   "note": "Reading back needs amounts as they occur in journals, see C74."
  },
  {
   "property": "C76",
   "status": "proved",
   "theorems": [
    "Ledger.C76_register",
    "Ledger.C76_addresses",
    "Ledger.C76_push",
    "Ledger.C76_same_trees"
   ],
   "note": "Proved as stated over the model with addresses."
  },
  {
   "property": "C77",
   "status": "partial",
   "theorems": [
    "Ledger.C77_fullname_violated",
    "Ledger.C77_fullname_partial",
    "Ledger.C77_fullname_stays"
   ],
   "note": "False of the code: with the fourth account in a table its entries move and the parent pointers of their children refer to freed memory (C77_fullname_violated: A:B, C, D, E). Proved: right whenever no table two or more levels above has grown beyond three entries or the name was asked for before; otherwise the right name or a read of freed memory (C77_fullname_partial); once found, always found (C77_fullname_stays)."
  },
  {
   "property": "C78",
   "status": "partial",
   "theorems": [
    "Ledger.C78_report_violated",
    "Ledger.C78_report_partial",
    "Ledger.C78_same_report_partial"
   ],
   "note": "False of the code for the same reason as C77 (C78_report_violated: a journal with four top level accounts). Proved for every journal in which no account with grandchildren has more than three children; otherwise the right report or a read of freed memory. C78_same_report_partial says the same for all amounts: the report, or the panic of a sum that is too large, is that of the model without pointers."
  },
  {
   "property": "C79",
   "status": "proved",
   "theorems": [
    "Ledger.C79_words",
    "Ledger.C79_words_unique",
    "Ledger.C79_run_command",
    "Ledger.C79_quoted"
   ],
   "note": "Proved as stated. The split function of shell-words is modelled from its documented rules; C79_words is an equivalence with a separate grammar of command lines. C72_command_line_partial puts it together with the written-text theorems."
  },
  {
   "property": "C80",
   "status": "proved",
   "theorems": [
    "Ledger.C80_defective_refused",
    "Ledger.C80_only_overflow",
    "Ledger.C80_accepted_iff"
   ],
   "note": "Spec/Accept.lean defines Defective without reference to the code. C80_accepted_iff is for amounts and costs of at most D decimals and 10^T in all with D + 2T at most 27 (two decimals and a million million, nine decimals and a billion, ...), or D + T at most 28 if there are no costs, written or implied, where no intermediate result can overflow; C80_only_overflow is for all amounts whose sums fit a decimal."
  },
  {
   "property": "C81",
   "status": "proved",
   "theorems": [
    "Ledger.C81_read_iff",
    "Ledger.C81_outcome",
    "Ledger.C81_report",
    "Ledger.C81_accounts"
   ],
   "note": "Spec/Faults.lean defines Faulty, Settles and Outcome on what is written (Spec/Written.lean), without reference to scanner, parser or finalize. Everyday size: at most D decimals, also in per-unit products, and 10^T per transaction with D + 2T at most 27, or D + T at most 28 without costs; lot prices up to 10^15. Settles.filled describes what the code does, including the wrong sign beside a negative sum (claimed otherwise, and refuted, in C70)."
  },
  {
   "property": "C82",
   "status": "proved",
   "theorems": [
    "Ledger.C82_direct_price",
    "Ledger.C82_find_price",
    "Ledger.C82_each_cost"
   ],
   "note": "Composition of C81 with C12-C14: the recordings of the pool after reading are exactly the costs in the transactions as settled. Dates outside the moment asked for are not filtered (C15)."
  },
  {
   "property": "C83",
   "status": "proved",
   "theorems": [
    "Ledger.C83_total_order",
    "Ledger.C83_report_order",
    "Ledger.C83_order_unique"
   ],
   "note": "Proved: the order for every total that can be computed, the whole report for totals in range, and that the order of accounts meant is unique."
  },
  {
   "property": "C84",
   "status": "proved",
   "theorems": [
    "Ledger.C84_literals",
    "Ledger.C84_literals_unique",
    "Ledger.C84_lines",
    "Ledger.C84_determined"
   ],
   "note": "Text of lists of strings, lines written, and uniqueness of the reading. An earlier version of the theorems left out the lines printed when a line cannot be read."
  },
  {
   "property": "C85",
   "status": "partial",
   "theorems": [
    "Ledger.C85_null_violated",
    "Ledger.C85_operations",
    "Ledger.C85_finalize",
    "Ledger.C85_parse_partial",
    "Ledger.C85_files_partial",
    "Ledger.C85_same_results"
   ],
   "note": "Violated: filling in the posting of a transaction without commodities makes one. Exactly when each operation and `finalize` makes one; no other step does. Partial: reading makes none if every transaction read is booked in some commodity."
  },
  {
   "property": "C86",
   "status": "proved",
   "theorems": [
    "Ledger.C86_text",
    "Ledger.C86_run",
    "Ledger.C86_output"
   ],
   "note": "What is written is defined by the same grammar as for C72 and C81 (Says, FileSays). No hypothesis on sizes, balance or faults. The events of the traced run (null references, error lines) are the same, too."
  },
  {
   "property": "C87",
   "status": "proved",
   "theorems": [
    "Ledger.C87_reading",
    "Ledger.C87_run",
    "Ledger.C87_state_in_order",
    "Ledger.C87_reports"
   ],
   "note": "The list of failures is exact for the whole program (each listed failure has a run in the file). Failing to print (closed output) is not modelled. Nesting of includes is bounded by the parameter depth; running out of it stands for the stack overflow of the program."
  },
  {
   "property": "C88",
   "status": "proved",
   "theorems": [
    "Ledger.C88_one_cause",
    "Ledger.C88_first_fault",
    "Ledger.C88_run",
    "Ledger.C88_run_any_sums"
   ],
   "note": "The panic is that of the first faulty transaction, and within a transaction the order of the checks is fixed; each faulty transaction has exactly one cause. C88_run_any_sums: without a bound on the sums of the files, 'bal' can besides end only with the overflow of a sum."
  },
  {
   "property": "C89",
   "status": "proved",
   "theorems": [
    "Ledger.C89_journal",
    "Ledger.C89_report",
    "Ledger.C89_program",
    "Ledger.C89_sums",
    "Ledger.C89_only_own"
   ],
   "note": "C89_report gives the report as a function of the written transactions (Spec/Figures.lean: schoolbook sums on digit strings, sorted names, no use of the account heap or of the decimal model); C89_program adds greeting and debug output. C89_sums shows that the specified figures are the exact sums, C89_only_own that only the order within each account matters. The decimals of sums rest on the modelled rust_decimal addition and multiplication (see DESIGN.md)."
  },
  {
   "property": "C90",
   "status": "proved",
   "theorems": [
    "Ledger.C90_line",
    "Ledger.C90_one",
    "Ledger.C90_header_line",
    "Ledger.C90_refused",
    "Ledger.C90_header_refused",
    "Ledger.C90_taken",
    "Ledger.C90_lost_amount"
   ],
   "note": "The description (Spec/Reading.lean) uses no function of the scanner. Refusal and acceptance are both exact (iff, for every text); the written-journal theorems C69 to C89 now start from these same descriptions, so they hold for every accepted posting and header line."
  },
  {
   "property": "C91",
   "status": "proved",
   "theorems": [
    "Ledger.C91_top_line",
    "Ledger.C91_one_line",
    "Ledger.C91_price_line",
    "Ledger.C91_price_refused",
    "Ledger.C91_price_one",
    "Ledger.C91_one_text",
    "Ledger.C91_one_run",
    "Ledger.C91_transactions"
   ],
   "note": "TopPart, PriceSays, PriceRefused, BodyReads, SourceSays, SaysUpTo and FilesSay (Spec/Found) use no function of scanner or parser; they are shown equivalent to the code line by line, total and unique. A text in the sense of C80 says its transactions (C91_transactions)."
  },
  {
   "property": "C92",
   "status": "proved",
   "theorems": [
    "Ledger.C92_run_any_sums",
    "Ledger.C92_report_any_sums",
    "Ledger.C92_panic",
    "Ledger.C92_outcome",
    "Ledger.C92_report",
    "Ledger.C92_accounts",
    "Ledger.C92_run_panic",
    "Ledger.C92_accounts_panic",
    "Ledger.C92_direct_price",
    "Ledger.C92_find_price"
   ],
   "note": "The size condition is Everyday (C81) for every transaction that is read, including one that is broken off, and for the exact digits of reports Roomy: at most D decimals and 10^(28-D) in all. C92_run_any_sums and C92_report_any_sums do without Roomy: beside the panics named in the property a report can then end with the overflow of a sum, and its figures are right up to the rounding of C112."
  },
  {
   "property": "C93",
   "status": "partial",
   "theorems": [
    "Ledger.C93_exactly",
    "Ledger.C93_line_feed_violated",
    "Ledger.C93_separated_partial"
   ],
   "note": "False of the code: parts of a price line are cut only at spaces and tabs, so the last name keeps its line feed. Proved: with a space or tab before the line feed the price is in the named commodity. Exactly: either something follows the name and the line says the same whatever is put after it, or what is put after it belongs to the name up to a space or tab."
  },
  {
   "property": "C94",
   "status": "proved",
   "theorems": [
    "Ledger.C94_refused",
    "Ledger.C94_one"
   ],
   "note": "Refused command lines exactly, with panics; complements C58 and C59."
  },
  {
   "property": "C95",
   "status": "proved",
   "theorems": [
    "Ledger.C95_one",
    "Ledger.C95_program"
   ],
   "note": "Existence, uniqueness and exact output of the whole program; the numbers are of everyday size (Everyday for each transaction, Roomy for all together), error messages and the table of printable characters are parameters. The standard error text of panics is not modelled."
  },
  {
   "property": "C96",
   "status": "partial",
   "theorems": [
    "Ledger.C96_root_zero",
    "Ledger.C96_books_partial",
    "Ledger.C96_exactly",
    "Ledger.C96_books_violated"
   ],
   "note": "C96_root_zero is about any list of bookings; C96_exactly about files, without the condition on the transactions. C96_books_violated is the report of a text with a blank posting beside a negative amount."
  },
  {
   "property": "C97",
   "status": "partial",
   "theorems": [
    "Ledger.C97_order_partial",
    "Ledger.C97_text_violated",
    "Ledger.C97_bookings",
    "Ledger.C97_text_partial"
   ],
   "note": "Missing from C97_order_partial is equality of the text, which C97_text_violated refutes with two pairs of journals. C97_text_partial: the text is the same in every order if all amounts are in one commodity and written with the same number of decimals."
  },
  {
   "property": "C98",
   "status": "proved",
   "theorems": [
    "Ledger.C98_local",
    "Ledger.C98_elsewhere"
   ],
   "note": "C98_local compares any two lots of files; C98_elsewhere adds one transaction."
  },
  {
   "property": "C99",
   "status": "proved",
   "theorems": [
    "Ledger.C99_reading",
    "Ledger.C99_run",
    "Ledger.C99_refused"
   ],
   "note": "Everyday size as in C92. The traced model (Trace.*) records an event wherever the code turns the raw commodity pointer into a reference without a check; C85 says it returns what the plain model returns."
  },
  {
   "property": "C100",
   "status": "proved",
   "theorems": [
    "Ledger.C100_journal",
    "Ledger.C100_files"
   ],
   "note": "C100_journal states it for any reachable journal and any memory that replays its postings; C100_files for the files read, and that such a memory exists. Addresses are those of Model/Memory (tables double, blocks move unless the allocator lets them stay) and Model/Heap (children move when their vector grows)."
  },
  {
   "property": "C101",
   "status": "partial",
   "theorems": [
    "Ledger.C101_until",
    "Ledger.C101_slim",
    "Ledger.C101_files",
    "Ledger.C101_slim_violated"
   ],
   "note": "`C101_until`: for every allocator, files and arguments the program with pointers gives the result of the main model, be it a report or a panic, or follows a stale pointer. `C101_slim`, `C101_files`: it follows none if the journal, or what the files say, is slim. `C101_slim_violated`: two price lines with four commodities (for every allocator), a transaction with five postings and a fourth account beside one with an account below it (when the allocator moves what grows) make it follow one. Which larger journals do is C104; which faulty ones end with their own panic is C108."
  },
  {
   "property": "C102",
   "status": "proved",
   "theorems": [
    "Ledger.C102_price",
    "Ledger.C102_cost",
    "Ledger.C102_report",
    "Ledger.C102_postings",
    "Ledger.C102_exact"
   ],
   "note": "The machine of C101 is walked through item by item (Thru). Sufficient conditions for reading (price lines, costs) and reporting in the words of what was mentioned before; C104 is the exact criterion."
  },
  {
   "property": "C103",
   "status": "proved",
   "theorems": [
    "Ledger.C103_journal",
    "Ledger.C103_text",
    "Ledger.C103_exact"
   ],
   "note": "The criterion on the order of the accounts is exact: the pointers to the accounts above are all right if and only if no account is displaced (Heap.Books.parentsRight). The exact form for a report asks for at most three commodities; C104 is the form without that."
  },
  {
   "property": "C104",
   "status": "proved",
   "theorems": [
    "Ledger.C104_reading",
    "Ledger.C104_accounts",
    "Ledger.C104_balance"
   ],
   "note": "The moment at which each pointer was taken is kept through the whole run (Timed, Origin, Walks). Exact for runs to which the main model gives a result; a run that ends with a panic there is not covered."
  },
  {
   "property": "C105",
   "status": "proved",
   "theorems": [
    "Ledger.C105_any_sums",
    "Ledger.C105_report",
    "Ledger.C105_accounts",
    "Ledger.C105_panic"
   ],
   "note": "The bookings of the text (C92) and the criterion for stale pointers (C104) in one statement about the machine model: on files without faults bal prints the report that the text says exactly if the text is safe and follows a stale pointer otherwise; accounts likewise with reading only; on other files it ends with the panic of the first fault or follows a stale pointer before; C108 says which."
  },
  {
   "property": "C106",
   "status": "proved",
   "theorems": [
    "Ledger.C106_source",
    "Ledger.C106_texts",
    "Ledger.C106_readable",
    "Ledger.C106_outside",
    "Ledger.C106_inside",
    "Ledger.C106_byte_order_mark",
    "Ledger.C106_wide_text"
   ],
   "note": "The bytes of a file, the lines of read_line and the table of str::from_utf8 are modelled and related to texts through the encoding of characters in Lean's core library: what is read of any byte sequence, that encoded texts are read as the texts, and what a line that is not UTF-8 does outside and inside a transaction. I/O errors are not modelled as such."
  },
  {
   "property": "C107",
   "status": "partial",
   "theorems": [
    "Ledger.C107_comment_violated",
    "Ledger.C107_last_partial"
   ],
   "note": "Violated: a comment with one Latin-1 byte hides all transactions after it from the report, which is printed without them (an error line is printed before it). Proved for damaged lines with nothing after them."
  },
  {
   "property": "C108",
   "status": "proved",
   "theorems": [
    "Ledger.C108_refused",
    "Ledger.C108_fault",
    "Ledger.C108_steady"
   ],
   "note": "With pointers: the panic of a refused line or of the first faulty transaction, or a stale pointer before it, decided by the text. Spec/Trips.lean lists the pointers that are followed until the fault of a transaction is found. C108_steady: a transaction during which the table does not move makes the program follow none."
  },
  {
   "property": "C109",
   "status": "proved",
   "theorems": [
    "Ledger.C109_endless",
    "Ledger.C109_depth",
    "Ledger.C109_run",
    "Ledger.C109_no_circle"
   ],
   "note": "The depth of includes is a parameter of the model where the code recurses on its stack. C109_endless: nested too deep at every depth exactly if reading runs in circles. C109_depth: among n files, depth n - 1 decides this, and otherwise what the files say is the same at every greater depth. C109_run: the program, for everyday transactions. C109_no_circle: any contents whatever. Statements before C109 that fix a depth therefore speak of the code for every depth of at least n - 1. That the real stack holds n - 1 frames of parsing is assumed."
  },
  {
   "property": "C110",
   "status": "proved",
   "theorems": [
    "Ledger.C110_text",
    "Ledger.C110_run",
    "Ledger.C110_program"
   ],
   "note": "C110_text: reading a text given directly. C110_run: the run, the run with its log, and the run with its pointers under every allocator. C110_program: all output, for files as bytes on disk. The files that count (Spec/Frame.lean, Sought) are those named, those that existing ones of these have include lines for, and so on; a named file that does not exist counts as well."
  },
  {
   "property": "C111",
   "status": "proved",
   "theorems": [
    "Ledger.C111_direct_price",
    "Ledger.C111_no_price",
    "Ledger.C111_find_price",
    "Ledger.C111_files"
   ],
   "note": "`C111_direct_price`, `C111_no_price`, `C111_find_price` for texts, `C111_files` for files. Both readings are assumed to succeed: the lot kept for a commodity is the first one written, so one order may overflow where the other does not. Where several chains are shortest, the answer may depend on the order (through the search), and C14 says what it is."
  },
  {
   "property": "C112",
   "status": "proved",
   "theorems": [
    "Ledger.C112_command",
    "Ledger.C112_slack",
    "Ledger.C112_sum",
    "Ledger.C112_sum_succeeds",
    "Ledger.C112_totals",
    "Ledger.C112_totals_succeed",
    "Ledger.C112_report",
    "Ledger.C112_report_succeeds",
    "Ledger.C112_blank"
   ],
   "note": "Proved for all journals a program can have. The bound is (1 + 1/10^28)^n - 1 of the absolute values, with n roundings; C112_slack bounds it by 2n/10^28. C112_command: the same for what 'bal' prints for files of everyday transactions, without any bound on their sums."
  },
  {
   "property": "C113",
   "status": "proved",
   "theorems": [
    "Ledger.C113_derived",
    "Ledger.C113_text"
   ],
   "note": "C113_derived: one call of finalize, without written costs. C113_text: every accepted transaction of a text of everyday transactions, with or without written costs. That the written cost is lost is the model's and the code's behaviour (xact.rs overwrites the cost of every posting whose amount has the first commodity); see C35_implied_rate_violated for a transaction that is left unbalanced."
  },
  {
   "property": "C114",
   "status": "proved",
   "theorems": [
    "Ledger.C114_white_space",
    "Ledger.C114_digits",
    "Ledger.C114_trim"
   ],
   "note": "The other specifications use isWs, isDig and trim of the model; these theorems say what they are, so that a wrong class cannot hide in both the model and a specification. That char::is_whitespace is White_Space is the Rust documentation's statement and is trusted."
  },
  {
   "property": "C115",
   "status": "proved",
   "theorems": [
    "Ledger.C115_order",
    "Ledger.C115_equal",
    "Ledger.C115_amounts",
    "Ledger.C115_best_fit",
    "Ledger.C115_results",
    "Ledger.C115_respects"
   ],
   "note": "BestFit says which number rust_decimal keeps of an exact result and has at most one solution (C115_best_fit). That rust_decimal rounds so is an assumption about the dependency (see Assumed about dependencies); the theorem shows that the executable model does. C05 and C06 say when an operation is refused. Amounts compare commodity pointers in the code; here a commodity is its symbol, and C101 says when that is the same."
  },
  {
   "property": "C116",
   "status": "proved",
   "theorems": [
    "Ledger.C116_parts",
    "Ledger.C116_panics",
    "Ledger.C116_reads",
    "Ledger.C116_written"
   ],
   "note": "AmountPart is the grammar of Spec/Reading, Numeral that of C02; Registers says what becomes of the pool. Stated for parse_amount on the symbol-keyed pool of Model/Pool."
  },
  {
   "property": "C117",
   "status": "partial",
   "theorems": [
    "Ledger.C117_sums",
    "Ledger.C117_transaction",
    "Ledger.C117_report_violated",
    "Ledger.C117_report_partial",
    "Ledger.C117_shown_violated"
   ],
   "note": "Violated: a posting without an amount beside others that are worth nothing together gets -0 and is printed so (C117_report_violated, witness runs; C117_shown_violated: in every report, if nothing else is booked to the account). C117_transaction says exactly which transactions book such a zero, C117_sums which sums are one. C117_report_partial: no other file makes bal print one, for transactions of everyday size."
  },
  {
   "property": "C118",
   "status": "proved",
   "theorems": [
    "Ledger.C118_text",
    "Ledger.C118_report",
    "Ledger.C118_accounts"
   ],
   "note": "Proved for all files that say their transactions (no price lines in them), whatever the sums: overflow and rounding are the same under any names. A renaming is injective and leaves the empty name empty."
  },
  {
   "property": "C119",
   "status": "proved",
   "theorems": [
    "Ledger.C119_text",
    "Ledger.C119_run"
   ],
   "note": "Two readings of texts with the same postings are run side by side (Alongside, SameBooks): every step fails alike or keeps accounts, postings, commodities and lots equal; the pools may differ only in the recorded prices. C119_run holds for every list of words, thus also for the refused commands. An example shows that the recorded prices do depend on the dates."
  },
  {
   "property": "C120",
   "status": "partial",
   "theorems": [
    "Ledger.C120_text_partial",
    "Ledger.C120_report_partial",
    "Ledger.C120_exactly",
    "Ledger.C120_text_violated",
    "Ledger.C120_sums"
   ],
   "note": "False because of blank postings: Amount::inverse leaves a negative amount as it is, so a purchase and its refund both take money from the blank account (C120_text_violated). C120_text_partial and C120_report_partial: true for all files without blank postings, whether balanced or not, with reports and panics. C120_exactly: for all files, with blank postings too, says what happens: the same panic or the same accounts, commodities, prices and lots, opposite amounts and costs in postings with a written amount, and in each blank posting the same amount, not above zero, on both sides; so the books are opposite exactly if every blank posting comes to zero. C120_sums: the sums of the two reports, for all accepted transactions in any order: opposite, less twice the absolute sum of the other postings for each blank posting at or below the account."
  },
  {
   "property": "C121",
   "status": "proved",
   "theorems": [
    "Ledger.C121_add",
    "Ledger.C121_accounts",
    "Ledger.C121_twice"
   ],
   "note": "C121_add: for all files that say transactions of everyday size, three runs: refusal of the whole exactly with refusal of a part, each account once, commodities and sums of the parts (decimals and the order of commodities can differ, see C97). C121_twice: the same files twice, same lines in the same order, sums doubled. C121_accounts: the same for the list of the accounts command."
  },
  {
   "property": "C122",
   "status": "partial",
   "theorems": [
    "Ledger.C122_cancel_partial",
    "Ledger.C122_cancel_violated",
    "Ledger.C122_exactly",
    "Ledger.C122_when"
   ],
   "note": "C122_cancel_partial: holds for reversed transactions without a blank posting, beside any other transactions of everyday size; refusal is said exactly. C122_cancel_violated: with a blank posting the money is taken from the blank account both times. C122_exactly: with blank postings too, what is left over: for each blank posting its account and those above are down by twice the absolute sum of the other postings. C122_when: so they cancel exactly if the postings beside each blank one sum to zero."
  },
  {
   "property": "C123",
   "status": "proved",
   "theorems": [
    "Ledger.C123_names",
    "Ledger.C123_accounts",
    "Ledger.C123_order"
   ],
   "note": "C123_names: for all injective renamings of the parts of names and any order of the transactions, refusals and all sums. C123_order: for renamings that keep the order, line by line with the same figures, digit by digit. C123_accounts: the list of the accounts command, renamed."
  },
  {
   "property": "C124",
   "status": "proved",
   "theorems": [
    "Ledger.C124_sums",
    "Ledger.C124_zero"
   ],
   "note": "C124_sums: lines, commodities and sums, where Writing.written, Writing.lost and Writing.Brings mention only what is written. C124_zero: when the first line shows only zeros. Refused files are in C92; the digits and decimals are in C92_report."
  },
  {
   "property": "C125",
   "status": "proved",
   "theorems": [
    "Ledger.C125_text",
    "Ledger.C125_sums",
    "Ledger.C125_accounts"
   ],
   "note": "C125_text: same order, the same report digit by digit. C125_sums: any order, same lines, commodities and sums (decimals can differ, see C97). With blank postings the grouping matters, as a blank posting stands for the rest of its own transaction (C124_sums). C125_accounts: the accounts command, with blank postings too."
  },
  {
   "property": "C126",
   "status": "proved",
   "theorems": [
    "Ledger.C126_times",
    "Ledger.C126_refused"
   ],
   "note": "C126_times: the figures, for every rational factor. C126_refused: acceptance, for factors other than zero (with zero, costs of amounts that become zero are refused differently)."
  },
  {
   "property": "C127",
   "status": "proved",
   "theorems": [
    "Ledger.C127_split"
   ],
   "note": "C127_split: any number of postings split, with blank postings. Sums are the same; the decimals shown can differ (41 against 41.00 in the example). Acceptance of both is assumed: a transaction of one posting is refused, and of two parts accepted."
  },
  {
   "property": "C128",
   "status": "proved",
   "theorems": [
    "Ledger.C128_refused",
    "Ledger.C128_lines"
   ],
   "note": "C128_lines: every account with the same postings within it, the root among them. C128_refused: acceptance does not depend on accounts. Sums and commodities; the decimals shown can differ, as amounts are added account by account."
  }
 ]
}