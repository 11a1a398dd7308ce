{"id": "C01", "title": "Quantity text round trip", "statement": "Formatting a quantity and parsing the text back with Quantity::from_str yields the same quantity: same sign, same digits, same number of decimal places.", "quantifier": "every quantity Quantity::from_str can produce (96-bit mantissa, scale 0..28)", "why_tests_cant": "there are about 2^96*29*2 quantities; a unit test samples a handful of literals", "anchors": ["src/amount.rs: Quantity::from_str, impl Display for Quantity"]}
{"id": "C02", "title": "Quantity parsing is exact or refused", "statement": "Quantity::from_str returns a quantity only for text of the form [+|-]digits[.digits] (with _ separators after a digit), and then its value is exactly the positional decimal value of that text; any other text, and any text needing more than 28 decimals or a 96-bit mantissa, gives None. It never returns a rounded or otherwise different value.", "quantifier": "every character string", "why_tests_cant": "the set of strings is infinite; tests only look at '3' and '3 USD'", "anchors": ["src/amount.rs: Quantity::from_str"]}
{"id": "C03", "title": "Inverse amount is the arithmetic negation", "statement": "Amount::inverse returns the amount with the opposite sign: its quantity is minus the original and its commodity is unchanged, so an amount plus its inverse is zero.", "quantifier": "every amount, of either sign", "why_tests_cant": "tests only invert positive quantities", "anchors": ["src/amount.rs: Amount::inverse", "src/balance.rs: SubAssign<Amount>", "src/xact.rs: finalize"]}
{"id": "C04", "title": "Invert and abs act only on the sign", "statement": "Amount::invert negates the quantity and applying it twice restores the amount; Amount::abs is the absolute value; neither touches the commodity or the number of decimals.", "quantifier": "every amount", "why_tests_cant": "involution and absolute value are universally quantified laws", "anchors": ["src/amount.rs: Amount::invert, Amount::abs"]}
{"id": "C05", "title": "Adding amounts never mixes commodities and never silently wraps", "statement": "Amount +, +=, -= and Amount::add on two amounts of the same commodity give the exact result in that commodity whenever it is representable, and otherwise the result rounded to as many decimals as a quantity has room for; if the commodities differ the call panics; it panics with an overflow exactly if the integer nearest to the result needs more than 96 bits. No input yields a wrapped or mixed-commodity amount.", "quantifier": "every pair of amounts", "why_tests_cant": "overflow boundaries and commodity pairs cannot be enumerated by tests", "anchors": ["src/amount.rs: Amount::add, impl Add, impl AddAssign, impl SubAssign"]}
{"id": "C06", "title": "Product and quotient of amounts", "statement": "Multiplying amounts multiplies the quantities and keeps the left commodity unless it has none, in which case the right one is taken; division likewise, and division by a zero quantity panics. A product or quotient is exact if representable and otherwise rounded to as many decimals as a quantity has room for; it panics with an overflow exactly if the integer nearest to it needs more than 96 bits. When the quotient is exactly representable, (a / b) * b has the value of a.", "quantifier": "every pair of amounts", "why_tests_cant": "algebraic law over all operand pairs", "anchors": ["src/amount.rs: impl Mul, impl MulAssign, impl Div"]}
{"id": "C07", "title": "A balance is the per-commodity sum of what was added", "statement": "After any sequence of Balance::add calls on an empty balance, for every commodity (including 'no commodity') the balance holds exactly the sum of the amounts added in that commodity, holds at most one entry per commodity, and holds an entry exactly for the commodities that were added.", "quantifier": "every finite sequence of amounts whose magnitudes stay within the decimal range", "why_tests_cant": "sequences are unbounded; tests add at most two amounts", "anchors": ["src/balance.rs: Balance::add, AddAssign<Amount>"]}
{"id": "C08", "title": "Order of additions does not matter", "statement": "Adding the same amounts to a balance in any order gives the same total for every commodity.", "quantifier": "every sequence of amounts within the decimal range and every permutation of it", "why_tests_cant": "n! orders of unbounded sequences", "anchors": ["src/balance.rs: Balance::add"]}
{"id": "C09", "title": "Subtracting from a balance undoes adding", "statement": "balance -= amount lowers the total of that commodity by exactly the amount and leaves every other commodity alone, whether or not the commodity was already present.", "quantifier": "every balance and every amount", "why_tests_cant": "tests only subtract a positive amount from an empty balance", "anchors": ["src/balance.rs: SubAssign<Amount> for Balance"]}
{"id": "C10", "title": "Merging balances", "statement": "a += b on balances gives, for every commodity, the sum of the two totals, and keeps one entry per commodity.", "quantifier": "every pair of balances within the decimal range", "why_tests_cant": "unbounded number of commodities on both sides", "anchors": ["src/balance.rs: AddAssign<Balance> for Balance"]}
{"id": "C11", "title": "One commodity per symbol", "statement": "In any history of commodity pool calls, find_or_create with a non-empty symbol always returns the commodity of exactly that symbol, returns the same commodity every time, never replaces an existing commodity, and different symbols give different commodities; an empty symbol gives no commodity.", "quantifier": "every sequence of find_or_create / price / annotation operations on a pool", "why_tests_cant": "histories are unbounded", "anchors": ["src/pool.rs: CommodityPool::find_or_create, create, find"]}
{"id": "C12", "title": "Commodities and price-graph nodes correspond one to one", "statement": "After any history of find_or_create calls and price recordings, every commodity has its own node in the price graph, get_by_index of a commodity's index gives that commodity back, and there are exactly as many nodes as commodities.", "quantifier": "every sequence of pool operations", "why_tests_cant": "histories are unbounded", "anchors": ["src/pool.rs: create, find_index, get_by_index, len", "src/history.rs: add_commodity, get_commodity"]}
{"id": "C13", "title": "Direct price is the most recent one recorded", "statement": "After any sequence of price recordings, the direct price of A in B is the recording for the pair (A,B) with the greatest date-time; among recordings with the same date-time the one made last; and there is none if and only if no price was ever recorded for that ordered pair. Recordings for other pairs, including (B,A), have no influence.", "quantifier": "every sequence of price recordings over any commodities", "why_tests_cant": "unbounded histories with arbitrary interleavings of pairs and dates", "anchors": ["src/history.rs: add_price, get_direct_price, get_latest_price"]}
{"id": "C14", "title": "A price is found exactly when a chain of recorded prices exists", "statement": "find_price(A, B) returns nothing if and only if there is no chain of recorded prices leading from A to B. Otherwise the quantity returned is expressed in B and is the product of the latest prices along a shortest such chain (a direct price if there is one), where the products are taken one after the other from A on and rounded only if they cannot be represented; the call panics exactly if such a product is too large.", "quantifier": "every price graph reachable by recordings and every pair of distinct commodities", "why_tests_cant": "arbitrary graphs; tests use one and two hops", "anchors": ["src/history.rs: find_price, calculate_rate"]}
{"id": "C15", "title": "A price lookup honours the requested moment", "statement": "find_price(A, B, moment, oldest) never returns a price dated after the requested moment or before 'oldest'.", "quantifier": "every price history, pair of commodities and moments", "why_tests_cant": "histories and moments are unbounded", "anchors": ["src/history.rs: find_price"]}
{"id": "C16", "title": "The date of a computed rate is its oldest leg", "statement": "The date attached to a multi-hop price is the least recent of the dates of the prices it was computed from.", "quantifier": "every price graph, path and clock value", "why_tests_cant": "arbitrary paths and wall-clock values", "anchors": ["src/history.rs: calculate_rate"]}
{"id": "C17", "title": "Exchange prices a posting at cost divided by amount", "statement": "exchange(amount, cost) leaves the amount unchanged, reports the total cost as final cost, and proposes as new price the absolute per-unit cost, in the cost's commodity, exactly when that is non-zero and in another commodity than the amount; per-unit cost times the quantity gives back the absolute total cost when the quotient is exact.", "quantifier": "every amount and cost, per-unit or total, rounded or not", "why_tests_cant": "all pairs of quantities", "anchors": ["src/pool.rs: CommodityPool::exchange"]}
{"id": "C18", "title": "Every lot keeps its own price annotation", "statement": "The lot price and date written on a posting ({price} [date]) are what the pool reports for that lot afterwards; a later posting of the same commodity with another lot annotation is not dropped.", "quantifier": "every sequence of annotated postings", "why_tests_cant": "histories of postings are unbounded", "anchors": ["src/pool.rs: find_or_create, create", "src/annotate.rs: Annotation::parse", "src/parser.rs: parse_post"]}
{"id": "C19", "title": "The annotated flag tells whether an annotation is stored", "statement": "A commodity's annotated flag is set exactly when the pool stores an annotation for it.", "quantifier": "every history of pool operations", "why_tests_cant": "histories are unbounded", "anchors": ["src/pool.rs: create, find_or_create"]}
{"id": "C20", "title": "A registered account is found again under its name", "statement": "After register_account(name), find_account(name) returns that same account, also after any further registrations, and for a name whose parts between colons are all non-empty its full name is exactly the given name.", "quantifier": "every account name and every later sequence of registrations", "why_tests_cant": "names and histories are unbounded", "anchors": ["src/account.rs: find_or_create, find_account, fullname", "src/journal.rs: register_account, find_account"]}
{"id": "C21", "title": "Registering is idempotent and never loses anything", "statement": "Registering an account that exists changes nothing; registering a new one keeps every existing account, with its postings, and adds exactly the missing ancestors.", "quantifier": "every account tree and every account name", "why_tests_cant": "trees are unbounded", "anchors": ["src/account.rs: find_or_create, create_account"]}
{"id": "C22", "title": "Looking up an account never fails abnormally", "statement": "find_account on a name that was never registered returns None and changes nothing.", "quantifier": "every account tree and every name", "why_tests_cant": "all missing names at all depths", "anchors": ["src/account.rs: find_account, find_or_create"]}
{"id": "C23", "title": "Different accounts have different full names", "statement": "Two different accounts of the tree never share a full name.", "quantifier": "every account tree reachable by registrations and every pair of accounts in it", "why_tests_cant": "pairs of arbitrary names", "anchors": ["src/account.rs: fullname, find_or_create"]}
{"id": "C24", "title": "Flattening lists every account once, parents first, siblings sorted", "statement": "flatten_account_tree returns each account of the tree exactly once, every account before its descendants, and children in ascending order of name, whatever the order in which the accounts were registered or the hash map iterates.", "quantifier": "every account tree and every iteration order of its hash maps", "why_tests_cant": "hash-map order is not controlled by tests", "anchors": ["src/account.rs: flatten, flatten_account_tree"]}
{"id": "C25", "title": "An account total is the sum over its subtree", "statement": "Account::total equals, for every commodity, the sum of the amounts of all postings to the account and to all its descendants; the total of a parent is its own amount plus the totals of its children.", "quantifier": "every account tree and every assignment of postings within the decimal range", "why_tests_cant": "trees are unbounded", "anchors": ["src/account.rs: amount, total"]}
{"id": "C26", "title": "The balance report has one correct line per account", "statement": "balance_report yields exactly one line per account, the master first, in sorted depth-first order, each carrying the account's full name followed by the entries of its total.", "quantifier": "every journal within the decimal range", "why_tests_cant": "journals are unbounded", "anchors": ["src/report.rs: balance_report, get_children_lines"]}
{"id": "C27", "title": "A balance line can be read back", "statement": "The text of a balance line determines the balance: two different totals never print the same.", "quantifier": "every pair of account totals", "why_tests_cant": "pairs of arbitrary balances", "anchors": ["src/report.rs: get_children_lines"]}
{"id": "C28", "title": "The accounts command lists all account names in sorted order", "statement": "run with an 'accounts' verb returns the names of all accounts in ascending order, each account once, independent of the order of registration and of hash-map iteration.", "quantifier": "every journal", "why_tests_cant": "journals and hash orders are unbounded", "anchors": ["src/report.rs: report_accounts", "src/lib.rs: execute_command"]}
{"id": "C29", "title": "Report figures do not depend on transaction order", "statement": "Permuting the postings in a journal leaves every account's total in every commodity unchanged.", "quantifier": "every journal within the decimal range and every permutation of an account's postings", "why_tests_cant": "n! orders", "anchors": ["src/account.rs: amount, total", "src/report.rs: get_children_lines"]}
{"id": "C30", "title": "Every accepted transaction balances", "statement": "If a transaction is accepted, the sum of its postings (taken at cost where a cost applies) is zero in every commodity.", "quantifier": "every transaction", "why_tests_cant": "all combinations of postings, signs, commodities", "anchors": ["src/xact.rs: finalize"]}
{"id": "C31", "title": "A blank posting receives what balances the rest", "statement": "If exactly one posting of a transaction has no amount and the others are in one commodity, the blank posting gets the negated sum of the others in that commodity.", "quantifier": "every number of postings and every amounts within the decimal range, both signs", "why_tests_cant": "tests only use positive totals", "anchors": ["src/xact.rs: finalize"]}
{"id": "C32", "title": "Ambiguous transactions are refused", "statement": "A transaction with a single posting, with two or more blank postings, or with one blank posting and amounts in several commodities is not accepted.", "quantifier": "every transaction", "why_tests_cant": "all shapes of transactions", "anchors": ["src/xact.rs: finalize"]}
{"id": "C33", "title": "Every posting of an accepted transaction has an amount", "statement": "After a transaction is accepted every one of its postings has an amount, and the transaction has no or at least two postings.", "quantifier": "every journal text that parses", "why_tests_cant": "all texts", "anchors": ["src/xact.rs: finalize", "src/parser.rs: xact_directive"]}
{"id": "C34", "title": "Finalizing never alters what the user wrote", "statement": "Accepting a transaction changes neither the explicitly written amounts nor accounts, notes, payee or dates nor the number and order of postings; only the blank amount is filled in and costs may be added.", "quantifier": "every transaction", "why_tests_cant": "all transactions", "anchors": ["src/xact.rs: finalize"]}
{"id": "C35", "title": "Implied conversion rate of a two-commodity transaction", "statement": "When a transaction has no blank posting and its postings sum to exactly two commodities, both non-zero, each posting in the commodity of the first posting gets a cost in the other commodity at the single rate |total of other / total of first|, so that when the quotient is exact and the totals have opposite signs the transaction balances at cost.", "quantifier": "every such transaction within the decimal range", "why_tests_cant": "arbitrary numbers of postings and quantities", "anchors": ["src/xact.rs: finalize"]}
{"id": "C36", "title": "Costs create market prices dated with the transaction", "statement": "Every posting with a cost whose per-unit value is non-zero leaves, in the price history, a price of its commodity in the cost commodity at midnight of the transaction date; a transaction without costs leaves the price history alone.", "quantifier": "every accepted transaction", "why_tests_cant": "arbitrary transactions and previous histories", "anchors": ["src/xact.rs: finalize", "src/pool.rs: exchange, add_price_struct"]}
{"id": "C37", "title": "A cost must be in another commodity", "statement": "A posting whose cost is in the same commodity as its amount is refused.", "quantifier": "every transaction", "why_tests_cant": "all amounts and costs", "anchors": ["src/xact.rs: finalize"]}
{"id": "C38", "title": "A sale at a total cost is booked with the sign of the amount", "statement": "The cost of a posting has the sign of its amount, for per-unit (@) and total (@@) costs alike.", "quantifier": "every posting with a non-negative written cost", "why_tests_cant": "all quantities of both signs", "anchors": ["src/parser.rs: parse_cost"]}
{"id": "C39", "title": "The grand total is the sum of all postings", "statement": "The total of the master account equals, for every commodity, the sum of the amounts of all postings of the journal.", "quantifier": "every journal obtained by parsing text, within the decimal range", "why_tests_cant": "journals are unbounded", "anchors": ["src/account.rs: total", "src/journal.rs: all_posts", "src/parser.rs: parse_post"]}
{"id": "C40", "title": "Reading more text never alters what was read before", "statement": "Parsing further text into a journal keeps all earlier transactions, with their postings, unchanged and in place, and keeps all accounts, commodities and prices' pairs; new transactions are appended in file order.", "quantifier": "every journal and every text that parses", "why_tests_cant": "histories of reads are unbounded", "anchors": ["src/parser.rs: parse, xact_directive, parse_post", "src/journal.rs: add_xact"]}
{"id": "C41", "title": "Several files read like one", "statement": "Reading files one after the other gives the same journal as reading their concatenation with an empty line between them.", "quantifier": "every list of file contents", "why_tests_cant": "arbitrary contents and split points", "anchors": ["src/lib.rs: session_read_journal_files, parse_file, parse_text", "src/parser.rs: parse"]}
{"id": "C42", "title": "Comments and blank lines between transactions are invisible", "statement": "Inserting comment lines (; # * |), option lines (-) or empty lines between directives does not change the resulting journal.", "quantifier": "every text and every insertion point between directives", "why_tests_cant": "arbitrary insertion points", "anchors": ["src/parser.rs: read_next_directive"]}
{"id": "C43", "title": "Each posting is booked to exactly one account", "statement": "After parsing, the posting lists of the accounts contain every posting of every transaction exactly once and nothing else, and each posting is listed under the account it names.", "quantifier": "every journal text that parses", "why_tests_cant": "all texts", "anchors": ["src/parser.rs: parse_post", "src/journal.rs: all_posts"]}
{"id": "C44", "title": "read reports the number of transactions parsed", "statement": "Journal::read returns the number of transactions parsed from the given source.", "quantifier": "every journal and every source", "why_tests_cant": "journals with previous content are not tested", "anchors": ["src/journal.rs: Journal::read"]}
{"id": "C45", "title": "Notes are kept", "statement": "A comment line inside a transaction is kept as note of the transaction if no posting precedes it and otherwise of the last preceding posting; no note text is lost.", "quantifier": "every transaction body", "why_tests_cant": "any number and position of notes", "anchors": ["src/parser.rs: parse_trailing_note", "src/xact.rs: add_note", "src/post.rs: add_note"]}
{"id": "C46", "title": "Transaction header round trip", "statement": "Tokenizing 'DATE[=AUX] PAYEE  ; NOTE', with any blanks between the parts, gives back exactly the date, auxiliary date, payee and note it was written from.", "quantifier": "every header whose fields are free of the separators", "why_tests_cant": "arbitrary payees and notes", "anchors": ["src/scanner.rs: tokenize_xact_header, scan_date, tokenize_aux_date, tokenize_payee, tokenize_note"]}
{"id": "C47", "title": "Posting round trip", "statement": "Scanning 'ACCOUNT  QTY SYM {PRICE} [DATE] @ COST' (every part after the account optional as in the grammar; @ or @@) gives back exactly the written account, quantity, symbol, lot price, lot date, cost and kind of cost.", "quantifier": "every posting whose fields are free of the separators", "why_tests_cant": "arbitrary field contents and combinations", "anchors": ["src/scanner.rs: scan_post, scan_amount, scan_annotations, scan_cost, scan_quantity, scan_symbol"]}
{"id": "C48", "title": "Symbol before or after the number", "statement": "'EUR 25', 'EUR25', '25 EUR' and '25EUR' scan to the same quantity and symbol.", "quantifier": "every symbol that begins with neither a point nor a comma and every quantity that begins with a digit or a minus sign", "why_tests_cant": "arbitrary symbols", "anchors": ["src/scanner.rs: scan_amount"]}
{"id": "C49", "title": "Spacing around the cost sign is irrelevant", "statement": "A cost written without a space after @ or @@ is read as the same cost as with a space.", "quantifier": "every posting with a cost", "why_tests_cant": "arbitrary costs", "anchors": ["src/scanner.rs: scan_cost"]}
{"id": "C50", "title": "An unreadable amount is never dropped silently", "statement": "If the text of a posting contains an amount that cannot be parsed as a number, parsing fails; the posting is not treated as if the amount had been left out.", "quantifier": "every posting text", "why_tests_cant": "all malformed numbers", "anchors": ["src/parser.rs: parse_amount_parts, parse_post, parse_cost"]}
{"id": "C51", "title": "Trailing blanks do not change a posting", "statement": "Trailing spaces at the end of a posting line do not change how it is read.", "quantifier": "every posting line", "why_tests_cant": "all lines", "anchors": ["src/scanner.rs: scan_post, scan_amount"]}
{"id": "C52", "title": "A note never becomes a commodity", "statement": "Text after ';' on a posting line is a note and never part of the amount or its commodity.", "quantifier": "every posting line", "why_tests_cant": "all lines", "anchors": ["src/scanner.rs: scan_post, scan_amount, scan_symbol"]}
{"id": "C53", "title": "Dates are read exactly", "statement": "The date YYYY-MM-DD of a transaction header or price is read as precisely that calendar day, and text that is not a calendar day is refused.", "quantifier": "every calendar day of years 0..9999 and every other text of that shape", "why_tests_cant": "3.6 million days and all invalid ones", "anchors": ["src/parser.rs: parse_date, parse_datetime", "src/pool.rs: parse_price_directive"]}
{"id": "C54", "title": "A date-only header is a valid transaction header", "statement": "A header line consisting of just a date opens a transaction with that date and the payee 'Unknown Payee'.", "quantifier": "every date and line ending", "why_tests_cant": "all dates and line endings", "anchors": ["src/scanner.rs: tokenize_xact_header, scan_date", "src/xact.rs: Xact::create"]}
{"id": "C55", "title": "Price directive", "statement": "parse_price_directive('P DATE [TIME] SYM QTY SYM2') records exactly that quantity as price of SYM in SYM2 at that date and time (midnight if no time is given), creating the commodities when needed.", "quantifier": "every pool and every well-formed price line", "why_tests_cant": "arbitrary symbols, quantities and pools", "anchors": ["src/pool.rs: parse_price_directive", "src/scanner.rs: scan_price_directive"]}
{"id": "C56", "title": "Price directives in a journal are read", "statement": "A line starting with 'P' in a journal text records the price it states.", "quantifier": "every journal text with price lines", "why_tests_cant": "all texts", "anchors": ["src/parser.rs: read_next_directive, general_directive, price_xact_directive"]}
{"id": "C57", "title": "Include reads the file in place", "statement": "An include line gives the same journal as the included file's text at that place; a missing file leaves the journal unchanged.", "quantifier": "every file system, include argument and journal", "why_tests_cant": "arbitrary file systems and nesting", "anchors": ["src/parser.rs: general_directive, include_directive"]}
{"id": "C58", "title": "Arguments are split into commands and files in order", "statement": "process_arguments returns the arguments that are neither options nor option values as commands, in order, and the values of -f as file names, in order.", "quantifier": "every list of arguments built from words and -f pairs", "why_tests_cant": "arbitrary interleavings", "anchors": ["src/option.rs: process_arguments, get_input_options"]}
{"id": "C59", "title": "Unknown or malformed options are refused", "statement": "Any option other than -f with a value is refused instead of being ignored.", "quantifier": "every list of arguments", "why_tests_cant": "all argument lists", "anchors": ["src/option.rs: process_arguments, get_input_options"]}
{"id": "C60", "title": "The verb selects the report", "statement": "run gives the account list for verbs starting with 'a', the balance report for b, bal and balance, and refuses every other verb; further words are ignored.", "quantifier": "every argument list and file system", "why_tests_cant": "all argument lists", "anchors": ["src/lib.rs: run, execute_command"]}
{"id": "C61", "title": "The command line program runs the command it is given", "statement": "Running the program with arguments 'b -f FILE' prints the balance report of FILE.", "quantifier": "every program path and file", "why_tests_cant": "depends on argv[0], which tests do not pass", "anchors": ["src/main.rs: main, execute_command", "src/lib.rs: run"]}
{"id": "C62", "title": "References to postings stay valid", "statement": "The posting references kept by the accounts refer to the postings of the transaction for as long as the journal lives.", "quantifier": "every number of postings per transaction", "why_tests_cant": "whether a reallocation moves the data depends on the allocator and on the number of postings; a passing test shows nothing", "anchors": ["src/parser.rs: parse_post", "src/xact.rs: add_post", "src/account.rs: amount"]}
{"id": "C63", "title": "References to commodities and accounts stay valid", "statement": "The commodity referred to by an amount and the account and parent referred to by postings and accounts remain valid while further commodities and accounts are added.", "quantifier": "every number of commodities and sibling accounts", "why_tests_cant": "use after free may go unnoticed in any number of test runs", "anchors": ["src/pool.rs: create, find_or_create", "src/account.rs: create_account, set_parent, fullname"]}
{"id": "C64", "title": "Equal commodities are interchangeable in a balance", "statement": "Adding to a balance an amount whose commodity equals (==) one already present adds to that entry.", "quantifier": "every pair of amounts with equal commodities", "why_tests_cant": "identity versus equality of all pairs of references", "anchors": ["src/balance.rs: Balance::add", "src/amount.rs: Amount::add, get_commodity", "src/commodity.rs: Commodity"]}
{"id": "C65", "title": "The directive iterator yields one item per line", "statement": "Iterating a DirectiveIter over a text yields one directive per line and then ends.", "quantifier": "every text", "why_tests_cant": "all texts", "anchors": ["src/reader.rs: DirectiveIter::next"]}
{"id": "C66", "title": "The sample iterator ends for good", "statement": "SimpleParserIter yields 100 items and, once it has returned None, always returns None.", "quantifier": "every number of calls to next", "why_tests_cant": "unbounded number of calls", "anchors": ["src/iterator.rs: SimpleParserIter::next"]}
{"id": "C67", "title": "Integers survive conversion to quantities", "statement": "Converting an i32 to a Quantity and back gives the same integer, and the quantity's value is that integer.", "quantifier": "every i32", "why_tests_cant": "2^32 values", "anchors": ["src/amount.rs: From<i32> for Quantity, Into<i32> for Quantity, From<i32> for Amount"]}
{"id": "C68", "title": "A posting's pointer to its transaction stays valid", "statement": "The transaction pointer stored in a posting refers to the transaction that holds the posting for as long as the journal lives.", "quantifier": "for all journals, all transactions and all allocators", "why_tests_cant": "Whether a stale pointer shows depends on the allocator and on how many transactions follow; tests use one or two transactions.", "anchors": ["src/xact.rs:79-84", "src/journal.rs:38-42", "src/post.rs:17", "src/parser.rs:258-267"]}
{"id": "C69", "title": "A posting line is booked as written", "statement": "Reading a posting line 'ACCOUNT  QTY SYM {PRICE} [DATE] @ COST' (each part after the account optional; a note can follow where the amount and the cost have commodities) appends exactly one posting with the written account, amount and cost (a per-unit cost times the amount), creates the account with its parents if needed and books the posting there, and changes nothing else in the account tree and the earlier transactions; its commodities become known and its lot is stored if the commodity has none yet.", "quantifier": "every posting text that is not refused (whose product of cost and amount can be represented) and every journal", "why_tests_cant": "arbitrary names, numbers, spacing and journals", "anchors": ["src/parser.rs: parse_post, parse_amount, parse_cost, parse_annotation", "src/scanner.rs: scan_post"]}
{"id": "C70", "title": "A balanced transaction is accepted and stored as written", "statement": "A transaction text whose postings sum to zero in every commodity (costs counted instead of amounts), or that leaves one posting blank beside amounts in one commodity, or that exchanges one commodity for another without naming costs, is accepted; the journal then holds exactly its dates, payee, notes and postings, with only the blank amount filled in so that the sum is zero, or the costs added that the exchange implies.", "quantifier": "every transaction text without refused lines and every journal", "why_tests_cant": "arbitrary transactions, costs, lots and journals", "anchors": ["src/parser.rs: xact_directive", "src/xact.rs: finalize"]}
{"id": "C71", "title": "A journal text gives exactly its transactions", "statement": "A text that consists of transactions as in C70, each ended by an empty line or the end of the text, with comments, empty lines and include lines in between, adds exactly these transactions to the journal, in this order, those of an included file at the place of its include line. The last line needs no line feed. The added transactions balance in every commodity and every posting has an amount.", "quantifier": "every text of this form and every journal", "why_tests_cant": "arbitrarily long texts", "anchors": ["src/parser.rs: parse, read_next_directive, xact_directive, include_directive", "src/lib.rs: parse_text"]}
{"id": "C72", "title": "The balance command reports what is written", "statement": "For files as in C71, 'bal -f FILE' (with one or more -f) prints one line for the root and for each written account and each of its parents, each once, sorted by name with parents first, and the balance on a line is, in every commodity that is written, the sum of the amounts written for that account and everything below it. The accounts command prints the last parts of the same accounts' names in ascending order.", "quantifier": "every file of this form", "why_tests_cant": "arbitrarily many accounts, transactions and commodities", "anchors": ["src/lib.rs: run, execute_command", "src/report.rs: balance_report", "src/parser.rs: parse", "src/account.rs: total"]}
{"id": "C73", "title": "Balances found from the postings agree with the accounts", "statement": "get_account_balances, which searches the journal for the postings of each account, returns for every account of the tree its full name and exactly the balance Account::amount computes from the account's own posting list, in the order of flatten_account_tree; it fails exactly when one of those fails.", "quantifier": "every journal a program can build by reading texts and registering accounts", "why_tests_cant": "two different traversals over arbitrary journals must agree, including the order of entries", "anchors": ["src/report.rs: get_account_balances", "src/account.rs: amount, flatten_account_tree"]}
{"id": "C74", "title": "The amounts of a journal are well formed", "statement": "Every amount and cost of every posting, whether written or computed during finalisation, and every entry of every account total has a quantity of at most 96 bits and at most 28 decimals, and a commodity that is null or a non-empty symbol without white space, '@', digits and minus signs.", "quantifier": "every journal a program can build by reading texts and registering accounts", "why_tests_cant": "all texts; computed costs and filled-in amounts depend on arbitrary arithmetic", "anchors": ["src/scanner.rs: scan_symbol, scan_post", "src/parser.rs: parse_post, parse_amount_parts, parse_cost", "src/xact.rs: finalize", "src/account.rs: total"]}
{"id": "C75", "title": "The report with commas", "statement": "format_balance_report returns one line for each balance given, by account name in ascending order and otherwise in the order given; each line names the account and lists the entries separated by comma and space, and the line determines the balance, also for entries without commodity.", "quantifier": "every list of balances; reading back for all amounts that occur in journals", "why_tests_cant": "arbitrary lists of balances; symbols may contain commas", "anchors": ["src/report.rs: format_balance_report"]}
{"id": "C76", "title": "The account tree in memory is the tree of names", "statement": "find_or_create with creation returns the address of the account the name denotes and creates exactly the missing accounts, also when the table of a parent grows and its entries are moved. No two accounts ever have the same address, following the address of an account of the tree leads to that account, and pushing a posting there books it on that account only.", "quantifier": "every sequence of registrations, postings and full name requests; every name", "why_tests_cant": "arbitrary sequences; table growth moves accounts at sizes that depend on the history", "anchors": ["src/account.rs: create_account, find_or_create", "src/parser.rs: parse_post"]}
{"id": "C77", "title": "The full name is the names of the account and its parents joined with colons", "statement": "Account::fullname returns the names from the top level account down joined with colons, whatever was registered before, whether the cache was filled or not, and later calls return the same text.", "quantifier": "every sequence of registrations, postings and full name requests; every account", "why_tests_cant": "the parent pointers are raw pointers into tables that move; whether they are valid depends on the history", "anchors": ["src/account.rs: fullname, set_fullname, set_parent, create_account"]}
{"id": "C78", "title": "The balance report names every account rightly", "statement": "balance_report, which finds the names through parent pointers, prints one line for each account in order, with the full name of the account and the sums of the postings on it and below.", "quantifier": "every journal read from texts, every layout of its accounts in memory", "why_tests_cant": "depends on the number of accounts and the order in which they were first used", "anchors": ["src/report.rs: balance_report, get_children_lines", "src/account.rs: fullname, total"]}
{"id": "C79", "title": "A command line is split as a shell splits it", "statement": "run_command does with a command line what run does with the words a shell reads in it: blanks separate words, quotations and backslashes protect characters, # begins a comment; a line with an unclosed quotation is refused; every list of arguments can be written as a command line.", "quantifier": "every command line, every list of arguments, every set of files", "why_tests_cant": "quoting rules interact over unboundedly long lines", "anchors": ["src/lib.rs: run_command, run"]}
{"id": "C80", "title": "A transaction is accepted exactly if it is not defective", "statement": "Xact::finalize accepts a transaction exactly if it has none of these defects: a single posting; two blank postings; a blank posting beside two commodities; a cost without an amount; a cost that is no price (of an amount without commodity, in the amount's own commodity, or a bare number other than zero) and is not replaced by an implied one; an implied rate from or to no commodity; a cost without a date. Otherwise only a number too large to be held makes it fail, and numbers of everyday size (at most D decimals and 10^T in all with D + 2T <= 27, such as two decimals and a million million or nine decimals and a billion; without written or implied costs D + T <= 28) never do.", "quantifier": "every transaction, every commodity pool built by the API that knows its commodities", "why_tests_cant": "the classification covers all combinations of postings, costs and commodities", "anchors": ["src/xact.rs: finalize", "src/pool.rs: exchange, add_price"]}
{"id": "C81", "title": "A journal is read exactly if nothing in it is faulty, and then holds what is written", "statement": "A journal text of transactions with numbers of everyday size is read without failure exactly if no transaction is faulty: a single posting; two blank postings; a blank posting beside two commodities; a cost that is no price and is not replaced by an implied one; an implied rate from or to no commodity. The journal then has exactly the written transactions in order, where a blank posting gets the sum of the others with a minus sign and costs are added where a rate is implied; exactly the written accounts with their parents; exactly the written commodities; the lot of the first posting of each commodity; and one price per cost. The balance and accounts commands fail or print accordingly.", "quantifier": "every text, every set of files that include each other, every journal it is read into", "why_tests_cant": "texts, numbers and include structures are unbounded, and both directions of acceptance are claimed", "anchors": ["src/parser.rs: parse, xact_directive, parse_post", "src/xact.rs: finalize", "src/lib.rs: run, parse_text"]}
{"id": "C82", "title": "The costs in a journal are its prices", "statement": "After a journal text is read, the direct price between two commodities is the last of the latest per-unit costs of the first in the second that the transactions write or imply, dated at midnight of the transaction; there is none if no posting has such a cost. A price query returns nothing exactly if no chain of such costs connects the commodities, and otherwise the product of the latest prices along a shortest chain, rounded only where a product cannot be represented, or panics if one is too large.", "quantifier": "every text with numbers of everyday size, every pair of commodities, every shortest-path search", "why_tests_cant": "the history depends on all transactions and their dates in arbitrary order", "anchors": ["src/xact.rs: finalize", "src/pool.rs: exchange, add_price, find_price", "src/history.rs: add_price, get_direct_price, find_price"]}
{"id": "C83", "title": "The order of the commodities on a report line", "statement": "In an account total, and so on the line of the account in the balance report, each commodity is listed once, in the order of first occurrence when the postings are read account by account: accounts below before the account itself, siblings by name, and within an account in the order of the journal. The order does not depend on the order of a hash table.", "quantifier": "every journal a program can have, every account whose total can be computed", "why_tests_cant": "arbitrary trees, postings and commodities; the children come out of a hash table in random order", "anchors": ["src/account.rs: total, amount", "src/balance.rs: add", "src/report.rs: get_children_lines"]}
{"id": "C84", "title": "What the program prints can be read back", "statement": "The program prints a greeting, then the arguments, then a line for every line of the files that could not be read, then the lines of the report as one line of string literals in brackets; if it panics the last line is missing. Whatever characters the names in the journal have, no literal contains a line feed, and the printed text determines the arguments, how many lines could not be read, whether the run succeeded, and every line of the report.", "quantifier": "every argument vector, every set of files (readable or not), every choice of printable characters, every error text without a line feed", "why_tests_cant": "arbitrary characters in arguments, account names and symbols: quotes, backslashes, commas, brackets, control and combining characters", "anchors": ["src/main.rs: main, execute_command", "src/parser.rs: parse, xact_directive"]}
{"id": "C85", "title": "No reference is made from a null pointer", "statement": "Reading a journal never turns a null commodity pointer into a reference (undefined behaviour in Rust).", "quantifier": "every source, file system and journal; every transaction and pool; every pair of amounts", "why_tests_cant": "undefined behaviour need not show in a test; the claim is about every path through the arithmetic on amounts", "anchors": ["src/amount.rs: inverse, Add, Mul", "src/balance.rs: SubAssign", "src/xact.rs: finalize", "src/pool.rs: exchange"]}
{"id": "C86", "title": "Only what is written matters, not how it is written", "statement": "Two journal texts that say the same transactions, in the same order, do the same to a journal: they give the same journal or fail with the same panic. Blanks, ignored lines, the side of the commodity, leading zeros, notes after postings, and the division of the transactions among included files do not matter. Two commands on files that together say the same transactions print the same report or fail in the same way, however the transactions are divided among the files, and the program prints the same after the line with its arguments.", "quantifier": "for all file systems, include depths, texts and lists of written transactions, of any size and whether or not they balance, and all journals", "why_tests_cant": "It compares the results of all texts for one list of transactions, and also the ways in which they fail; tests compare the layouts that someone thought of.", "anchors": ["src/parser.rs:108-331", "src/parser.rs:415-502", "src/scanner.rs:92-420", "src/lib.rs:67-147", "src/main.rs:6-30"]}
{"id": "C87", "title": "Reading and reporting fail only in these ways", "statement": "A run of the program either prints its report or fails in one of 31 ways, each of which is a fault in the command line, a file that cannot be opened, a fault in a line of the input, a number that gets too large, or includes nested too deeply; each of the 31 does occur. It never fails because its own state is out of order: no commodity or transaction pointer leads nowhere, no price graph node lacks a commodity, no account just made is missing, no posting reference in an account is dangling, no posting lacks its amount in a report, no transaction lacks its date; and it never divides by zero or adds amounts in different commodities. The same holds for reading a text into any journal; reports on a journal fail only if a number gets too large, and an account can be registered exactly if its name is not empty.", "quantifier": "for all file systems, include depths, argument lists, texts and journals reachable by any sequence of reading, registering accounts and using the pool", "why_tests_cant": "That a panic in the code cannot be reached is a statement about all inputs; tests only show panics that do occur.", "anchors": ["src/lib.rs:67-156", "src/parser.rs:108-502", "src/scanner.rs:92-450", "src/xact.rs:39-278", "src/pool.rs:48-252", "src/history.rs:53-90", "src/account.rs:100-216", "src/balance.rs:40-91", "src/amount.rs:52-200", "src/report.rs:31-96", "src/option.rs:26-329"]}
{"id": "C88", "title": "Which panic a faulty journal ends with", "statement": "Reading a journal whose numbers are of everyday size ends with a panic exactly if one of its transactions is faulty. The first faulty transaction in reading order, across include lines and the files of the command line, decides which panic it is: two blank postings before a single posting, then the first posting whose cost is no price (in the commodity of the amount; of an amount without commodity; a number without commodity), then a blank posting beside two commodities. Later faults and faults of lower rank change nothing.", "quantifier": "all texts and lists of files that say transactions of everyday size, all start journals, both commands", "why_tests_cant": "The order of the checks matters only for journals with several faults at once; there are unboundedly many combinations of faults, postings, files and include lines.", "anchors": ["src/xact.rs:105-278 finalize", "src/pool.rs:152-218 exchange", "src/history.rs:53-81 add_price", "src/parser.rs parse"]}
{"id": "C89", "title": "The report figure by figure", "statement": "For a journal of everyday size without a faulty transaction, the balance report is determined to the last digit by what is written: one line for each account and its parents, sorted by name at every level, each with the sums of what is booked to it and below it, one figure per commodity, in the order in which the sub-accounts and then its own postings bring the commodities in. A sum has the decimals of its most precise operand, except that zeros count for nothing; a per-unit cost has the decimals of price and quantity together. The figures of an account are the exact sums, and only the order of bookings within each account matters, not how accounts are mixed.", "quantifier": "all lists of files that say transactions of everyday size and total size, all arguments for the balance command", "why_tests_cant": "Decimals, sign of zero and order of commodities depend on the order of all postings and on the whole account tree; tests compare a few reports.", "anchors": ["src/balance.rs:40-58 add", "src/account.rs:157-215 amount, total", "src/amount.rs Add, Mul", "src/report.rs:31-133 balance_report", "src/xact.rs:105-278 finalize"]}
{"id": "C90", "title": "What every posting line and header line is taken for", "statement": "Every posting line is either taken for exactly one posting or refused with one panic, and which of the two follows from its text alone: the account up to the first two spaces, the longest number and symbol, lots in braces and brackets, a cost after one or two at-signs; it is refused exactly when these parts cannot be found, when the date of the lot is not a day, or when the product of amount and cost per unit is too large. A line that is not refused adds the posting it says. A header line is refused exactly when one of its dates is not a day.", "quantifier": "every text, in every journal", "why_tests_cant": "all texts, however odd", "anchors": ["src/scanner.rs: scan_post, scan_amount, scan_annotations, scan_cost, tokenize_xact_header", "src/parser.rs: parse_post, parse_cost, create_xact", "src/annotate.rs: Annotation::parse"]}
{"id": "C91", "title": "What every text says", "statement": "Every line outside a transaction is exactly one of: ignored, a transaction header, indented (refused), an include of a file, an include that is skipped, a price line, or refused with one panic; which one follows from its text alone. Every price line records exactly one price or is refused with one panic. So the lines of a text, with the files they include, say exactly one list of transactions, prices and unreadable lines, and reading them ends in exactly one way: at the end, at a line that is refused outside a transaction, or at a line that is refused inside one.", "quantifier": "every list of lines (readable or not), every set of files, every depth of includes, every list of files on the command line", "why_tests_cant": "all texts, however odd, and all ways they include each other", "anchors": ["src/parser.rs: parse, read_next_directive, general_directive, include_directive, xact_directive", "src/scanner.rs: scan_price_directive", "src/pool.rs: parse_price_directive"]}
{"id": "C92", "title": "What reading any files makes of them", "statement": "For files whose transactions have numbers of everyday size: a command ends with a panic exactly if a transaction is faulty or a line is refused or a file is missing, whichever comes first, and with the panic that belongs to it. Otherwise the journal has exactly the transactions, accounts, commodities, lots and prices that the files say (prices both from price lines and from costs, in order), the balance report has the digits determined by what is written, the accounts report has the accounts, and price queries find the latest prices along a shortest chain.", "quantifier": "all files with transactions of everyday size, whatever else is in them", "why_tests_cant": "all texts, all include structures, all numbers", "anchors": ["src/parser.rs: parse, read_next_directive, xact_directive, price_xact_directive", "src/lib.rs: run", "src/balance.rs, src/report.rs", "src/history.rs: find_price"]}
{"id": "C93", "title": "A price line gives the price in the commodity it names", "statement": "The price on a line of a journal text is recorded in the commodity that the line names; the line feed that ends the line does not belong to the name.", "quantifier": "every price line", "why_tests_cant": "all lines; a test that gives the line without line feed does not see it", "anchors": ["src/scanner.rs: scan_price_directive, scan_price_element", "src/parser.rs: price_xact_directive"]}
{"id": "C94", "title": "Which command lines are refused", "statement": "A command line is refused exactly if, after words and complete groups of option letters with one value for each letter, there is an option with two hyphens (longOption) or a group with too few values (missingOptionArgument), or if it consists of words and complete groups only but has an option letter other than f (unrecognizedArgument). Every other command line is accepted as words and files; no command line is both, and none is refused for two reasons.", "quantifier": "every list of arguments", "why_tests_cant": "all command lines and all ways to mix options, values and words", "anchors": ["src/option.rs: process_arguments, get_input_options"]}
{"id": "C95", "title": "What the program does", "statement": "For arguments and files whose numbers are of everyday size, the program does exactly one of these things, and what it writes to standard output is the greeting, the arguments, a line for each unreadable line it meets and, if it succeeds, the report: it panics without arguments; it panics if the command line is refused or has no verb; it panics at the first faulty transaction, after reporting the unreadable lines before it; it panics at a line that is refused or a file that is missing; it panics after reading if the verb is empty or unknown; it prints the balance report with the digits that follow from what is written; or it prints the sorted list of the last parts of the account names.", "quantifier": "every argument list, every file system, include depth, error messages and table of printable characters, with numbers of everyday size", "why_tests_cant": "all inputs of the whole program at once, with exact output", "anchors": ["src/main.rs", "src/lib.rs: run, execute_command, session_read_journal_files", "src/option.rs", "src/parser.rs", "src/xact.rs", "src/report.rs"]}
{"id": "C96", "title": "The books balance", "statement": "If no posting has a cost and every transaction sums to zero in every commodity, or leaves one posting blank beside amounts in one commodity, the first line of the balance report, the total of everything, shows only zeros. (False: a blank posting beside amounts with a negative sum gets another negative amount. It holds if those sums are not negative; and in general the first line shows only zeros exactly if what the transactions book sums to zero in every commodity.)", "quantifier": "every file system, include depth and argument list with the balance verb, every number and order of such transactions of everyday size", "why_tests_cant": "all journals, accounts and commodities at once; the sum goes through parsing, filling of blanks, the account tree and the totals", "anchors": ["src/report.rs: balance_report", "src/account.rs: total", "src/xact.rs: finalize", "src/balance.rs"]}
{"id": "C97", "title": "The order of transactions does not change the balances", "statement": "Two lots of files with the same transactions in any order, in any number of files, are both refused or both reported on; the reports list the same accounts in the same order and for each account the same commodities with the same sums. The text is the same too. (The last is false: decimals of a sum and the order of the commodities on a line can change.)", "quantifier": "every two file systems, include depths and argument lists with the balance verb whose files say the same transactions of everyday size up to order", "why_tests_cant": "all permutations of all journals", "anchors": ["src/report.rs: balance_report", "src/account.rs: total, amount", "src/balance.rs: add", "src/journal.rs: add_xact"]}
{"id": "C98", "title": "A balance depends only on its own part of the account tree", "statement": "If two lots of files book the same amounts in the same order to an account and the accounts below it, their balance reports have the same lines for these accounts, whatever else is booked elsewhere. In particular one more transaction without a posting to these accounts changes none of their lines.", "quantifier": "every account, every two file systems, include depths and argument lists with the balance verb, with transactions of everyday size that are accepted", "why_tests_cant": "all journals and all things booked elsewhere", "anchors": ["src/report.rs: balance_report", "src/account.rs: total, flatten_account_tree", "src/balance.rs"]}
{"id": "C99", "title": "Which journals run into undefined behaviour", "statement": "Reading files turns a null commodity pointer into a reference exactly if they have a transaction with a blank posting whose other amounts have no commodity, such that neither it nor a transaction before it is faulty; what is faulty or refused after it makes no difference, nor does the command. If the command line is refused or has no verb, it never happens.", "quantifier": "every file system, include depth and argument list, and every source read into any reachable journal, with transactions of everyday size before the place where reading ends", "why_tests_cant": "undefined behaviour need not show in a test; the claim is about every text", "anchors": ["src/amount.rs: inverse", "src/xact.rs: finalize", "src/lib.rs: run", "src/parser.rs: parse"]}
{"id": "C100", "title": "Which journals keep only valid pointers", "statement": "After reading files, every pointer kept in the journal (price graph and amounts to commodities, accounts to postings, postings to transactions and accounts, accounts to parents) points to what it was taken from, whatever the allocator does, if there are at most three commodities, three accounts below each account, four transactions and four postings in each; if there are more of any of these and the allocator moves whatever grows, some pointer is stale.", "quantifier": "every file system, include depth and list of files read to the end with transactions of everyday size", "why_tests_cant": "stale pointers often still read the old contents; the claim is about all journals and all allocators", "anchors": ["src/journal.rs: add_xact", "src/account.rs: find_or_create", "src/pool.rs: create", "src/history.rs: add_commodity", "src/parser.rs: xact_directive"]}
{"id": "C101", "title": "The program with its pointers", "statement": "The program that keeps raw pointers (amounts and price graph to commodities, accounts to parents and postings, postings to accounts) and compares and follows them as the code does gives the result of the program that identifies commodities by symbol, accounts by name and postings by position, unless it follows a pointer to memory that was freed. It follows none if the journal has at most three commodities, three accounts below each account with grandchildren and four postings in each transaction.", "quantifier": "every allocator, file system, include depth and argument list; for the text-level form, files read to the end with transactions of everyday size", "why_tests_cant": "following a stale pointer often still gives the old contents; the claim is about all runs", "anchors": ["src/lib.rs: run", "src/pool.rs: find_or_create, exchange", "src/amount.rs: get_commodity", "src/balance.rs: add", "src/account.rs: find_or_create, amount, total, fullname", "src/xact.rs: finalize", "src/report.rs: balance_report"]}
{"id": "C102", "title": "Which texts make the program follow a stale pointer", "statement": "The table of commodities moves when it is full (at 3, 7, 14, 28, ... commodities). Whatever the allocator does: a price line whose second commodity no longer fits makes every command follow a stale pointer; so does a posting with a cost in a commodity that was mentioned before its transaction, if the transaction mentions more commodities than fit; and a balance report does if a posting is in a commodity and after its transaction more commodities are mentioned than fit. If the allocator moves a vector of four postings that grows, a balance report follows a stale pointer wherever a transaction has more than four postings; with at most three commodities and three accounts below each account with grandchildren it gives its result exactly if none has.", "quantifier": "every allocator, file system, include depth and argument list, and all files read to the end with transactions of everyday size", "why_tests_cant": "the behaviour is undefined and a test may see the old contents; the claim is about every text and every allocator", "anchors": ["src/pool.rs: create, parse_price_directive, exchange", "src/history.rs: get_commodity", "src/account.rs: amount", "src/report.rs: balance_report", "src/xact.rs: finalize"]}
{"id": "C103", "title": "Which orders of accounts make a balance report follow a stale pointer", "statement": "The table of accounts below an account moves when it is full (at 3, 7, 14, 28, ... accounts), and with it the accounts in it, but the accounts below those keep the old addresses of their parents. Whatever the allocator does: if the accounts, in the order in which postings name them, put something below an account before more accounts come next to it than fit into its table, a balance report follows a stale pointer to a parent. With at most three commodities, and an allocator that moves a vector of four postings that grows, a balance report gives its result exactly if this is not so and no transaction has more than four postings.", "quantifier": "every allocator, file system, include depth, argument list with a balance verb, and all files read to the end with transactions of everyday size; the first part also for every journal that was read", "why_tests_cant": "the behaviour is undefined and a test may see the old contents; the claim is about every order of accounts", "anchors": ["src/account.rs: find_or_create, fullname", "src/report.rs: balance_report", "src/journal.rs: register_account"]}
{"id": "C104", "title": "Exactly which texts make the program follow a stale pointer", "statement": "Commodities are looked up in the order of the text: for a posting that of the amount, of the lot price and of the cost, for a price line the two commodities. The table of commodities moves between two moments if what was mentioned until the first fits into a table (of 3, 7, 14, 28, ... entries) that what was mentioned until the second does not fit into. Reading follows a stale pointer exactly if the table moves between the two commodities of a price line, between the amount of a posting and the end of its transaction, or between the first mention ever of the commodity of a posting with a written or implied cost and the end of its transaction. The list of accounts is printed exactly if this is not so. A balance report is given exactly if this is not so, the table does not move between the amount of any posting and the end of all files, the allocator has never moved the postings of a transaction (when 4, 8, 16, ... of them were there and one more came), and no account was displaced after another one was put below it. Otherwise the program follows a stale pointer.", "quantifier": "every allocator, file system, include depth and argument list, and all files read to the end with transactions of everyday size for which the program that identifies commodities by symbol gives a result", "why_tests_cant": "the behaviour is undefined and a test may see the old contents; the claim is a criterion on every text and every allocator", "anchors": ["src/lib.rs: run", "src/pool.rs: find_or_create, parse_price_directive, exchange", "src/parser.rs: parse_post, parse_amount", "src/xact.rs: finalize", "src/history.rs: add_price", "src/account.rs: amount, total, fullname", "src/report.rs: balance_report"]}
{"id": "C105", "title": "What the program with its pointers prints, in terms of the text", "statement": "Call a text safe if reading it follows no stale pointer, the table of commodities does not move between the amount of any posting and the end of all files, the allocator has never moved the postings of a transaction, and no account was displaced after another one was put below it. For files without faults, `bal` prints the report of the bookings that the files say exactly if the text is safe, and otherwise it follows a stale pointer. `accounts` prints the sorted list of the last parts of the account names (one for every account that is named and every account above it) if reading follows no stale pointer, and otherwise it follows one. If a transaction is faulty, a line is refused or a file is missing, no report is printed: the program ends with the panic of the first fault or follows a stale pointer before it.", "quantifier": "every allocator, file system, include depth and argument list, and all files with transactions of everyday size", "why_tests_cant": "the claim is about every text and every allocator, and a test cannot observe that a read was of freed memory", "anchors": ["src/lib.rs: run", "src/pool.rs: find_or_create", "src/parser.rs: parse", "src/xact.rs: finalize", "src/account.rs: total, fullname", "src/report.rs: balance_report, report_accounts"]}
{"id": "C106", "title": "Files as bytes", "statement": "A file is read line by line, where a line ends with its only byte 10 and only the last line may lack it. A line is read as the text of which its bytes are the UTF-8 encoding, and is refused if there is none. On files that are encoded texts the program does what it does on the texts; every line can be read exactly if the file is an encoded text, and the text is unique. A line that is refused outside a transaction ends the reading of the file. One that is refused inside a transaction ends the transaction as an empty line does. A file that begins with the byte order mark of UTF-8 is refused; of a file that begins with a byte order mark of UTF-16 nothing is read, one error is printed and the program goes on.", "quantifier": "all byte sequences, all texts, all places of the refused line, every file system, include depth and journal", "why_tests_cant": "the claims are about all byte sequences and all texts of any length", "anchors": ["src/parser.rs: Parser::new, parse, xact_directive", "src/lib.rs: parse_file"]}
{"id": "C107", "title": "Damage to a line changes nothing but what the line says", "statement": "If the bytes of a line outside transactions are not UTF-8, the file is read as if the line were not there.", "quantifier": "all files and all lines in them", "why_tests_cant": "the claim is about every file and every damaged line; it fails only for files with something after the line", "anchors": ["src/parser.rs: parse"]}
{"id": "C108", "title": "Which panic, with the pointers", "statement": "If all transactions are sound and a line or a directive is refused, the program ends with the panic of the refusal if reading what comes before needs no stale pointer, and follows a stale pointer before it comes to the refusal otherwise. If a transaction is faulty and all before it are sound, the program ends with the panic of the fault if reading what comes before needs no stale pointer and the transaction makes the program follow none until its fault is found, and follows a stale pointer otherwise. Until the fault is found it follows the pointers of: what the postings up to the second one without an amount are booked at, if these are two or more; all amounts, if a rate is implied; the amounts, costs and commodities of the postings with a cost, up to that with the fault. This holds for every command and every allocator.", "quantifier": "all files with everyday transactions, every place of the refusal or the fault, every file system, include depth, command and allocator", "why_tests_cant": "the claim is about every text and every place at which the table of commodities can move before the program stops", "anchors": ["src/parser.rs: parse, xact_directive, price_xact_directive", "src/xact.rs: finalize", "src/pool.rs: find_or_create"]}
{"id": "C109", "title": "Includes without end", "statement": "Let there be n files. The program runs out of stack exactly if reading comes to a file whose include lines lead, directly or through other files, back to it before any line is refused, and no transaction read on the way is faulty. Whether it does is decided at an include depth of n - 1, and otherwise the result is the same at every greater depth. Without a circle of include lines among the files that can be reached from the command line, the program never runs out of stack, whatever else the files contain.", "quantifier": "all finite sets of files, their texts and include lines, all command lines and include depths of at least n - 1; the part about faults for transactions of everyday size", "why_tests_cant": "the claim is about unbounded recursion: a test can show that one circle does not end within its patience, but not that every nesting without a circle ends or that only circles do not", "anchors": ["src/parser.rs: parse, include_directive", "src/lib.rs: run"]}
{"id": "C110", "title": "Other files do not matter", "statement": "What a run prints, records and panics with depends on no other files than those named on the command line, those named by their include lines, and so on: if two disks agree on these files, whether they exist or not, then the run is the same, whatever else differs. This holds for all that the program writes to its outputs and log, for the run with its pointers under every allocator, and for reading a text that is given directly.", "quantifier": "all pairs of file systems that agree on the files that can be reached, all command lines, include depths, texts and journals", "why_tests_cant": "a test compares two disks; the claim is about every other content of every other file", "anchors": ["src/parser.rs: read_into_journal, parse, include_directive", "src/lib.rs: run, session_run, parse_file"]}
{"id": "C111", "title": "Prices do not depend on the order in which different dates are written", "statement": "If two texts say the same transactions and price lines of each moment in the same order (a transaction belongs to the midnight at which its day begins, a price line to the date and time written on it), then, however what belongs to different moments is ordered, reading the one leads to the same direct prices as reading the other: for every pair of commodities the same date and the same digits, or none. A price query between commodities known in both finds nothing after the one exactly if it finds nothing after the other, and gives the same answer if only one chain of direct prices between the commodities is shortest. The same holds for files read one after another, in whatever order they are given.", "quantifier": "every pair of texts or lists of files without refused lines that agree on each moment and are read without panic, every pair of commodities, every search that finds shortest chains, every clock", "why_tests_cant": "all orders of arbitrarily many transactions and price lines; tests read one file in one order", "anchors": ["src/history.rs: add_price, get_direct_price, find_price", "src/xact.rs: finalize", "src/pool.rs: exchange, add_price_struct, parse_price_directive", "src/parser.rs: parse, xact_directive"]}
{"id": "C112", "title": "How far sums can be off by rounding", "statement": "Whatever total, balance report or amount of a blank posting the library produces, its figure for each commodity differs from the exact sum of the amounts by at most one part in 10^28 of their absolute values for each rounding; there is at most one rounding for each amount added, and for totals two more for each account. So n roundings amount to less than 2n parts in 10^28. The commodities shown are exactly those of the amounts, each once. And sums fail only if they are too large: if the absolute values add up to at most 6*10^28 in each commodity, there is a total, and a report.", "quantifier": "all journals a program can have, all accounts, all amounts with any number of decimals; no bound on the sums for the first part", "why_tests_cant": "rounding depends on all digits of all amounts and on the order of the additions; amounts and account trees are unbounded", "anchors": ["src/balance.rs: add, AddAssign", "src/amount.rs: add", "src/account.rs: amount, total", "src/report.rs: get_children_lines", "src/xact.rs: finalize"]}
{"id": "C113", "title": "What a transaction with an implied rate comes to", "statement": "When a transaction has sums in two commodities and no blank posting, the amounts held in the first commodity get costs in the second, at the quotient of the two sums without its sign. Afterwards the transaction sums to what the other postings say plus this quotient times the sum of the amounts held in the first commodity, up to less than one part in 10^28 for each posting and 1 + 3 * quotient parts in 10^28 of the amounts held; in every other commodity the sum is exactly what the other postings say. Without written costs this means: nothing is left if the two sums have opposite signs, and twice the second sum is left if they have the same sign, up to that rounding. With a written cost on an amount held in the first commodity, the written cost is lost and the transaction in general does not balance.", "quantifier": "all transactions and all texts of everyday transactions that are accepted, any number of postings, all amounts; the quotient may have any number of decimals", "why_tests_cant": "the quotient is almost never a finite decimal, and its rounding is multiplied by every amount", "anchors": ["src/xact.rs: finalize", "src/amount.rs: Div, Mul"]}
{"id": "C114", "title": "Which characters separate, and which are digits", "statement": "The blanks that are skipped around the parts of a line and that make a line blank are exactly the 25 characters with the Unicode property White_Space; the zero-width space is none of them. Digits are exactly '0' to '9', each with its own value; other characters that Unicode calls decimal numbers are no digits. Trimming a text removes the white space at both ends, all of it, and nothing else.", "quantifier": "all characters and all texts", "why_tests_cant": "a test tries spaces and tabs; the classes concern every character", "anchors": ["src/scanner.rs: scan_quantity, scan_symbol, tokenize_xact_header", "src/parser.rs: trim of lines"]}
{"id": "C115", "title": "Quantities count as numbers", "statement": "Quantities compare, by == and by order, as the numbers they denote: 1.0 == 1.00 and 0 == -0. Amounts are equal exactly if the numbers and the commodities are; is_zero says whether the number is zero, is_null whether moreover there is no commodity. A sum, difference, product or quotient is the exact number rounded to the largest number of decimals, at most 28, with which its digits have room in 96 bits; halfway between two such numbers it is the one whose last digit is even. So results depend on the numbers only: equal operands, however many decimals they are written with and, for sums, in whichever order, give equal results or the same panic.", "quantifier": "all quantities and amounts; for sums and differences all that a quantity can hold", "why_tests_cant": "it is about every pair of spellings of every pair of numbers, and the cases where rounding matters are rare", "anchors": ["src/amount.rs: derive PartialEq, Ord; is_zero, is_null; Add, SubAssign, Mul, Div"]}
{"id": "C116", "title": "What parse_amount makes of a text", "statement": "parse_amount panics exactly on the texts that are empty or only white space. On every other text it takes the longest beginning that reads as a number and a symbol, in either order, ignores what follows, and returns the amount with that number and that commodity if the number is a numeral that fits, and None otherwise. The commodity is registered in the journal in both cases, if the text has a symbol and it is not known yet; known commodities, prices and lots are left as they are. A written amount is read as what it says, whatever blanks stand around it.", "quantifier": "all texts, all commodity pools", "why_tests_cant": "The texts are unbounded and most of them are not amounts at all; the tests call the function on a handful of well-formed ones, with empty journals.", "anchors": ["src/parser.rs:63-84 parse_amount, parse_amount_parts", "src/scanner.rs scan_amount", "src/pool.rs:111-135 find_or_create"]}
{"id": "C117", "title": "A zero has no minus sign", "statement": "The balance report prints a minus sign before a figure exactly if the figure is below zero. A sum that comes out as zero is printed as 0 with its decimals, whatever signs its parts have, and a posting without an amount beside others that cancel each other gets a plain zero.", "quantifier": "all files, all transactions and all accounts of a report; for sums all lists of amounts", "why_tests_cant": "Whether a zero carries a sign depends on the order in which amounts are entered and on which of them are zero themselves; no test reads a transaction whose written amounts cancel, and == does not tell 0 from -0.", "anchors": ["src/amount.rs:76-95 inverse, invert", "src/amount.rs:261-273 quantity addition", "src/xact.rs:241-273 finalize, the posting without amount", "src/report.rs:43-70 get_children_lines"]}
{"id": "C118", "title": "The names of the commodities do not matter", "statement": "If the same transactions are written with other names for the commodities, different ones keeping different names, the journal is the same with these names, its prices and lots included; the balance report has the same lines in the same order, each with the same figures in the same order under the new names; the accounts command prints the same; and what is refused is refused with the same panic.", "quantifier": "all files, all lists of written transactions of any size, balanced or not, all journals and all injective renamings", "why_tests_cant": "It compares the runs on all pairs of files that differ by a renaming; nothing short of a proof about every function a symbol passes through excludes that some name is treated specially or that an order depends on names.", "anchors": ["src/pool.rs:63-135", "src/pool.rs:152-218", "src/balance.rs:40-77", "src/xact.rs:105-278", "src/report.rs:31-70"]}
{"id": "C119", "title": "Dates, payees, notes and comments do not matter for the balances", "statement": "If two sets of files write the same postings in the same transactions, whatever the dates, payees, notes and comments of the transactions, then every command prints the same on both or fails with the same panic. Read into the same journal they give the same accounts, the same postings with the same amounts and costs, the same commodities and the same lots; only the days under which prices are recorded may differ.", "quantifier": "all files, all lists of written transactions of any size, balanced or not, all journals, all command lines", "why_tests_cant": "It compares the runs on all pairs of files that differ in headers and comments; a test reads one file. A date enters the calculation through the recording of prices, so that it has no effect on amounts has to be shown for every exchange.", "anchors": ["src/parser.rs:258-332 create_xact, xact_directive", "src/xact.rs:105-278 finalize", "src/pool.rs:152-218 exchange", "src/history.rs:53-85 add_price", "src/report.rs:31-70"]}
{"id": "C120", "title": "With all signs turned around all figures are turned around", "statement": "If the sign of every amount and of every total cost in the files is turned around, purchases becoming sales, then reading fails with the same panic or gives the same accounts, commodities, prices and lots, and postings with exactly the opposite amounts and costs; the balance report has the same lines in the same order with the opposite figures, with the same decimals.", "quantifier": "all files, all lists of written transactions of any size, balanced or not, sums of any size", "why_tests_cant": "It compares the runs on all pairs of files that differ in the signs; the tests read positive first postings only, so that a refund, where the blank posting gets the wrong sign, never occurs.", "anchors": ["src/amount.rs:76-86 inverse", "src/xact.rs:105-278 finalize", "src/balance.rs:40-77", "src/pool.rs:152-218 exchange", "src/report.rs:31-70"]}
{"id": "C121", "title": "Balances of separate files add up", "statement": "If one command line names files with the transactions of the files on two other command lines, in any order, then it is refused exactly if one of the two is; otherwise its balance report lists each account that one of the two reports lists, once, with the commodities of the two figures and in each commodity their sum. Files that are given twice count twice: all sums are doubled. The accounts command lists the accounts of the two lists.", "quantifier": "all file systems, include depths and command lines with the balance or the accounts verb, every number and order of transactions of everyday size", "why_tests_cant": "relates three runs on arbitrary files; a booking that depended on what was read before would show only for particular pairs of files", "anchors": ["src/lib.rs: run, session_read_journal_files", "src/report.rs: balance_report", "src/account.rs: total", "src/balance.rs: add, AddAssign"]}
{"id": "C122", "title": "A transaction and its reversal cancel", "statement": "If files hold transactions and, anywhere, the same transactions with all signs turned around, then the balance report shows the same sums as without both, for every account and commodity, and lists in addition only the accounts that these transactions name; it is refused exactly if one of these transactions or the rest is. (False for transactions with a blank posting: after a purchase and its refund the blank account shows twice the price.)", "quantifier": "all file systems, include depths and command lines with the balance verb, every number and order of transactions of everyday size, with or without costs, balanced or not", "why_tests_cant": "the claim is about every set of transactions at every place in the files and about all commodities and accounts at once; the fault with blank postings does not show in sums of the accounts that are written with amounts", "anchors": ["src/xact.rs: finalize", "src/amount.rs: inverse", "src/report.rs: balance_report", "src/account.rs: total", "src/balance.rs: add"]}
{"id": "C123", "title": "The names of the accounts do not matter", "statement": "If the same transactions are written, in any order, with another name for each part of the names of the accounts, different parts keeping different names, then both are refused or both are reported on; the balance report lists the accounts under their new names, with the same commodities and sums in each. If the new names also keep their alphabetical order, the lines come in the same order with exactly the same figures. The accounts command lists the accounts under their new names.", "quantifier": "all file systems, include depths and command lines with the balance or the accounts verb, all injective renamings, every number and order of transactions of everyday size, with blank postings, costs and implied rates", "why_tests_cant": "it compares all pairs of runs that differ in a renaming; a special treatment of some names or depths shows only with those", "anchors": ["src/account.rs: find_or_create, total, flatten_account_tree", "src/journal.rs: register_account", "src/report.rs: balance_report"]}
{"id": "C124", "title": "The figures of a report in plain arithmetic", "statement": "For files whose transactions are accepted, the balance report has one line for the root and for each account that is named and each account above it, in order of their names, name by name, each account before those below it. In each commodity the sum on a line is what is written for the account and everything below it, costs left aside, less the absolute sum (at cost) of the other postings of the transaction for each blank posting there; the line shows exactly the commodities that are written there, and for a blank posting the commodity of the other postings. So the first line shows only zeros exactly if in each commodity all written amounts come to as much as the blank postings take away.", "quantifier": "all file systems, include depths and command lines with the balance verb, every number and order of transactions of everyday size, balanced or not, with costs, lots and blank postings", "why_tests_cant": "it gives the value of every line for every file in arithmetic that does not mention how the program adds up; tests compare a few lines of a few files", "anchors": ["src/report.rs: balance_report", "src/account.rs: total, amount", "src/xact.rs: finalize", "src/balance.rs: add, AddAssign", "src/amount.rs: inverse"]}
{"id": "C125", "title": "How postings are grouped and what they cost does not matter for balances", "statement": "If two command lines name files with the same postings (account and amount), none of them blank, in the same order, and both are accepted, then their balance reports are the same, digit by digit, however the postings are grouped into transactions and files and whatever costs, lots, notes and headers are written with them. If the postings come in another order too, the reports have the same lines in the same order with the same commodities and sums. The accounts command prints the same whenever the same accounts are named.", "quantifier": "all file systems, include depths and pairs of accepted command lines with the balance or the accounts verb, every number, order and grouping of postings of everyday size", "why_tests_cant": "it compares all pairs of groupings of the same postings; a figure that depended on costs or on the place of a posting in its transaction would show only for particular ones", "anchors": ["src/xact.rs: finalize", "src/report.rs: balance_report", "src/account.rs: total, amount"]}
{"id": "C126", "title": "With all amounts multiplied all figures are multiplied", "statement": "If every amount in the files is replaced by k times the amount, at the same price per unit or k times the cost of the whole, and both lots of files are accepted, the two balance reports list the same accounts in the same order with the same commodities. For k zero or above every sum is k times as large. For k below zero what blank postings take away is multiplied by the absolute value of k, so each sum is k times as large plus (k - |k|) times what blank postings take away there. For k other than zero the one lot of files is refused exactly if the other is.", "quantifier": "all file systems, include depths and pairs of command lines with the balance verb, all rational k, every number of transactions of everyday size, with costs, lots and blank postings", "why_tests_cant": "it relates the reports for all factors and all files; a constant, a cut-off or a rounding in the sums would show only for particular factors", "anchors": ["src/xact.rs: finalize", "src/account.rs: total, amount", "src/report.rs: balance_report"]}
{"id": "C127", "title": "Splitting a posting in two does not change the figures", "statement": "If postings of the files are each replaced by two postings to the same account that together have the same amount, at the same price per unit or with parts of the cost, and both lots of files are accepted, the two balance reports list the same accounts in the same order with the same commodities and the same sums, with blank postings and without.", "quantifier": "all file systems, include depths and pairs of accepted command lines with the balance verb, every number of transactions of everyday size and of postings split", "why_tests_cant": "it compares all files with all ways to split their postings; a posting dropped, counted twice or rounded on its own would show only for particular ones", "anchors": ["src/xact.rs: finalize", "src/account.rs: total, amount", "src/report.rs: balance_report"]}
{"id": "C128", "title": "Filing a posting under another account changes only the lines above the two", "statement": "If postings of the files are filed under other accounts, with the same amounts and costs, the files are refused exactly if they were before. If they are accepted, each account that has the same postings within it as before (itself or below) is listed as before, with the same commodities and sums. The root always has the same postings within it, so the first line shows the same sums.", "quantifier": "all file systems, include depths and pairs of command lines with the balance verb, every number of transactions of everyday size and of postings filed differently, all accounts, with costs, lots and blank postings", "why_tests_cant": "it compares all files with all ways to file their postings, on every line that must not change; an amount that reached a line it does not belong to would show only for particular names", "anchors": ["src/account.rs: total, amount", "src/report.rs: balance_report", "src/xact.rs: finalize", "src/journal.rs: register_account"]}
