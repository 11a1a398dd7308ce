# Formal model of ledger-rs-lib: design

The crate in `/repo` is modelled in Lean 4 under `lean/Verif/`.  `/repo` was read as text only: nothing was built
or run, so agreement of the model with the code rests on reading, on the line citations in the model, and on the
examples transcribed from the tests of the crate (section "Conformance").

## Layout

| directory | content |
|---|---|
| `Verif/Model/*.lean` | the model, function by function; every definition cites file and lines of `/repo` |
| `Verif/Spec/*.lean` | small independent specifications used in the statements: values in ℚ, sums per commodity, grammars, the written form of postings and transactions |
| `Verif/Lemmas/*.lean` | helper lemmas |
| `Verif/Props/*.lean` | the property theorems `Cnn_...`, each with a non-trivial concrete case beside it |
| `seeded/LOG.jsonl` | one line per wrong program tried against the theorems |
| `AXIOMS.md` | output of `#print axioms` for every theorem of `MANIFEST.json` |

Names: `Cnn_...` is a theorem of property Cnn; `Cnn_..._violated` refutes (part of) the property for the code
with a concrete witness or in general; `Cnn_..._partial` is the strongest true form found of a property that is
false in full or not proved in full.  A property with a theorem of the last two kinds has the status `partial`.

## Trusted base

* The kernel of Lean 4.33.0.  No `sorry`, no `native_decide`, no `bv_decide`, no own axioms.  Concrete witnesses
  are evaluated by the kernel (`decide`, `decide +kernel`, `rfl`).
* Axioms: at most `propext`, `Classical.choice` and `Quot.sound`; the list per theorem is in `AXIOMS.md`.
* Mathlib is used for ℚ, lists and finite sets; its theorems are checked by the same kernel.
* The statements: definitions in `Verif/Spec` and the model itself.  Nobody but the reader checks that they say
  what the English text says; the wrong programs in `seeded/LOG.jsonl` are a test of this.
* The behaviour of dependencies, listed next, is assumed and not read from `/repo`.

### Assumed about dependencies

* **rust_decimal**: sign, mantissa `< 2^96`, scale `≤ 28`.  `from_str_exact`, `Display`, `+ - * /`, comparison and
  `to_i32` are executable functions (`Model/Quantity.lean`).  `+` and `-` align the scales and round half to even if
  the result needs more than 96 bits, or fail; `*` rounds half to even; `/` rounds half to even to the largest scale
  that fits and then strips zeros (C115 says which number this is).  A sum with a zero operand is the other operand, with its decimals, and a product
  with a zero operand is `0` without decimals.  Properties other than C115 that need a rounding rule say "rounded to as
  many decimals as fit" (`PreciseTo`) and leave open which way a tie goes.
* **chrono**: `%Y-%m-%d` and `%H:%M:%S` as executable grammars over the proleptic Gregorian calendar, with a
  signed year as chrono accepts it.  `now` (`Local::now`) is a parameter.  Fractions of seconds are not modelled;
  no text format read by the code has them.
* **petgraph**: `astar` is a parameter with the contract "a path with the fewest edges, nothing exactly if the target
  is unreachable".  A breadth-first search is proved to meet the contract, so the contract is not empty.
* **std**: `HashMap` as an association list with unique keys whose iteration order is never assumed (C24, C28
  quantify over it); `BTreeMap` as a sorted list; `read_line` splits after every line feed.  For C62, C63, C64 and C68
  growth of `Vec` (capacity 4, then doubling, possibly moved by the allocator) and of `HashMap` (capacity 3, 7, 14, …,
  always moved) is modelled in `Model/Memory.lean`.
* **std formatting**: `{:?}` of a `Vec<String>` is modelled in `Model/Output.lean`; which characters are printable is a
  parameter (C84 holds for every choice).  The `Debug` text of an I/O error is a parameter without line feeds.
* **shell-words**: `split` is the automaton of its documentation (`Model/Shell.lean`); C79 states what it reads.
* **Files** are a parameter: a function from names to lines, each readable or not.  A file that exists can be opened; the
  directory part of a name that a file has exists; the current directory is not the root directory.

### Modelling decisions

* **Panics** (`panic!`, `todo!`, `unwrap`/`expect` on nothing, slicing off a char boundary, decimal overflow) are
  error values of `Except Panic`.  "Accepted" means `= .ok _`.  The constructors name the source lines.
* **Strings** are `List Char`.  Byte offsets matter at `&input[1..]`, `[2..]`, `[3..]`; these go through `dropBytes`,
  which fails off a char boundary as Rust does.  `Model/Bytes.lean` models files as bytes, with the lines of `read_line` and the
  check of `str::from_utf8`; C106 says that files that are encoded texts are read as the texts.  I/O errors appear only as
  lines that cannot be read.
* **Pointers** are stable identities in the main model: a commodity is its symbol in the pool, an account its path
  of names, a posting a pair (transaction, position).  This is what the code intends; the addresses it keeps into
  `HashMap` and `Vec` storage are not stable.  `Model/Memory.lean` models that separately, and C62, C63, C64, C68 say
  when the intended reading is right and prove that it is wrong otherwise.  `Model/Heap.lean` gives every account an
  address, a parent pointer and the cache of its full name, and models `find_or_create`, `fullname` and the balance
  report on them (C76 to C78); a read of freed memory is the error `danglingPointer` there (in Rust it is undefined
  behaviour and anything can happen; freed addresses are never used again in the model).  C100 says which journals have
  no stale pointer at all.  `Model/Machine.lean` is the whole program again, from the commodity pool to `run`, with
  addresses instead of identities.  C101 says that it gives the result of the main model unless it follows a stale
  pointer, and that it follows none if there are at most three commodities, three accounts below each account with
  grandchildren and four postings in each transaction.  C102 gives texts of ordinary shape for which it does follow one,
  with any allocator, C103 the exact criterion on the order of the accounts, and C104 the exact criterion on the text, for
  any number of commodities, accounts and postings; C105 puts this together with what the text says, and C108 says which panic comes first when the text is refused or a transaction is faulty.  The theorems about the main model are about the code in the
  executions that follow no stale pointer; in the others the behaviour is undefined.
* **Recursion** on files and accounts uses structural recursion or fuel.  Fuel is either proved sufficient or, for
  the depth of `include`, a parameter of the statement (the code recurses without limit).  C109 shows that with `n`
  files the depth `n - 1` already gives the result of every greater depth, and that only circles exceed all of them.
* **Null references.**  `Amount::inverse`, `+` and `*` turn the commodity pointer into a reference without checking for
  null (amount.rs:85,126,170).  This is undefined behaviour when the amount has no commodity, and finalising a plain
  transaction without commodities does it.  The main model gives the result that the code intends (an amount without
  commodity).  `Model/Trace.lean` repeats the model from `finalize` to `run` and records each such reference and each
  line that could not be read; the results are proved to be the same, C85 says when an operation
  makes a reference, and C99 which files do.
* Logging (`log::…`) is left out.

## What is modelled

| file | modelled | not modelled |
|---|---|---|
| account.rs | everything; `parent` and the cache of `fullname` in `Model/Heap` | posting pointers outside `Model/Memory` and `Model/Machine` |
| amount.rs | `Amount`, `Quantity` and all operators, comparisons in `Model/Compare`, `From<i32>`, `From<&str>` in `Model/Public`, `Into<i32>`, `Display` | `From<f32>` (needs floating point) |
| annotate.rs, balance.rs | everything | — |
| commodity.rs | types | `find_price` (a stub, `todo!`) |
| history.rs | everything but the right column | `print_map` (stub) |
| iterator.rs, reader.rs | everything | `directives.rs` payloads that are never built; a trace line that reader.rs prints |
| journal.rs | everything | — |
| journalreader.rs | — | an empty type |
| lib.rs, main.rs | `run`, `run_command`, `execute_command`, `parse_file`, `parse_text`, file reading, `main` and what it prints | stubs; `wasm_test`; the wasm build |
| option.rs | `process_arguments`, `get_input_options` | `find_option`, `lookup_…`, `session_…`, `process_option`: unused and stubs |
| parser.rs, scanner.rs, xact.rs, post.rs, pool.rs | everything | — |
| report.rs | `report_accounts`, `balance_report` and what they use, `get_account_balances`, `format_balance_report` | `report_commodities`, `report_payees`, `market` (stubs) |
| utilities.rs, value.rs | — | no executable content beyond `todo!` |

## Wrong programs

Each entry of `seeded/LOG.jsonl` is an edit of a model definition, made in a scratch copy.  The copy is
elaborated in full (in entries with a `checked` field: only the modules that the theorems of the claims depend on) with errors turned into `sorry`, and a property theorem counts as failed if its proof, or
anything it depends on, no longer checks.  The entry names the claim the edit breaks, the theorems that failed,
and the theorems tightened when none did.

Two limits of this evidence.  A failed proof is weaker than a refuted statement: the script may be at fault
rather than the claim.  Only entries with a `confirmed` field had the claim refuted on a concrete input; the
others record that a proof stopped checking, nothing more.  And a module can run out of memory or time
while its edited copy is elaborated.  Its theorems, and those of modules importing it, then count neither as
failed nor as proved; the entry lists them under `theorems_not_checked`.  Earlier versions of the log listed such
theorems as failed, in 17 entries.  In three of them (`b-merge-first`, `ac-lose`, `t-children-only`) that was the
only support for some of the claims; these were run again, and the log shows both runs.

## Conformance

`Verif/Props/Conformance.lean` replays tests of the crate (inputs and expected outputs copied from `/repo/src` and
`/repo/tests`) on the model.  These are examples, not proofs of properties; they check that the model computes
what the authors' own tests expect.

## Properties

| id | title | status | file under `Props` | what is proved |
|---|---|---|---|---|
| C01 | Quantity text round trip | proved | Quantity | Proved for every representable quantity that is not a negative zero, hence for all from_str can produce; the value also survives for negative zero. |
| C02 | Quantity parsing is exact or refused | proved | ParseAmount, Quantity | Characterisation (iff) of from_str by the grammar and the positional value. |
| C03 | Inverse amount is the arithmetic negation | partial | Quantity | False for negative amounts (inverse returns them unchanged): violation proved with a witness and in general; proved for all non-negative amounts. |
| C04 | Invert and abs act only on the sign | proved | Quantity | Proved for all amounts. |
| C05 | Adding amounts never mixes commodities and never silently wraps | proved | Quantity | Proved as stated for +, +=, -= and Amount::add, with the exact condition of success. |
| C06 | Product and quotient of amounts | proved | Quantity | Proved as stated for *, *= and /, with the exact condition of success, the kind of the failure and the error bound of rounded results. |
| C07 | A balance is the per-commodity sum of what was added | proved | Balance | Proved by induction over the list of additions. |
| C08 | Order of additions does not matter | proved | Balance | Proved for every permutation. |
| C09 | Subtracting from a balance undoes adding | partial | Balance, Exactly | False for a negative amount in a commodity not present: witness; proved in all other cases, and for subtracting what was just added. Exactly: within the range the claim holds if and only if the amount is not negative or the commodity is there; otherwise the amount is added. |
| C10 | Merging balances | proved | Balance | Proved. |
| C11 | One commodity per symbol | proved | Pool | Proved for every history of pool operations. |
| C12 | Commodities and price-graph nodes correspond one to one | proved | Pool | Proved as an invariant of every history of pool operations. |
| C13 | Direct price is the most recent one recorded | proved | Pool | Proved for every history; the direct price is the latest recording of the pair, the last one among equals. |
| C14 | A price is found exactly when a chain of recorded prices exists | proved | Pool | Proved for every history, for any path search that meets the contract of petgraph's astar (a shortest path if there is one); an instance of the contract is implemented and verified. C14_outcome covers rounded products and overflow; C14_price says when the rate is exact. |
| C15 | A price lookup honours the requested moment | partial | Pool | False: moment and oldest are ignored (violation proved in general and with a witness). Proved: when all recordings lie in the interval the price does too; and exactly when an answer is after the moment or before the oldest date (`C15_window_exact_partial`). |
| C16 | The date of a computed rate is its oldest leg | partial | Pool | False when the legs are dated after the clock or there are no older legs (witness). Proved when no leg is dated after the clock value; and in general that the date is that of a single leg, and for more legs the oldest among them and the clock (`C16_date_exact_partial`). |
| C17 | Exchange prices a posting at cost divided by amount | proved | Pool | C17_exchange: exact where the quotient and the products are representable. C17_rounded: every exchange that succeeds, with the rounding of cost and price, and exactly when no price is proposed. |
| C18 | Every lot keeps its own price annotation | partial | Lines, Pool | False: the first annotation of a symbol wins for ever (witness and general theorem). Proved for the first annotation; and that the stored one is exactly the first one ever looked up with (`C18_stored_exact_partial`). |
| C19 | The annotated flag tells whether an annotation is stored | partial | Pool | False for a commodity annotated after its creation (witness). C19_flag_exact_partial says exactly when the flag is set (the first lookup had an annotation) and when an annotation is stored (some lookup had one). |
| C20 | A registered account is found again under its name | proved | Accounts | Proved for every tree a program can have and every later history of registrations and bookings. |
| C21 | Registering is idempotent and never loses anything | proved | Accounts | Proved. |
| C22 | Looking up an account never fails abnormally | partial | Accounts | False: a missing account below an existing one panics (witness). Proved: complete characterisation of the outcome of every lookup. |
| C23 | Different accounts have different full names | partial | Accounts | False for names with empty parts, A::B and A:B (witness). Proved for accounts without empty parts; C23_fullnames_exact_partial says exactly which accounts share a full name. |
| C24 | Flattening lists every account once, parents first, siblings sorted | proved | Accounts | Proved for every well-formed tree; all trees of a program are. |
| C25 | An account total is the sum over its subtree | proved | Journal, Totals | Proved for every tree and journal within the decimal range; outside it see C112. |
| C26 | The balance report has one correct line per account | proved | Journal, Totals | Proved within the decimal range; outside it, whenever all totals exist (and see C112 for the figures then). |
| C27 | A balance line can be read back | partial | Amounts, Costs, Totals | False if an entry without commodity is followed by another entry (witness, two journals; C27_whole_violated: for every whole number without commodity followed by a whole number that is not negative, the line is that of another balance). Proved for balances in which only the last entry may be without commodity; for journals no condition on the symbols is needed (C74). |
| C28 | The accounts command lists all account names in sorted order | proved | Totals | Proved. |
| C29 | Report figures do not depend on transaction order | proved | Totals | Proved for every permutation of the amounts of each account, and independently of how the postings are spread over transactions. |
| C30 | Every accepted transaction balances | partial | Balanced, Finalize | False for the code: the sum is never checked (C30_balances_violated: 10 EUR and 20 EUR accepted; C30_two_commodities_violated). C30_exactly: exactly which accepted transactions of a text balance, both directions: without an implied rate, those written to sum to zero and those with a blank posting whose rest is nowhere negative; with an implied rate, no written costs and no rounding, those whose two sums have opposite signs. Missing: implied rates together with written costs, or rounded. C30_balances_partial: the same direction stated for one transaction. |
| C31 | A blank posting receives what balances the rest | partial | Finalize | False for negative sums (C31_blank_violated). C31_blank_partial: accepted and right for non-negative sums, any number of postings. C31_blank_both_signs characterises both signs. |
| C32 | Ambiguous transactions are refused | proved | Finalize | Proved for every transaction and pool. |
| C33 | Every posting of an accepted transaction has an amount | proved | Finalize, Journal | Proved for one transaction (finalize). |
| C34 | Finalizing never alters what the user wrote | partial | Costs, Finalize | False for written costs: a derived rate replaces them (C34_written_cost_violated, from text C34_text_violated). C34_nothing_altered_partial: everything else is kept. C34_exactly says which costs are replaced: those of the postings in the commodity an implied rate leads from, and no others. |
| C35 | Implied conversion rate of a two-commodity transaction | partial | Finalize | False when a posting has a written cost (C35_implied_rate_violated). C35_implied_rate_partial covers every transaction without written costs, any number of postings. |
| C36 | Costs create market prices dated with the transaction | proved | Finalize | Proved for every accepted transaction and every earlier history. |
| C37 | A cost must be in another commodity | partial | Costs, Finalize | False when a derived rate replaces the cost (C37_same_commodity_violated). C37_same_commodity_partial covers the other transactions; C37_exactly: nothing else lets such a posting pass. |
| C38 | A sale at a total cost is booked with the sign of the amount | partial | Costs, Finalize, Lines | Proved for parse_cost and for the posting that parse_post books. Violated for total costs: the booked cost is positive for a sale. C38_exactly says which costs have the sign of the amount. |
| C39 | The grand total is the sum of all postings | proved | Journal | For every journal reachable by parsing, registering accounts and pool calls, within the decimal range. |
| C40 | Reading more text never alters what was read before | proved | Journal, Parser | Transactions prefix, posting lists prefix, commodities and priced pairs kept (any reachable journal, any source that parses). File order: new transactions match the header lines one to one in order, included files at their place; sources without undecodable lines and without stray carriage returns at line starts. |
| C41 | Several files read like one | partial | LastLine, Parser | Violated by unterminated last lines of three kinds: header lines without a space (C41_header_violated, whatever precedes and follows), lone carriage returns (C41_return_violated), and price lines (C93). All other unterminated last lines are read as if terminated (C41_last_line), so that reading files one after the other comes to the same as the concatenation (C41_closed_partial). Failures included: for the lines joined by empty lines, for terminated texts, and for whole runs of the program (C41_run_like_one_partial: one -f with the joined text gives what several -f give). |
| C42 | Comments and blank lines between transactions are invisible | proved | Parser | Equality of results (failures included) for insertion of any ignored lines at any point outside transactions; the point is described by the inductive AtTop on the lines before it. |
| C43 | Each posting is booked to exactly one account | proved | Journal | For every reachable journal. |
| C44 | read reports the number of transactions parsed | partial | Journal | Violated on a second read (witness). Partial: returns the total count; right exactly for a journal without transactions. |
| C45 | Notes are kept | partial | Parser | Violated: a later comment replaces an earlier one (witness). Partial: exact characterisation of which comment is kept, for every body of comment and posting lines, and no loss when there is one comment per place. |
| C46 | Transaction header round trip | proved | Scanner | Any blanks between the parts are allowed. |
| C47 | Posting round trip | proved | Scanner | Proved for every text built from the grammar of Spec/Posting.lean, blanks between the parts included. A lot needs a symbol before it. |
| C48 | Symbol before or after the number | proved | Scanner | Proved for every number and symbol of the grammar within the quantifier; for others the first character is taken for a part of the number or of the symbol. |
| C49 | Spacing around the cost sign is irrelevant | partial | Exactly, Scanner | Violated: the character after @ or @@ is dropped whatever it is (witnesses, and in general). Partial: any spacing with a space after the sign gives the same. It is false of every cost: written right after the sign, a cost always loses a character. |
| C50 | An unreadable amount is never dropped silently | partial | Scanner | Violated: an unreadable number is never a failure; the posting is read without an amount (witnesses, and in general). Partial: readable numbers give exactly the amount written. |
| C51 | Trailing blanks do not change a posting | partial | Exactly, Scanner | Violated: an account followed by two spaces panics (witness, and for every account). Partial: trailing blanks change nothing on a posting with an amount, nor after an account when they contain no pair of spaces. Exactly, for every line: read the same if and only if there are two spaces in a row before the blanks or none even with them; refused lines stay refused. |
| C52 | A note never becomes a commodity | partial | Exactly, Scanner | Violated: '10 ; lunch' is read with the commodity ';' (witnesses). Partial: a note after an amount with commodity changes nothing. False on every line with only a number, or nothing, before the semicolon, whatever the account and note. |
| C53 | Dates are read exactly | proved | Dates, ParseAmount, Reading | Proved: eight digits in the shape YYYY-MM-DD are read as that day exactly if it is a calendar day, and refused otherwise; lifted to headers. |
| C54 | A date-only header is a valid transaction header | partial | Dates, Exactly | Violated: a date followed by the end of the line is refused, for every date. Partial: a date with nothing after it, or followed by blanks starting with a space. Exactly: opened if and only if the blanks, if any, start with a space; otherwise refused. |
| C55 | Price directive | proved | Dates, Reading | Proved for every price line of the grammar PriceLine (with or without time), and its effect on a pool. C55_price_found: from then on the new price is the one found for the pair, unless a later one is recorded; other pairs find what they found before. |
| C56 | Price directives in a journal are read | partial | Parser | Violated for every line starting with P (universal refutation). Partial: which lines reach the price parser and what they do. |
| C57 | Include reads the file in place | partial | Parser | Violated: a name that starts with a tilde or backslash and has no slash is never looked up, and the root directory as name panics. Otherwise the file is read in place, also in a text that is given directly (C57_text_partial), a missing file changes nothing, and a file that includes itself overflows the stack at every depth. |
| C58 | Arguments are split into commands and files in order | proved | Cli | Proved for every list of words and -f options. |
| C59 | Unknown or malformed options are refused | partial | Cli | Violated: a lone '-' is ignored. Partial: exact characterisation of the argument lists that are accepted. |
| C60 | The verb selects the report | proved | Cli | Proved: four theorems, one for each kind of verb and one for the further words. |
| C61 | The command line program runs the command it is given | partial | Cli, Exactly | Violated: the program name is taken as the verb, so that every program path not starting with a, b or - refuses all arguments. Partial: a program named b, bal or balance. Exactly, by the name of the program: what it does for every name that does not start with a dash, and for a lone dash. |
| C62 | References to postings stay valid | partial | Exactly, Memory | Violated: the fifth posting of a transaction moves the postings when the allocator moves the vector (witness, and in general). Partial: references are right whatever the allocator does while the postings fit into the first allocation, in particular up to four postings. Exactly: valid if and only if the allocator extended the vector in place each time it was full since. |
| C63 | References to commodities and accounts stay valid | partial | Memory | Violated: the fourth commodity (or fourth account below a parent) moves the table and every pointer into it dangles (witnesses, also within one transaction, and in general). Partial: exact condition under which a commodity or account stays where it is. |
| C64 | Equal commodities are interchangeable in a balance | partial | Exactly, Memory | Violated: equal commodities at different addresses make Balance::add panic (witness, and in general). Partial: with one commodity per symbol the addition is the one of the model by symbols. Exactly: for all pointers to commodities of which those with the same symbol are equal, it panics if the first equal entry has another pointer and otherwise works as with symbols. |
| C65 | The directive iterator yields one item per line | proved | Cli | Proved for every text and any number of calls. |
| C66 | The sample iterator ends for good | partial | Cli | Violated: the 256th call yields an item again in a release build and panics in a debug build (witnesses, and exact values of all calls in a release build). Partial: the first 255 calls. |
| C67 | Integers survive conversion to quantities | proved | Quantity | Proved for all i32; larger quantities are refused. |
| C68 | A posting's pointer to its transaction stays valid | partial | Exactly, Memory | Violated: the fifth transaction moves the transactions when the allocator moves the vector. Partial: up to four transactions, and while they fit into the allocation. Exactly: valid if and only if the allocator extended the vector in place each time it was full since. |
| C69 | A posting line is booked as written | proved | Lines | Proved for every posting text of the grammar EntryText; a per-unit cost must be representable. Texts with a note on the posting line are outside the grammar. |
| C70 | A balanced transaction is accepted and stored as written | partial | Lines | Complete transactions: proved, including costs and lots. Exchanges of two commodities at an implied rate: proved (C70_rate_as_written), where the postings in the first commodity have no written costs. One blank posting, beside postings with or without costs: proved for sums that are not negative; negative sums are booked wrongly (C70_blank_as_written_violated). Products, rates and sums must be representable. |
| C71 | A journal text gives exactly its transactions | partial | Lines | Violated where C70 is (C71_text_violated: a transaction in a text that does not balance). Proved for texts whose transactions are accepted as in C70 (complete ones without restriction, C71_complete_text), with include lines nested to any depth and with or without a line feed at the end. C71_text_balances_partial: the added transactions balance at cost and have all amounts. C71_lines_unique: every text is divided into lines in exactly one way, so the hypothesis on lines costs nothing. |
| C72 | The balance command reports what is written | partial | Lines, Shell | Proved end to end from the texts of the files to the printed lines, for both commands, for texts as in C71 and totals in the range of the quantity type. False where C70 is false (C72_report_as_written_violated). The order of several commodities on one line is the subject of C83. |
| C73 | Balances found from the postings agree with the accounts | proved | Balances | Proved for every reachable journal, as an equivalence including failure, and with the sums themselves for amounts in range. |
| C74 | The amounts of a journal are well formed | proved | Amounts | Proved as stated, for every reachable journal. |
| C75 | The report with commas | proved | Amounts | Reading back needs amounts as they occur in journals, see C74. |
| C76 | The account tree in memory is the tree of names | proved | Heap | Proved as stated over the model with addresses. |
| C77 | The full name is the names of the account and its parents joined with colons | partial | Heap | False of the code: with the fourth account in a table its entries move and the parent pointers of their children refer to freed memory (C77_fullname_violated: A:B, C, D, E). Proved: right whenever no table two or more levels above has grown beyond three entries or the name was asked for before; otherwise the right name or a read of freed memory (C77_fullname_partial); once found, always found (C77_fullname_stays). |
| C78 | The balance report names every account rightly | partial | Heap, HeapReport | False of the code for the same reason as C77 (C78_report_violated: a journal with four top level accounts). Proved for every journal in which no account with grandchildren has more than three children; otherwise the right report or a read of freed memory. C78_same_report_partial says the same for all amounts: the report, or the panic of a sum that is too large, is that of the model without pointers. |
| C79 | A command line is split as a shell splits it | proved | Shell | Proved as stated. The split function of shell-words is modelled from its documented rules; C79_words is an equivalence with a separate grammar of command lines. C72_command_line_partial puts it together with the written-text theorems. |
| C80 | A transaction is accepted exactly if it is not defective | proved | Accept | Spec/Accept.lean defines Defective without reference to the code. C80_accepted_iff is for amounts and costs of at most D decimals and 10^T in all with D + 2T at most 27 (two decimals and a million million, nine decimals and a billion, ...), or D + T at most 28 if there are no costs, written or implied, where no intermediate result can overflow; C80_only_overflow is for all amounts whose sums fit a decimal. |
| C81 | A journal is read exactly if nothing in it is faulty, and then holds what is written | proved | Faults | Spec/Faults.lean defines Faulty, Settles and Outcome on what is written (Spec/Written.lean), without reference to scanner, parser or finalize. Everyday size: at most D decimals, also in per-unit products, and 10^T per transaction with D + 2T at most 27, or D + T at most 28 without costs; lot prices up to 10^15. Settles.filled describes what the code does, including the wrong sign beside a negative sum (claimed otherwise, and refuted, in C70). |
| C82 | The costs in a journal are its prices | proved | Faults | Composition of C81 with C12-C14: the recordings of the pool after reading are exactly the costs in the transactions as settled. Dates outside the moment asked for are not filtered (C15). |
| C83 | The order of the commodities on a report line | proved | LineOrder | Proved: the order for every total that can be computed, the whole report for totals in range, and that the order of accounts meant is unique. |
| C84 | What the program prints can be read back | proved | Output | Text of lists of strings, lines written, and uniqueness of the reading. An earlier version of the theorems left out the lines printed when a line cannot be read. |
| C85 | No reference is made from a null pointer | partial | NullRef | Violated: filling in the posting of a transaction without commodities makes one. Exactly when each operation and `finalize` makes one; no other step does. Partial: reading makes none if every transaction read is booked in some commodity. |
| C86 | Only what is written matters, not how it is written | proved | Same | What is written is defined by the same grammar as for C72 and C81 (Says, FileSays). No hypothesis on sizes, balance or faults. The events of the traced run (null references, error lines) are the same, too. |
| C87 | Reading and reporting fail only in these ways | proved | Failures | The list of failures is exact for the whole program (each listed failure has a run in the file). Failing to print (closed output) is not modelled. Nesting of includes is bounded by the parameter depth; running out of it stands for the stack overflow of the program. |
| C88 | Which panic a faulty journal ends with | proved | Causes, RoundedReport | The panic is that of the first faulty transaction, and within a transaction the order of the checks is fixed; each faulty transaction has exactly one cause. C88_run_any_sums: without a bound on the sums of the files, 'bal' can besides end only with the overflow of a sum. |
| C89 | The report figure by figure | proved | Figures | C89_report gives the report as a function of the written transactions (Spec/Figures.lean: schoolbook sums on digit strings, sorted names, no use of the account heap or of the decimal model); C89_program adds greeting and debug output. C89_sums shows that the specified figures are the exact sums, C89_only_own that only the order within each account matters. The decimals of sums rest on the modelled rust_decimal addition and multiplication (see DESIGN.md). |
| C90 | What every posting line and header line is taken for | proved | Reading | The description (Spec/Reading.lean) uses no function of the scanner. Refusal and acceptance are both exact (iff, for every text); the written-journal theorems C69 to C89 now start from these same descriptions, so they hold for every accepted posting and header line. |
| C91 | What every text says | proved | Found | TopPart, PriceSays, PriceRefused, BodyReads, SourceSays, SaysUpTo and FilesSay (Spec/Found) use no function of scanner or parser; they are shown equivalent to the code line by line, total and unique. A text in the sense of C80 says its transactions (C91_transactions). |
| C92 | What reading any files makes of them | proved | AnyFiles, Found | The size condition is Everyday (C81) for every transaction that is read, including one that is broken off, and for the exact digits of reports Roomy: at most D decimals and 10^(28-D) in all. C92_run_any_sums and C92_report_any_sums do without Roomy: beside the panics named in the property a report can then end with the overflow of a sum, and its figures are right up to the rounding of C112. |
| C93 | A price line gives the price in the commodity it names | partial | Exactly, Found | False of the code: parts of a price line are cut only at spaces and tabs, so the last name keeps its line feed. Proved: with a space or tab before the line feed the price is in the named commodity. Exactly: either something follows the name and the line says the same whatever is put after it, or what is put after it belongs to the name up to a space or tab. |
| C94 | Which command lines are refused | proved | Whole | Refused command lines exactly, with panics; complements C58 and C59. |
| C95 | What the program does | proved | Whole | Existence, uniqueness and exact output of the whole program; the numbers are of everyday size (Everyday for each transaction, Roomy for all together), error messages and the table of printable characters are parameters. The standard error text of panics is not modelled. |
| C96 | The books balance | partial | Books | C96_root_zero is about any list of bookings; C96_exactly about files, without the condition on the transactions. C96_books_violated is the report of a text with a blank posting beside a negative amount. |
| C97 | The order of transactions does not change the balances | partial | Books, Order | Missing from C97_order_partial is equality of the text, which C97_text_violated refutes with two pairs of journals. C97_text_partial: the text is the same in every order if all amounts are in one commodity and written with the same number of decimals. |
| C98 | A balance depends only on its own part of the account tree | proved | Books | C98_local compares any two lots of files; C98_elsewhere adds one transaction. |
| C99 | Which journals run into undefined behaviour | proved | Harm | Everyday size as in C92. The traced model (Trace.*) records an event wherever the code turns the raw commodity pointer into a reference without a check; C85 says it returns what the plain model returns. |
| C100 | Which journals keep only valid pointers | proved | Stale | C100_journal states it for any reachable journal and any memory that replays its postings; C100_files for the files read, and that such a memory exists. Addresses are those of Model/Memory (tables double, blocks move unless the allocator lets them stay) and Model/Heap (children move when their vector grows). |
| C101 | The program with its pointers | partial | Machine | `C101_until`: for every allocator, files and arguments the program with pointers gives the result of the main model, be it a report or a panic, or follows a stale pointer. `C101_slim`, `C101_files`: it follows none if the journal, or what the files say, is slim. `C101_slim_violated`: two price lines with four commodities (for every allocator), a transaction with five postings and a fourth account beside one with an account below it (when the allocator moves what grows) make it follow one. Which larger journals do is C104; which faulty ones end with their own panic is C108. |
| C102 | Which texts make the program follow a stale pointer | proved | Follows | The machine of C101 is walked through item by item (Thru). Sufficient conditions for reading (price lines, costs) and reporting in the words of what was mentioned before; C104 is the exact criterion. |
| C103 | Which orders of accounts make a balance report follow a stale pointer | proved | Displaced | The criterion on the order of the accounts is exact: the pointers to the accounts above are all right if and only if no account is displaced (Heap.Books.parentsRight). The exact form for a report asks for at most three commodities; C104 is the form without that. |
| C104 | Exactly which texts make the program follow a stale pointer | proved | Fresh | The moment at which each pointer was taken is kept through the whole run (Timed, Origin, Walks). Exact for runs to which the main model gives a result; a run that ends with a panic there is not covered. |
| C105 | What the program with its pointers prints, in terms of the text | proved | AnyFiles, SafeReport | The bookings of the text (C92) and the criterion for stale pointers (C104) in one statement about the machine model: on files without faults bal prints the report that the text says exactly if the text is safe and follows a stale pointer otherwise; accounts likewise with reading only; on other files it ends with the panic of the first fault or follows a stale pointer before; C108 says which. |
| C106 | Files as bytes | proved | Bytes | The bytes of a file, the lines of read_line and the table of str::from_utf8 are modelled and related to texts through the encoding of characters in Lean's core library: what is read of any byte sequence, that encoded texts are read as the texts, and what a line that is not UTF-8 does outside and inside a transaction. I/O errors are not modelled as such. |
| C107 | Damage to a line changes nothing but what the line says | partial | Bytes | Violated: a comment with one Latin-1 byte hides all transactions after it from the report, which is printed without them (an error line is printed before it). Proved for damaged lines with nothing after them. |
| C108 | Which panic, with the pointers | proved | Stopped | With pointers: the panic of a refused line or of the first faulty transaction, or a stale pointer before it, decided by the text. Spec/Trips.lean lists the pointers that are followed until the fault of a transaction is found. C108_steady: a transaction during which the table does not move makes the program follow none. |
| C109 | Includes without end | proved | Circle | The depth of includes is a parameter of the model where the code recurses on its stack. C109_endless: nested too deep at every depth exactly if reading runs in circles. C109_depth: among n files, depth n - 1 decides this, and otherwise what the files say is the same at every greater depth. C109_run: the program, for everyday transactions. C109_no_circle: any contents whatever. Statements before C109 that fix a depth therefore speak of the code for every depth of at least n - 1. That the real stack holds n - 1 frames of parsing is assumed. |
| C110 | Other files do not matter | proved | Frame | C110_text: reading a text given directly. C110_run: the run, the run with its log, and the run with its pointers under every allocator. C110_program: all output, for files as bytes on disk. The files that count (Spec/Frame.lean, Sought) are those named, those that existing ones of these have include lines for, and so on; a named file that does not exist counts as well. |
| C111 | Prices do not depend on the order in which different dates are written | proved | Moments | `C111_direct_price`, `C111_no_price`, `C111_find_price` for texts, `C111_files` for files. Both readings are assumed to succeed: the lot kept for a commodity is the first one written, so one order may overflow where the other does not. Where several chains are shortest, the answer may depend on the order (through the search), and C14 says what it is. |
| C112 | How far sums can be off by rounding | proved | RoundedReport, Rounding | Proved for all journals a program can have. The bound is (1 + 1/10^28)^n - 1 of the absolute values, with n roundings; C112_slack bounds it by 2n/10^28. C112_command: the same for what 'bal' prints for files of everyday transactions, without any bound on their sums. |
| C113 | What a transaction with an implied rate comes to | proved | Derived | C113_derived: one call of finalize, without written costs. C113_text: every accepted transaction of a text of everyday transactions, with or without written costs. That the written cost is lost is the model's and the code's behaviour (xact.rs overwrites the cost of every posting whose amount has the first commodity); see C35_implied_rate_violated for a transaction that is left unbalanced. |
| C114 | Which characters separate, and which are digits | proved | Characters | The other specifications use isWs, isDig and trim of the model; these theorems say what they are, so that a wrong class cannot hide in both the model and a specification. That char::is_whitespace is White_Space is the Rust documentation's statement and is trusted. |
| C115 | Quantities count as numbers | proved | Compare | BestFit says which number rust_decimal keeps of an exact result and has at most one solution (C115_best_fit). That rust_decimal rounds so is an assumption about the dependency (see Assumed about dependencies); the theorem shows that the executable model does. C05 and C06 say when an operation is refused. Amounts compare commodity pointers in the code; here a commodity is its symbol, and C101 says when that is the same. |
| C116 | What parse_amount makes of a text | proved | ParseAmount | AmountPart is the grammar of Spec/Reading, Numeral that of C02; Registers says what becomes of the pool. Stated for parse_amount on the symbol-keyed pool of Model/Pool. |
| C117 | A zero has no minus sign | partial | MinusZero | Violated: a posting without an amount beside others that are worth nothing together gets -0 and is printed so (C117_report_violated, witness runs; C117_shown_violated: in every report, if nothing else is booked to the account). C117_transaction says exactly which transactions book such a zero, C117_sums which sums are one. C117_report_partial: no other file makes bal print one, for transactions of everyday size. |
| C118 | The names of the commodities do not matter | proved | Rename | Proved for all files that say their transactions (no price lines in them), whatever the sums: overflow and rounding are the same under any names. A renaming is injective and leaves the empty name empty. |
| C119 | Dates, payees, notes and comments do not matter for the balances | proved | Money | Two readings of texts with the same postings are run side by side (Alongside, SameBooks): every step fails alike or keeps accounts, postings, commodities and lots equal; the pools may differ only in the recorded prices. C119_run holds for every list of words, thus also for the refused commands. An example shows that the recorded prices do depend on the dates. |
| C120 | With all signs turned around all figures are turned around | partial | Opposite, Refund | False because of blank postings: Amount::inverse leaves a negative amount as it is, so a purchase and its refund both take money from the blank account (C120_text_violated). C120_text_partial and C120_report_partial: true for all files without blank postings, whether balanced or not, with reports and panics. C120_exactly: for all files, with blank postings too, says what happens: the same panic or the same accounts, commodities, prices and lots, opposite amounts and costs in postings with a written amount, and in each blank posting the same amount, not above zero, on both sides; so the books are opposite exactly if every blank posting comes to zero. C120_sums: the sums of the two reports, for all accepted transactions in any order: opposite, less twice the absolute sum of the other postings for each blank posting at or below the account. |
| C121 | Balances of separate files add up | proved | AddUp | C121_add: for all files that say transactions of everyday size, three runs: refusal of the whole exactly with refusal of a part, each account once, commodities and sums of the parts (decimals and the order of commodities can differ, see C97). C121_twice: the same files twice, same lines in the same order, sums doubled. C121_accounts: the same for the list of the accounts command. |
| C122 | A transaction and its reversal cancel | partial | Cancel, Refund | C122_cancel_partial: holds for reversed transactions without a blank posting, beside any other transactions of everyday size; refusal is said exactly. C122_cancel_violated: with a blank posting the money is taken from the blank account both times. C122_exactly: with blank postings too, what is left over: for each blank posting its account and those above are down by twice the absolute sum of the other postings. C122_when: so they cancel exactly if the postings beside each blank one sum to zero. |
| C123 | The names of the accounts do not matter | proved | Chart | C123_names: for all injective renamings of the parts of names and any order of the transactions, refusals and all sums. C123_order: for renamings that keep the order, line by line with the same figures, digit by digit. C123_accounts: the list of the accounts command, renamed. |
| C124 | The figures of a report in plain arithmetic | proved | Plain | C124_sums: lines, commodities and sums, where Writing.written, Writing.lost and Writing.Brings mention only what is written. C124_zero: when the first line shows only zeros. Refused files are in C92; the digits and decimals are in C92_report. |
| C125 | How postings are grouped and what they cost does not matter for balances | proved | Regroup | C125_text: same order, the same report digit by digit. C125_sums: any order, same lines, commodities and sums (decimals can differ, see C97). With blank postings the grouping matters, as a blank posting stands for the rest of its own transaction (C124_sums). C125_accounts: the accounts command, with blank postings too. |
| C126 | With all amounts multiplied all figures are multiplied | proved | Scaled | C126_times: the figures, for every rational factor. C126_refused: acceptance, for factors other than zero (with zero, costs of amounts that become zero are refused differently). |
| C127 | Splitting a posting in two does not change the figures | proved | Parts | C127_split: any number of postings split, with blank postings. Sums are the same; the decimals shown can differ (41 against 41.00 in the example). Acceptance of both is assumed: a transaction of one posting is refused, and of two parts accepted. |
| C128 | Filing a posting under another account changes only the lines above the two | proved | Refile | C128_lines: every account with the same postings within it, the root among them. C128_refused: acceptance does not depend on accounts. Sums and commodities; the decimals shown can differ, as amounts are added account by account. |
