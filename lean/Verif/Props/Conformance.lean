import Verif.Props.Finalize
import Verif.Model.Report
import Verif.Lemmas.Search
/-
Tests of the crate replayed on the model.  Each example names the test it is copied from; inputs and expected
results are those of the test.  They are checks of the model against the authors' expectations, not properties.
Tests that are disabled in the crate, tests of `petgraph` itself and assertions about addresses (`parent`
pointers) are left out.
-/
open Ledger.Parser Ledger.Scanner
namespace Ledger.Conformance

/-- The run succeeds and its result satisfies a test. -/
def holds {α : Type} (r : Res α) (t : α → Bool) : Bool :=
  match r with
  | .ok a => t a
  | .error _ => false

def basicLedger : String :=
  "; basic test file\n\n2023-04-21 Supermarket\n    Expenses:Food  20 EUR\n    Assets:Cash\n"
def minimalLedger : String :=
  "; The simplest journal. No commodities, two accounts, integer value.\n2023-05-05 Payee\n    Expenses  20\n    Assets\n"
def twoXactLedger : String :=
  "; Two transactions with a blank line separator.\n\n2023-04-21 Supermarket\n    Expenses:Food  20 EUR\n" ++
  "    Assets:Cash\n\n2023-04-22 Supermarket\n    Expenses:Food  10 EUR\n    Assets:Cash\n"
def twoXactSubAcctLedger : String :=
  "; Two transactions with two accounts under the same parent.\n\n2023-04-21 Supermarket\n" ++
  "    Expenses:Food  20 EUR\n    Assets:Cash\n\n2023-04-22 Supermarket\n    Expenses:Dining  10 EUR\n" ++
  "    Assets:Checking\n"
def multipleCurrenciesLedger : String :=
  "; Multiple currencies in one transaction\n\n2023-04-21 FX\n    Assets:Eur   -20 EUR\n    Assets:Bam    40 BAM\n"
def lotLedger : String := "2023-05-01 Trade\n    Assets:Stocks  10 VEUR @ 12.75 EUR\n    Assets:Cash\n"
def tradeBuySellLedger : String :=
  "; a full trade, with purchase and sale of a commodity.\n\n2023-04-21 Buy Stocks\n" ++
  "    Assets:Stocks  10 VEUR @ 20 EUR\n    Assets:Cash\n\n2023-05-17 Sell Stocks\n" ++
  "    Assets:Stocks  -10 VEUR @ 25 EUR\n    ;Income:Capital Gains\n    Assets:Cash\n"
def tradeFullPriceLedger : String :=
  "; a full trade, with purchase and sale of a commodity.\n\n2023-04-21 Buy Stocks\n" ++
  "    Assets:Stocks  10 VEUR @@ 20 EUR\n    Assets:Cash\n\n2023-05-17 Sell Stocks\n" ++
  "    Assets:Stocks  -10 VEUR @@ 25 EUR\n    ;Income:Capital Gains\n    Assets:Cash\n"
def lotSale : String :=
  "2023-05-01 Sell Stocks\n    Assets:Stocks  -10 VEUR {20 EUR} [2023-04-01] @ 25 EUR\n    Assets:Cash\n"

/-- The files of `/repo/tests` used below. -/
def testFiles : Files := fun f =>
  if f = str "tests/basic.ledger" then some (textSource (str basicLedger))
  else if f = str "tests/minimal.ledger" then some (textSource (str minimalLedger))
  else none

/-! ### tests/ext-report-tests.rs, src/lib.rs -/

/-- ext-report-tests.rs `test_balance_minimal`, lib.rs `test_minimal` -/
example : Cli.run testFiles 1 [str "b", str "-f", str "tests/minimal.ledger"] =
    .ok [str "Account  has balance 0", str "Account Assets has balance -20",
      str "Account Expenses has balance 20"] := by decide +kernel

/-- ext-report-tests.rs `test_balance_basic`, `test_balance_plain` -/
example : Cli.run testFiles 1 [str "b", str "-f", str "tests/basic.ledger"] =
    .ok [str "Account  has balance 0 EUR", str "Account Assets has balance -20 EUR",
      str "Account Assets:Cash has balance -20 EUR", str "Account Expenses has balance 20 EUR",
      str "Account Expenses:Food has balance 20 EUR"] := by decide +kernel

/-- ext-report-tests.rs `test_accounts` -/
example : Cli.run testFiles 1 [str "accounts", str "-f", str "tests/minimal.ledger"] =
    .ok [str "", str "Assets", str "Expenses"] := by decide +kernel

/-- lib.rs `test_multiple_files` -/
example : holds (Cli.readFiles testFiles 1 [str "tests/minimal.ledger", str "tests/basic.ledger"] Journal.new)
    (fun j => j.xacts.map (fun x => (x.payee, x.posts.length)) == [(str "Payee", 2), (str "Supermarket", 2)]
      && (j.xacts.map (fun x => (x.posts.map (·.amount)).head?)) ==
        [some (some ⟨⟨false, 20, 0⟩, none⟩), some (some ⟨⟨false, 20, 0⟩, some (str "EUR")⟩)]
      && (sortByKey ((Report.reportAccounts j).map (fun s => (s, ())))).map (·.1) ==
        [str "", str "Assets", str "Cash", str "Expenses", str "Food"]
      && j.pool.commodities.map (·.1) == [str "EUR"]) = true := by decide +kernel

/-! ### tests/accounts-tests.rs, tests/ext-parser-tests.rs, tests/utility-tests.rs -/

/-- accounts-tests.rs `test_creating_account_tree`, ext-parser-tests.rs `test_parsing_account_tree` -/
example : holds (parsed basicLedger) (fun j => Report.reportAccounts j ==
    [str "", str "Assets", str "Cash", str "Expenses", str "Food"]) = true := by decide +kernel

/-- ext-parser-tests.rs `smoke_test_parsing`, `test_parsing_two_xact` -/
example : holds (parsed minimalLedger) (fun j => j.xacts.map (·.posts.length) == [2]) = true ∧
    holds (parsed twoXactLedger) (fun j => j.xacts.map (·.posts.length) == [2, 2]) = true := by decide +kernel

/-- ext-parser-tests.rs `detailed_basic_test` -/
example : holds (parsed basicLedger) (fun j => j.xacts == [⟨some ⟨2023, 4, 21⟩, none, str "Supermarket",
    [⟨[str "Expenses", str "Food"], some ⟨⟨false, 20, 0⟩, some (str "EUR")⟩, none, none⟩,
     ⟨[str "Assets", str "Cash"], some ⟨⟨true, 20, 0⟩, some (str "EUR")⟩, none, none⟩], none⟩]) = true := by
  decide +kernel

/-- ext-parser-tests.rs `test_parsing_multiple_currencies` -/
example : holds (parsed multipleCurrenciesLedger) (fun j => j.xacts.length == 1 && j.allPosts.length == 2) =
    true := by decide +kernel

/-- ext-parser-tests.rs `test_parsing_lots_per_unit` -/
example : holds (parsed tradeBuySellLedger) (fun j => j.xacts.length == 2 && j.allPosts.length == 4 &&
    (j.xacts.map (fun x => (x.posts.map (·.cost)).head?)) ==
      [some (some ⟨⟨false, 200, 0⟩, some (str "EUR")⟩), some (some ⟨⟨true, 250, 0⟩, some (str "EUR")⟩)]) =
    true := by decide +kernel

/-- ext-parser-tests.rs `test_parsing_lots_full_price` -/
example : holds (parsed tradeFullPriceLedger) (fun j => j.xacts.length == 2 && j.allPosts.length == 4 &&
    (j.xacts.map (fun x => (x.posts.map (·.cost)).head?)) ==
      [some (some ⟨⟨false, 20, 0⟩, some (str "EUR")⟩), some (some ⟨⟨false, 25, 0⟩, some (str "EUR")⟩)]) =
    true := by decide +kernel

/-- utility-tests.rs `test_xact_verification` -/
example : holds (parsed "2023-05-23 Supermarket\n    Expenses:Food  20 EUR\n    Assets:Cash\n")
    (fun j => j.xacts.map (fun x => x.posts.map (·.amount)) ==
      [[some ⟨⟨false, 20, 0⟩, some (str "EUR")⟩, some ⟨⟨true, 20, 0⟩, some (str "EUR")⟩]]) = true := by
  decide +kernel

/-! ### src/report.rs -/

/-- `test_balance_report_one_xact` -/
example : (do let j ← parsed ";\n2023-05-05 Payee\n    Expenses  25 EUR\n    Assets\n\n"; Report.balanceReport j) =
    .ok [str "Account  has balance 0 EUR", str "Account Assets has balance -25 EUR",
      str "Account Expenses has balance 25 EUR"] := by decide +kernel

/-- `test_bal_report_two_commodities` -/
example : (do
    let j ← parsed (";\n2023-05-05 Payee\n    Expenses  25 EUR\n    Assets\n\n" ++
      "2023-05-05 Payee 2\n    Expenses  13 BAM\n    Assets\n")
    Report.balanceReport j) =
    .ok [str "Account  has balance 0 EUR0 BAM", str "Account Assets has balance -25 EUR-13 BAM",
      str "Account Expenses has balance 25 EUR13 BAM"] := by decide +kernel

/-- `test_bal_multiple_commodities_in_the_same_xact` -/
example : (do
    let j ← parsed ";\n2023-05-05 Payee\n    Assets:Cash EUR  -25 EUR\n    Assets:Cash USD   30 USD\n"
    Report.balanceReport j) =
    .ok [str "Account  has balance -25 EUR30 USD", str "Account Assets has balance -25 EUR30 USD",
      str "Account Assets:Cash EUR has balance -25 EUR", str "Account Assets:Cash USD has balance 30 USD"] := by
  decide +kernel

/-! ### src/parser.rs -/

/-- `test_xact_with_space_after` -/
example : holds (parsed ";\n2023-05-05 Payee\n    Expenses  25 EUR\n    Assets\n            \n")
    (fun j => j.master.flatten.length == 3) = true := by decide +kernel

/-- `test_minimal_parsing`, `test_minimal_parser` -/
example : holds (parsed "; Minimal transaction\n2023-04-10 Supermarket\n    Expenses  20\n    Assets\n")
    (fun j => j.xacts.map (fun x => (x.payee, x.posts.map (·.account),
        (x.posts.map (fun p => p.amount.map (fun a => (a.qty.display, a.comm)))).head?)) ==
      [(str "Supermarket", [[str "Expenses"], [str "Assets"]], some (some (str "20", none)))]) = true := by
  decide +kernel

/-- `test_multiple_currencies_one_xact` -/
example : holds (parsed ";\n2023-05-05 Payee\n    Assets:Cash EUR  -25 EUR\n    Assets:Cash USD   30 USD\n")
    (fun j => j.pool.len == 2) = true := by decide +kernel

/-- `test_parse_standard_xact` -/
example : holds (parsed "; Standard transaction\n2023-04-10 Supermarket\n    Expenses  20 EUR\n    Assets\n")
    (fun j => j.xacts.map (fun x => (x.payee, x.posts.map (·.account))) ==
      [(str "Supermarket", [[str "Expenses"], [str "Assets"]])]) = true := by decide +kernel

/-- `test_parse_trade_xact` -/
example : holds (parsed
      "; Standard transaction\n2023-04-10 Supermarket\n    Assets:Investment  20 VEUR @ 10 EUR\n    Assets\n")
    (fun j => j.xacts.map (fun x => (x.payee, x.posts)) == [(str "Supermarket",
      [⟨[str "Assets", str "Investment"], some ⟨⟨false, 20, 0⟩, some (str "VEUR")⟩,
          some ⟨⟨false, 200, 0⟩, some (str "EUR")⟩, none⟩,
        ⟨[str "Assets"], some ⟨⟨true, 200, 0⟩, some (str "EUR")⟩, none, none⟩])]) = true := by decide +kernel

/-- `parser_tests::test_parsing_account_tree` -/
example : holds (parsed ("\n2023-05-23 Payee\n  Assets:Eur   -20 EUR\n  Assets:USD    30 USD\n" ++
      "  Trading:Eur   20 EUR\n  Trading:Usd  -30 USD\n"))
    (fun j => j.xacts.map (·.posts.length) == [4] && j.master.flatten.length == 7 && j.pool.len == 2) = true := by
  decide +kernel

/-- `test_parsing_buy_lot` -/
example : holds (parsed lotLedger) (fun j => j.xacts.length == 1 && j.master.flatten.length == 4 &&
    j.pool.len == 2 && j.pool.history.nodes.length == 2 &&
    j.pool.history.edges.map (·.prices) == [[(⟨⟨2023, 5, 1⟩, Time.midnight⟩, ⟨false, 1275, 2⟩)]]) = true := by
  decide +kernel

/-- `test_buy_lot_cost` -/
example : holds (parsed lotLedger) (fun j => (j.allPosts.map (·.cost)).head? ==
    some (some ⟨⟨false, 12750, 2⟩, some (str "EUR")⟩)) = true := by decide +kernel

/-- `test_parsing_trailing_xact_comment`, `test_parsing_trailing_post_comment` -/
example : holds (parsed "2023-03-02 Payee\n    ; this is xact comment\n    Expenses  20 EUR\n    Assets\n")
      (fun j => j.xacts.map (·.note) == [some (str "this is xact comment")]) = true ∧
    holds (parsed "2023-03-02 Payee\n    Expenses  20 EUR\n    ; this is post comment\n    Assets\n")
      (fun j => j.allPosts.map (·.note) == [some (str "this is post comment"), none]) = true := by decide +kernel

/-- `amount_parsing_tests`: the journal of `setup` and one posting line. -/
def onePost (line : String) : Res (List (Option (Str × Option Str))) := do
  let x ← Xact.create (str "2023-05-02") [] (str "Supermarket") []
  let (j, i) := Journal.new.addXact x
  let j ← parsePost (str line) i j
  .ok (j.allPosts.map (fun p => p.amount.map (fun a => (a.qty.display, a.comm))))

/-- `test_pos_w_commodity_separated`, `test_neg_commodity_separated`, `test_full_w_commodity_separated`,
`test_full_commodity_first` -/
example : onePost "  Assets  20 EUR" = .ok [some (str "20", some (str "EUR"))] ∧
    onePost "  Assets  -20 EUR" = .ok [some (str "-20", some (str "EUR"))] ∧
    onePost "  Assets  -20000.00 EUR" = .ok [some (str "-20000.00", some (str "EUR"))] ∧
    onePost "  Assets  A$-20000.00" = .ok [some (str "-20000.00", some (str "A$"))] := by
  and_intros <;> decide +kernel

/-- `test_quantity_separators`, `test_addition`, `test_add_assign` -/
example : ((Dec.fromStr (str "-1000000.00")).map (fun d => d.numEq (Dec.ofI32 (-1000000)))) = some true ∧
    Amount.addOp ⟨Dec.ofI32 10, none⟩ ⟨Dec.ofI32 15, none⟩ = .ok ⟨Dec.ofI32 25, none⟩ ∧
    Amount.add ⟨Dec.ofI32 21, none⟩ ⟨Dec.ofI32 13, none⟩ = .ok ⟨Dec.ofI32 34, none⟩ := by decide +kernel

/-! ### src/scanner.rs -/

/-- `test_parsing_xact_header` and its four variants -/
example : tokenizeXactHeader (str "2023-05-01 Payee  ; Note") =
      .ok (str "2023-05-01", [], str "Payee", str "Note") ∧
    tokenizeXactHeader (str "2023-05-02=2023-05-01 Payee  ; Note") =
      .ok (str "2023-05-02", str "2023-05-01", str "Payee", str "Note") ∧
    tokenizeXactHeader (str "2023-05-01 Payee") = .ok (str "2023-05-01", [], str "Payee", []) ∧
    tokenizeXactHeader (str "2023-05-01  ; Note") = .ok (str "2023-05-01", [], [], str "Note") ∧
    tokenizeXactHeader (str "2023-05-01") = .ok (str "2023-05-01", [], [], []) := by
  and_intros <;> decide +kernel

/-- `test_date_w_aux`, `test_ws_skip` -/
example : scanDate (str "2023-05-01=2023") = (str "2023-05-01", str "=2023") ∧
    trim (str "\t \t Text \t") = str "Text" := by decide +kernel

/-- Account, quantity, symbol, cost quantity, cost symbol, per unit. -/
def postParts (line : String) : Res (List Str × Bool) := do
  let t ← scanPost (str line)
  .ok ([t.account, t.quantity, t.symbol, t.costQuantity, t.costSymbol], t.isPerUnit)

/-- `scanner_tests_post`: the tests of `scan_post` -/
example :
    postParts "  Assets  20 VEUR @ 25.6 EUR" =
      .ok ([str "Assets", str "20", str "VEUR", str "25.6", str "EUR"], true) ∧
    postParts "Assets  20 EUR" = .ok ([str "Assets", str "20", str "EUR", [], []], false) ∧
    postParts "Assets  20" = .ok ([str "Assets", str "20", [], [], []], false) ∧
    postParts "  Assets" = .ok ([str "Assets", [], [], [], []], false) ∧
    postParts "  Assets  25 EUR" = .ok ([str "Assets", str "25", str "EUR", [], []], false) ∧
    postParts "  Expenses  -25 EUR" = .ok ([str "Expenses", str "-25", str "EUR", [], []], false) ∧
    postParts "  Expenses  25.0 EUR" = .ok ([str "Expenses", str "25.0", str "EUR", [], []], false) ∧
    postParts "  Expenses  25,00 EUR" = .ok ([str "Expenses", str "25,00", str "EUR", [], []], false) ∧
    postParts "  Expenses  25,0.01 EUR" = .ok ([str "Expenses", str "25,0.01", str "EUR", [], []], false) ∧
    postParts "  Expenses  €25" = .ok ([str "Expenses", str "25", str "€", [], []], false) ∧
    postParts "  Expenses  25,0.01EUR" = .ok ([str "Expenses", str "25,0.01", str "EUR", [], []], false) ∧
    postParts "  Account  5 VAS @ 13.21 AUD" =
      .ok ([str "Account", str "5", str "VAS", str "13.21", str "AUD"], true) ∧
    postParts "  Account  5 VAS @@ 10 AUD" =
      .ok ([str "Account", str "5", str "VAS", str "10", str "AUD"], false) := by
  and_intros <;> decide +kernel

/-- `scanner_tests_post`: the tests of `scan_amount` and `scan_symbol` -/
example :
    scanAmount (str "EUR 25,0.01") = .ok (⟨str "25,0.01", str "EUR"⟩, []) ∧
    scanAmount (str "EUR25,0.01") = .ok (⟨str "25,0.01", str "EUR"⟩, []) ∧
    scanAmount (str "EUR-25,0.01") = .ok (⟨str "-25,0.01", str "EUR"⟩, []) ∧
    scanAmount (str "5 VECP @ 13.68 EUR") = .ok (⟨str "5", str "VECP"⟩, str "@ 13.68 EUR") ∧
    scanSymbol (str " \"VECP\" @ 13.68 EUR") = (str "\"VECP\"", str "@ 13.68 EUR") ∧
    scanSymbol (str " VECP @ 13.68 EUR") = (str "VECP", str "@ 13.68 EUR") ∧
    scanSymbol (str " VECP ") = (str "VECP", []) := by decide +kernel

/-- `scan_annotations_tests`, `scanner_tests_amount`, `scanner_tests_price_directive` -/
example :
    scanAnnotations (str "{20 EUR}") = .ok (⟨str "20", str "EUR", []⟩, []) ∧
    scanAnnotations (str "[2023-11-07]") = .ok (⟨[], [], str "2023-11-07"⟩, []) ∧
    scanAnnotations (str "{20 EUR} [2023-11-07]") = .ok (⟨str "20", str "EUR", str "2023-11-07"⟩, []) ∧
    scanPost (str "    Assets:Stocks  -10 VEUR {20 EUR} [2023-04-01] @ 25 EUR") =
      .ok ⟨str "Assets:Stocks", str "-10", str "VEUR", str "20", str "EUR", str "2023-04-01", str "25", str "EUR",
        true⟩ ∧
    scanCost (str "@ 25.86 EUR") = .ok ⟨str "25.86", str "EUR", true⟩ ∧
    scanCost (str "@@ 25.86 EUR") = .ok ⟨str "25.86", str "EUR", false⟩ ∧
    scanPriceDirective (str "P 2022-03-03 13:00:00 EUR 1.12 USD") =
      .ok (str "2022-03-03", str "13:00:00", str "EUR", str "1.12", str "USD") := by decide +kernel

/-! ### src/pool.rs, src/history.rs, src/annotate.rs -/

/-- pool.rs `test_create`, `test_adding_commodity` -/
example : (Pool.empty.create (str "DHI") none).2 = str "DHI" ∧
    ((Pool.empty.create (str "DHI") none).1.find (str "DHI")).map (·.symbol) = some (str "DHI") ∧
    (Pool.empty.create (str "EUR") none).1.commodities.map (·.1) = [str "EUR"] := by decide +kernel

/-- pool.rs `test_parsing_price_directive` -/
example : holds (Pool.empty.parsePriceDirective (str "P 2022-03-03 13:00:00 EUR 1.12 USD")) (fun p =>
    p.len == 2 && p.history.nodes.length == 2 && (p.find (str "EUR")).isSome && (p.find (str "USD")).isSome &&
    p.history.edges.map (·.prices) == [[(⟨⟨2022, 3, 3⟩, ⟨13, 0, 0⟩⟩, ⟨false, 112, 2⟩)]]) = true := by decide +kernel

/-- pool.rs `test_create_annotated` -/
example : assocGet (str "EUR") (Pool.empty.create (str "EUR") (some ⟨none, none⟩)).1.annotated =
    some ⟨none, none⟩ := by decide +kernel

/-- pool.rs `test_exchange_stores_base_cost` -/
example : holds (parsed lotSale) (fun j => holds (j.pool.findIndex (str "VEUR")) (fun v =>
    (j.pool.history.edges.filter (fun e => e.src == v)).map (·.prices) ==
      [[(⟨⟨2023, 5, 1⟩, Time.midnight⟩, ⟨false, 25, 0⟩)]])) = true := by decide +kernel

/-- A day at midnight, as `parse_datetime` gives it. -/
def day (y : Int) (m d : Nat) : DateTime := ⟨⟨y, m, d⟩, Time.midnight⟩

/-- history.rs `test_get_latest_price` -/
example : PriceMap.latest (PriceMap.insert (day 2023 5 2) (Dec.ofI32 40) (PriceMap.insert (day 2023 5 10) (Dec.ofI32 30)
      (PriceMap.insert (day 2023 5 1) (Dec.ofI32 20) (PriceMap.insert (day 2023 5 5) (Dec.ofI32 10) [])))) =
    some (day 2023 5 10, Dec.ofI32 30) := by decide +kernel

/-- The pool of the tests of history.rs: `EUR`, `AUD`, `USD` and prices given by texts. -/
def pricedPool (prices : List (String × String)) : Res Pool :=
  prices.foldlM (fun p r => do
    let (p, a) ← parseAmount (str r.2) p
    match a with
    | none => .error .quantityParse
    | some a => p.addPrice (some (str r.1)) (day 2023 5 1) a)
    (((Pool.empty.create (str "EUR") none).1.create (str "AUD") none).1.create (str "USD") none).1

/-- history.rs `test_adding_price`, `test_get_direct_price` -/
example : holds (pricedPool [("EUR", "1.20 USD")]) (fun p => p.history.nodes.length == 3 &&
    p.history.edges.length == 1 && p.history.getDirectPrice 0 2 == some (day 2023 5 1, ⟨false, 120, 2⟩)) = true := by
  decide +kernel

/-- history.rs `test_find_price_1_hop`, for a clock after the date of the price -/
example : holds (pricedPool [("EUR", "1.20 USD")]) (fun p => holds (p.findPrice shortestSearch (day 2024 1 1)
      (str "EUR") (str "USD") (day 2023 5 1) (day 2024 1 1))
    (fun r => r == some ⟨day 2023 5 1, ⟨⟨false, 120, 2⟩, some (str "USD")⟩⟩)) = true := by decide +kernel

/-- history.rs `test_calculate_rate`, `test_find_price_2_hops`, for a clock after the dates of the prices -/
example : holds (pricedPool [("EUR", "2 AUD"), ("AUD", "3 USD")]) (fun p =>
    holds (p.history.calculateRate (day 2024 1 1) 0 [0, 1, 2]) (fun r => r == (day 2023 5 1, Dec.ofI32 6)) &&
    holds (p.findPrice shortestSearch (day 2024 1 1) (str "EUR") (str "USD") (day 2023 5 1) (day 2024 1 1))
      (fun r => r == some ⟨day 2023 5 1, ⟨Dec.ofI32 6, some (str "USD")⟩⟩)) = true := by decide +kernel

/-- annotate.rs `test_parsing` -/
example : holds (parseAnnotation (str "2023-01-10") (str "20") (str "EUR") Pool.empty) (fun r =>
    r.2 == Annotation.mk (some ⟨⟨false, 20, 0⟩, some (str "EUR")⟩) (some ⟨2023, 1, 10⟩)) = true := by decide +kernel

/-! ### src/amount.rs, src/balance.rs -/

/-- amount.rs `test_decimal`, `test_division`, `test_multiply_assign`, `test_from_str`, `test_from_str_num_only` -/
example : (Dec.ofI32 5).toI32 = .ok 5 ∧
    Amount.div ⟨Dec.ofI32 10, some (str "EUR")⟩ ⟨Dec.ofI32 5, some (str "EUR")⟩ =
      .ok ⟨Dec.ofI32 2, some (str "EUR")⟩ ∧
    Amount.mul (Amount.ofI32 10) (Amount.ofI32 5) = .ok ⟨⟨false, 50, 0⟩, none⟩ ∧
    Dec.fromStr (str "3") = some (Dec.ofI32 3) ∧ Dec.fromStr (str "3 USD") = none := by decide +kernel

/-- balance.rs: all tests -/
example :
    Balance.empty.addAll [⟨Dec.ofI32 25, none⟩] = .ok ⟨[⟨Dec.ofI32 25, none⟩]⟩ ∧
    Balance.empty.addAll [⟨Dec.ofI32 25, none⟩, ⟨Dec.ofI32 5, none⟩] = .ok ⟨[⟨Dec.ofI32 30, none⟩]⟩ ∧
    Balance.empty.addAll [⟨Dec.ofI32 25, some (str "ABC")⟩, ⟨Dec.ofI32 5, none⟩] =
      .ok ⟨[⟨Dec.ofI32 25, some (str "ABC")⟩, ⟨Dec.ofI32 5, none⟩]⟩ ∧
    Balance.empty.addAll [⟨Dec.ofI32 25, some (str "CD1")⟩, ⟨Dec.ofI32 5, some (str "CD2")⟩] =
      .ok ⟨[⟨Dec.ofI32 25, some (str "CD1")⟩, ⟨Dec.ofI32 5, some (str "CD2")⟩]⟩ ∧
    Balance.empty.addAll [⟨Dec.ofI32 25, some (str "BAM")⟩, ⟨Dec.ofI32 5, some (str "BAM")⟩] =
      .ok ⟨[⟨Dec.ofI32 30, some (str "BAM")⟩]⟩ ∧
    Balance.empty.subAssign ⟨Dec.ofI32 10, some (str "ABC")⟩ =
      .ok ⟨[(Amount.mk (Dec.ofI32 10) (some (str "ABC"))).inverse]⟩ ∧
    Balance.addBalance ⟨[⟨Dec.ofI32 15, some (str "ABC")⟩]⟩ ⟨[⟨Dec.ofI32 10, some (str "ABC")⟩]⟩ =
      .ok ⟨[⟨Dec.ofI32 25, some (str "ABC")⟩]⟩ := by decide +kernel

/-! ### src/journal.rs, src/account.rs -/

/-- journal.rs `test_add_account`, `test_register_account` -/
example : holds (Journal.new.registerAccount (str "Assets")) (fun r => r.2 == some [str "Assets"]) = true ∧
    holds (Journal.new.registerAccount (str "Assets:Investments:Broker")) (fun r =>
      r.2 == some [str "Assets", str "Investments", str "Broker"] && r.1.master.flatten.length == 4 &&
      Account.fullname [str "Assets", str "Investments", str "Broker"] == str "Assets:Investments:Broker" &&
      holds (r.1.master.findAccount (str "Assets")) (· == some [str "Assets"])) = true := by decide +kernel

/-- journal.rs `test_find_account`, `test_master_gets_created`, `test_read` -/
example : holds (parsed basicLedger) (fun j => holds (j.findAccount (str "Assets:Cash")) (·.isSome)) = true ∧
    Journal.new.master.name = [] ∧
    holds (Parser.read testFiles 0 (textSource (str "2023-05-01 Test\n  Expenses:Food  20 EUR\n  Assets:Cash\n"))
      Journal.new) (fun r => r.2 == 1) = true := by decide +kernel

/-- account.rs `test_flatten`, `test_account_iterator`, `test_fullname` -/
example : holds (Journal.new.registerAccount (str "Assets:Cash")) (fun r => r.1.master.flatten.length == 3) = true ∧
    holds (parsed "2023-05-01 Test\n    Expenses:Food  10 EUR\n    Assets:Cash\n") (fun j =>
      holds (j.findAccount (str "Expenses:Food")) (fun p => p == some [str "Expenses", str "Food"] &&
        j.master.flatten.length == 5 &&
        (p.map Account.fullname) == some (str "Expenses:Food"))) = true := by decide +kernel

/-- account.rs `test_amount_parsing`, `test_total` -/
example : holds (parsed basicLedger) (fun j => ((j.master.at? [str "Assets", str "Cash"]).map (fun a =>
      holds (j.accountAmount a) (fun b => b.amounts == [⟨Dec.ofI32 (-20), some (str "EUR")⟩]))) == some true) = true ∧
    holds (parsed twoXactSubAcctLedger) (fun j => ((j.master.at? [str "Assets"]).map (fun a =>
      holds (j.accountTotal a) (fun b => b.amounts == [⟨Dec.ofI32 (-30), some (str "EUR")⟩]))) == some true) =
      true := by decide +kernel

/-- account.rs `test_parent_pointers`: the text ends with an indented blank line without line feed. -/
example : holds (parsed "2023-05-05 Payee\n        Expenses:Groceries  20\n        Assets:Cash\n    ") (fun j =>
    (j.master.at? [str "Expenses", str "Groceries"]).isSome && (j.master.at? [str "Assets", str "Cash"]).isSome) =
    true := by decide +kernel

/-! ### src/option.rs, src/reader.rs -/

/-- option.rs: all tests -/
example :
    Options.processArguments [str "accounts", str "-f", str "basic.ledger"] =
      .ok ([str "accounts"], [str "basic.ledger"]) ∧
    Options.processArguments [str "accounts", str "b", str "-f", str "tests/minimal.ledger"] =
      .ok ([str "accounts", str "b"], [str "tests/minimal.ledger"]) ∧
    Options.processArguments [str "accounts", str "-f", str "one", str "-f", str "two"] =
      .ok ([str "accounts"], [str "one", str "two"]) ∧
    Options.inputOptions [str "-f", str "one", str "-f", str "two"] = .ok [str "one", str "two"] := by
  decide +kernel

end Ledger.Conformance
