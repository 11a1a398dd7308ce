import Verif.Model.Basic
/-
The scanner (src/scanner.rs).  All functions are pure functions on strings.
-/
namespace Ledger.Scanner
open Ledger

/-- scanner.rs:10-20 -/
structure PostTokens where
  account : Str
  quantity : Str
  symbol : Str
  priceQuantity : Str
  priceCommodity : Str
  priceDate : Str
  costQuantity : Str
  costSymbol : Str
  isPerUnit : Bool
deriving DecidableEq, Repr

/-- scanner.rs:22-36 -/
def PostTokens.empty : PostTokens := ⟨[], [], [], [], [], [], [], [], false⟩

/-- scanner.rs:39-42 -/
structure AmountTokens where
  quantity : Str
  symbol : Str
deriving DecidableEq, Repr

/-- scanner.rs:44-58 -/
structure AnnotationTokens where
  quantity : Str
  symbol : Str
  date : Str
deriving DecidableEq, Repr

/-- scanner.rs:60-76 (`remainder` is never read). -/
structure CostTokens where
  quantity : Str
  symbol : Str
  isPerUnit : Bool
deriving DecidableEq, Repr

/-- scanner.rs:118-134 -/
def scanDate (input : Str) : Str × Str := splitAtFirst (fun c => c == '=' || c == ' ') input

/-- scanner.rs:138-161 -/
def tokenizeAuxDate (input : Str) : Str × Str :=
  match input with
  | '=' :: _ => splitAtFirst (fun c => c == ' ') (input.dropWhile (fun c => c == '='))
  | _ => ([], input)

/-- scanner.rs:173-178 -/
def tokenizePayee (input : Str) : Str × Str :=
  match findSub [' ', ' ', ';'] input with
  | some (before, rest) => (trim before, rest)
  | none => (trim input, [])

/-- scanner.rs:163-169 -/
def tokenizeNote (input : Str) : Res Str :=
  if input = [] then .ok [] else do let r ← dropBytes input 3; .ok (trim r)

/-- scanner.rs:92-113.  Result: date, aux date, payee, note. -/
def tokenizeXactHeader (input : Str) : Res (Str × Str × Str × Str) :=
  if input = [] then .error .emptyXactHeader
  else do
    let (date, input) := scanDate input
    let (aux, input) := tokenizeAuxDate input
    let (payee, input) := tokenizePayee input
    let note ← tokenizeNote input
    .ok (date, aux, payee, note)

/-- The characters of a number token, scanner.rs:254,334. -/
def isQtyChar (c : Char) : Bool := isDig c || c == '-' || c == '.' || c == ','

/-- scanner.rs:331-342 -/
def scanQuantity (input : Str) : Str × Str :=
  (input.takeWhile isQtyChar, trimStart (input.dropWhile isQtyChar))

/-- The characters that end a symbol, scanner.rs:353. -/
def isSymEnd (c : Char) : Bool := isWs c || c == '@' || isDig c || c == '-'

/-- scanner.rs:346-359 -/
def scanSymbol (input : Str) : Str × Str :=
  let input := trimStart input
  (input.takeWhile (fun c => !isSymEnd c), trimStart (input.dropWhile (fun c => !isSymEnd c)))

/-- scanner.rs:248-265 -/
def scanAmount (input : Str) : Res (AmountTokens × Str) :=
  let input := trimStart input
  match input with
  | [] => .error .noAmountChar
  | c :: _ =>
    if isQtyChar c then
      let (quantity, input) := scanQuantity input
      let (symbol, input) := scanSymbol input
      .ok (⟨quantity, symbol⟩, input)
    else
      let (symbol, input) := scanSymbol input
      let (quantity, input) := scanQuantity input
      .ok (⟨quantity, symbol⟩, input)

/-- scanner.rs:322-327 -/
def scanUntil (input : Str) (sep : Char) : Res (Str × Str) :=
  if sep ∈ input then .ok (splitAtFirst (fun c => c == sep) input) else .error .separatorMissing

/-- The loop of scanner.rs:275-316.  Every round consumes at least one character, so the fuel
`input.length + 1` of `scanAnnotations` is never exhausted (`scanAnnotationsGo_fuel`). -/
def scanAnnotationsGo : Nat → AnnotationTokens → Str → Res (AnnotationTokens × Str)
  | 0, _, _ => .error .outOfFuel
  | fuel + 1, result, input =>
    match input with
    | [] => .ok (result, input)
    | c :: _ =>
      if c = '{' then
        if result.quantity ≠ [] then .error .secondLotPrice
        else do
          let input ← dropBytes input 1
          let (amount, rest) ← scanUntil input '}'
          let (tokens, _) ← scanAmount amount
          let input ← dropBytes rest 1
          scanAnnotationsGo fuel { result with quantity := tokens.quantity, symbol := tokens.symbol }
            (trimStart input)
      else if c = '[' then
        if result.date ≠ [] then .error .secondLotDate
        else do
          let input ← dropBytes input 1
          let (dateInput, rest) ← scanUntil input ']'
          let (date, _) := scanDate dateInput
          let input ← dropBytes rest 1
          scanAnnotationsGo fuel { result with date := date } (trimStart input)
      else if c = '(' then .error .valuationExpr
      else .ok (result, input)

/-- scanner.rs:267-319 -/
def scanAnnotations (input : Str) : Res (AnnotationTokens × Str) :=
  let input := trimStart input
  scanAnnotationsGo (input.length + 1) ⟨[], [], []⟩ input

/-- scanner.rs:368-398 -/
def scanCost (input : Str) : Res CostTokens :=
  match input with
  | '@' :: rest => do
    let (firstChar, isPerUnit) := match rest with
      | '@' :: _ => (3, false)
      | _ => (2, true)
    let input ← dropBytes input firstChar
    let (tokens, _) ← scanAmount (trimStart input)
    .ok ⟨tokens.quantity, tokens.symbol, isPerUnit⟩
  | _ => .ok ⟨[], [], false⟩

/-- scanner.rs:193-239 -/
def scanPost (input : Str) : Res PostTokens :=
  let input := trimStart input
  match input with
  | [] => .error .noAccount
  | c :: _ =>
    if c = ';' then .error .noAccount
    else match findSub [' ', ' '] input with
      | none => .ok { PostTokens.empty with account := trimEnd input }
      | some (account, rest) => do
        let input ← dropBytes rest 2
        let (amountTokens, input) ← scanAmount input
        let (annotationTokens, input) ← scanAnnotations input
        let costTokens ← if input = [] then .ok ⟨[], [], false⟩ else scanCost input
        .ok ⟨account, amountTokens.quantity, amountTokens.symbol, annotationTokens.quantity,
          annotationTokens.symbol, annotationTokens.date, costTokens.quantity, costTokens.symbol,
          costTokens.isPerUnit⟩

/-- scanner.rs:437-450 -/
def scanPriceElement (input : Str) : Str × Str := splitAtFirst (fun c => c == ' ' || c == '\t') input

/-- scanner.rs:406-435.  Result: date, time, commodity, quantity, price commodity. -/
def scanPriceDirective (input : Str) : Res (Str × Str × Str × Str × Str) := do
  let input ← dropBytes input 1
  let (date, input) := scanPriceElement (trimStart input)
  let input := trimStart input
  match input with
  | [] => .error .priceLineTooShort
  | c :: _ =>
    let (time, input) := if isDig c then scanPriceElement input else ([], input)
    let (commodity, input) := scanPriceElement (trimStart input)
    let (quantity, input) := scanPriceElement (trimStart input)
    let (priceCommodity, _) := scanPriceElement (trimStart input)
    .ok (date, time, commodity, quantity, priceCommodity)

end Ledger.Scanner
