/-
Basic vocabulary of the model: panics, strings, string primitives of the Rust standard library.
-/
namespace Ledger

/-- Rust `String`/`&str`, as the list of its characters.  Byte offsets are only needed for the three
slicings `&s[1..]`, `&s[2..]`, `&s[3..]`; see `dropBytes`. -/
abbrev Str := List Char

/-- A Rust panic.  One constructor per panic site (or family of sites) of `/repo/src`; a panic is the
error value of `Except Panic`. -/
inductive Panic where
  /-- arithmetic overflow in rust_decimal (`+`, `-`, `*`, `/` panic) -/
  | decimalOverflow
  /-- division by zero in rust_decimal -/
  | divByZero
  /-- amount.rs:55,121,133 "don't know yet how to handle this", amount.rs:183 "The commodities do not match" -/
  | differentCommodities
  /-- amount.rs:257 `to_i32().unwrap()` -/
  | notAnI32
  /-- string slice off a character boundary or past the end -/
  | sliceBoundary
  /-- scanner.rs:94 "Invalid input for Xact record." -/
  | emptyXactHeader
  /-- scanner.rs:200 "Posting has no account" -/
  | noAccount
  /-- scanner.rs:252 `expect("A valid character")` -/
  | noAmountChar
  /-- scanner.rs:280 "Commodity specifies more than one price" -/
  | secondLotPrice
  /-- scanner.rs:298 "Commodity specifies more than one date" -/
  | secondLotDate
  /-- scanner.rs:312 `todo!("valuation expression")` -/
  | valuationExpr
  /-- scanner.rs:324 "work-out the correct return values" -/
  | separatorMissing
  /-- scanner.rs:415 `peek().unwrap()` at the end of a price line -/
  | priceLineTooShort
  /-- parser.rs:52, pool.rs:228, annotate.rs:49: date text refused by chrono -/
  | dateParse
  /-- pool.rs:231: time text refused by chrono -/
  | timeParse
  /-- pool.rs:241 `expect("quantity parsed")` -/
  | quantityParse
  /-- journal.rs:70 "Invalid account name" -/
  | invalidAccountName
  /-- account.rs:135 `find_or_create(..).unwrap()` on `None` -/
  | accountUnwrapNone
  /-- xact.rs:139 `todo!()`: second posting without amount -/
  | secondNullPost
  /-- xact.rs:148 `todo!("handle")`: a transaction with a single posting -/
  | singlePosting
  /-- xact.rs:188, report.rs:90 `post.amount.unwrap()`, xact.rs:209 "No amount found on the posting" -/
  | postWithoutAmount
  /-- xact.rs:212 "A posting's cost must be of a different commodity than its amount" -/
  | costSameCommodity
  /-- xact.rs:219 `xact.date.unwrap()` -/
  | xactWithoutDate
  /-- xact.rs:268 `todo!("check this option")`: blank posting, not exactly one commodity -/
  | nullPostCommodities
  /-- pool.rs:162 `amount.get_commodity().unwrap()` -/
  | amountWithoutCommodity
  /-- history.rs:60 `assert!(Some(source) != price.get_commodity())` -/
  | priceOfItself
  /-- history.rs:71 `price.get_commodity().unwrap()` -/
  | priceWithoutCommodity
  /-- dereference of a null pointer (history.rs:59, pool.rs:105) or of a commodity not in the pool -/
  | badPointer
  /-- history.rs:109 `assert_ne!(source_ptr, target_ptr)` -/
  | sameSourceTarget
  /-- history.rs:135,174 a path edge without price -/
  | pathWithoutPrice
  /-- history.rs:88 `expect("index should be valid")` -/
  | badNodeIndex
  /-- parser.rs:167 `todo!("complete")`: indented line outside a transaction -/
  | indentedTopLevel
  /-- parser.rs:206 "no directive?" -/
  | noDirective
  /-- parser.rs:224,235,242 `todo!` in general_directive -/
  | unsupportedDirective
  /-- parser.rs:230 `argument.unwrap()` of an include line -/
  | includeWithoutArgument
  /-- parser.rs:365 `filename.parent().unwrap()`: an include of the root directory -/
  | includeRoot
  /-- parser.rs:317 "should not happen": a transaction line not starting with a space -/
  | badXactLine
  /-- include nesting deeper than the stack allows (cyclic includes) -/
  | stackOverflow
  /-- main.rs:18 "not implemented": an empty argument vector -/
  | noArguments
  /-- lib.rs:145 `expect("file opened")` -/
  | fileOpen
  /-- option.rs:47,62 `todo!`: long options -/
  | longOption
  /-- option.rs:105 "Missing option argument" -/
  | missingOptionArgument
  /-- option.rs:319 "missing filename argument!" -/
  | missingFilename
  /-- option.rs:322 "Unrecognized argument!" -/
  | unrecognizedArgument
  /-- lib.rs:84,98 no verb or an empty verb -/
  | noVerb
  /-- lib.rs:114,117,121 `todo!`: unsupported verb -/
  | unsupportedVerb
  /-- a posting reference that does not refer to a posting of the journal -/
  | badPostRef
  /-- `u8` counter overflow in a debug build, iterator.rs:30 -/
  | counterOverflow
  /-- reader.rs:46 a line that cannot be read -/
  | readError
  /-- lib.rs:78 `shell_words::split(command).unwrap()`: a quotation is not closed -/
  | commandLine
  /-- a pointer to freed memory was followed (`Model/Heap.lean`); undefined behaviour, not a panic -/
  | danglingPointer
  /-- the model ran out of fuel; proved unreachable -/
  | outOfFuel
deriving DecidableEq, Repr

/-- Computations that may panic. -/
abbrev Res (α : Type) := Except Panic α

instance {α : Type} [DecidableEq α] : DecidableEq (Res α) := fun a b =>
  match a, b with
  | .ok x, .ok y => if h : x = y then isTrue (h ▸ rfl) else isFalse (fun e => h (by cases e; rfl))
  | .error x, .error y => if h : x = y then isTrue (h ▸ rfl) else isFalse (fun e => h (by cases e; rfl))
  | .ok _, .error _ => isFalse (fun e => by cases e)
  | .error _, .ok _ => isFalse (fun e => by cases e)

/-- Rust `char::is_whitespace` (Unicode `White_Space`). -/
def isWs (c : Char) : Bool :=
  let n := c.toNat
  (9 ≤ n && n ≤ 13) || n == 32 || n == 0x85 || n == 0xA0 || n == 0x1680 ||
  (0x2000 ≤ n && n ≤ 0x200A) || n == 0x2028 || n == 0x2029 || n == 0x202F || n == 0x205F || n == 0x3000

/-- Rust `char::is_digit(10)`: ASCII digits only. -/
def isDig (c : Char) : Bool := 48 ≤ c.toNat && c.toNat ≤ 57

/-- Rust `str::trim_start`. -/
def trimStart (s : Str) : Str := s.dropWhile isWs

/-- Rust `str::trim_end`. -/
def trimEnd (s : Str) : Str := (s.reverse.dropWhile isWs).reverse

/-- Rust `str::trim`. -/
def trim (s : Str) : Str := trimEnd (trimStart s)

/-- `(&s[..i], &s[i..])` where `i` is the position of the first character satisfying `p`,
or `(s, "")` if there is none (Rust `s.find(p)` with the usual `match`). -/
def splitAtFirst (p : Char → Bool) (s : Str) : Str × Str :=
  (s.takeWhile (fun c => !p c), s.dropWhile (fun c => !p c))

/-- Rust `s.find(pat)` for a string pattern: `some (before, rest)` with `rest` starting at the first match. -/
def findSub (pat : Str) : Str → Option (Str × Str)
  | [] => if pat.isPrefixOf [] then some ([], []) else none
  | c :: cs =>
    if pat.isPrefixOf (c :: cs) then some ([], c :: cs)
    else match findSub pat cs with
      | some (a, b) => some (c :: a, b)
      | none => none

/-- Rust `&s[n..]` with a byte offset: panics off a character boundary or past the end. -/
def dropBytes : Str → Nat → Res Str
  | s, 0 => .ok s
  | [], _ + 1 => .error .sliceBoundary
  | c :: cs, n + 1 =>
    if c.utf8Size ≤ n + 1 then dropBytes cs (n + 1 - c.utf8Size) else .error .sliceBoundary

/-- Order of Rust `String`s (bytewise on UTF-8, which is lexicographic by code point). -/
def strLe : Str → Str → Bool
  | [], _ => true
  | _ :: _, [] => false
  | a :: as, b :: bs => if a.toNat < b.toNat then true else if a = b then strLe as bs else false

/-- Sorted insertion, by key. -/
def insertByKey {β : Type} (x : Str × β) : List (Str × β) → List (Str × β)
  | [] => [x]
  | y :: ys => if strLe x.1 y.1 then x :: y :: ys else y :: insertByKey x ys

/-- Rust `sort`, `sort_unstable_by_key` by a string key.  (Insertion sort; the result of sorting is
determined up to the order of equal keys, and equal keys do not occur or are indistinguishable where this
is used.) -/
def sortByKey {β : Type} : List (Str × β) → List (Str × β)
  | [] => []
  | x :: xs => insertByKey x (sortByKey xs)

/-- Lines as `BufRead::read_line` delivers them: each with its terminating `'\n'`, except possibly the last. -/
def readLines : Str → List Str
  | [] => []
  | c :: cs =>
    if c = '\n' then ['\n'] :: readLines cs
    else match readLines cs with
      | [] => [[c]]
      | l :: ls => (c :: l) :: ls

/-- Association list lookup (Rust `HashMap::get`). -/
def assocGet {β : Type} (k : Str) : List (Str × β) → Option β
  | [] => none
  | (k', v) :: rest => if k' = k then some v else assocGet k rest

/-- Association list insertion (Rust `HashMap::insert`): replaces the value of an existing key. -/
def assocInsert {β : Type} (k : Str) (v : β) : List (Str × β) → List (Str × β)
  | [] => [(k, v)]
  | (k', v') :: rest => if k' = k then (k', v) :: rest else (k', v') :: assocInsert k v rest

/-- A string literal as `Str`. -/
abbrev str (s : String) : Str := s.toList

end Ledger
