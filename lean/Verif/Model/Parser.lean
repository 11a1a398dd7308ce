import Verif.Model.Finalize
/-
The parser (src/parser.rs) and `Journal::read`, `parse_text`, `parse_file` (src/journal.rs:99-104, src/lib.rs:144-156).
-/
namespace Ledger.Parser
open Ledger

/-- The lines a reader delivers, `none` for a line that `read_line` refuses (invalid UTF-8, I/O error). -/
abbrev Source := List (Option Str)

/-- The files that can be opened, by path.  Relative paths are resolved against the current directory both by
`File::open` (lib.rs:145) and by parser.rs:339-359, so a single name space suffices.  A file that exists can be opened, and the current directory is
not the root directory. -/
abbrev Files := Str → Option Source

/-- A string as a source. -/
def textSource (text : Str) : Source := (readLines text).map some

/-- parser.rs:71-84 `parse_amount_parts` -/
def parseAmountParts (quantity symbol : Str) (pool : Pool) : Pool × Option Amount :=
  let (pool, c) := pool.findOrCreate symbol none
  (pool, (Dec.fromStr quantity).map (fun q => ⟨q, c⟩))

/-- parser.rs:63-66 `parse_amount` -/
def parseAmount (s : Str) (pool : Pool) : Res (Pool × Option Amount) := do
  let (tokens, _) ← Scanner.scanAmount s
  .ok (parseAmountParts tokens.quantity tokens.symbol pool)

/-- annotate.rs:33-56 `Annotation::parse` -/
def parseAnnotation (date quantity symbol : Str) (pool : Pool) : Res (Pool × Annotation) := do
  let (pool, c) := pool.findOrCreate symbol none
  let price : Option Amount := (Dec.fromStr quantity).map (fun q => ⟨q, c⟩)
  let d ← if date = [] then .ok none else match Chrono.parseDate date with
    | some d => .ok (some d)
    | none => .error .dateParse
  .ok (pool, ⟨price, d⟩)

/-- parser.rs:477-502 `parse_cost` -/
def parseCost (tokens : Scanner.PostTokens) (amount : Option Amount) (pool : Pool) :
    Res (Pool × Option Amount) :=
  match amount with
  | none => .ok (pool, none)
  | some amt =>
    if tokens.costQuantity = [] then .ok (pool, none)
    else match parseAmountParts tokens.costQuantity tokens.costSymbol pool with
      | (pool, none) => .ok (pool, none)
      | (pool, some cost) =>
        if tokens.isPerUnit then do let c ← cost.mulAssign amt; .ok (pool, some c)
        else .ok (pool, some cost)

/-- The part of `parse_post` after the tokens are known and the account is registered, parser.rs:424-452: reads
amount, annotation and cost into the pool. -/
def parsePostAmounts (tokens : Scanner.PostTokens) (pool : Pool) : Res (Pool × Option Amount × Option Amount) := do
  let (pool, amount) := parseAmountParts tokens.quantity tokens.symbol pool
  let (pool, annotation) ← parseAnnotation tokens.priceDate tokens.priceQuantity tokens.priceCommodity pool
  let (pool, _) := pool.findOrCreate tokens.symbol (some annotation)
  let (pool, cost) ← parseCost tokens amount pool
  .ok (pool, amount, cost)

/-- parser.rs:415-475 `parse_post`; `i` is the transaction. -/
def parsePost (input : Str) (i : Nat) (j : Journal) : Res Journal := do
  let tokens ← Scanner.scanPost input
  let (j, acct) ← j.registerAccount tokens.account
  match acct with
  | none => .error .accountUnwrapNone
  | some path => do
    let (pool, amount, cost) ← parsePostAmounts tokens j.pool
    let n := match j.xacts[i]? with | some x => x.posts.length | none => 0
    let j := { j with pool := pool }.updateXact i
      (fun x => { x with posts := x.posts ++ [Post.mk path amount cost none] })
    .ok { j with master := j.master.pushPost path (i, n) }

/-- parser.rs:383-410 `parse_trailing_note` -/
def parseTrailingNote (line : Str) (i : Nat) (j : Journal) : Res Journal := do
  let r ← dropBytes (trimStart line) 1
  let note := trim r
  if note = [] then .ok j else .ok (j.updateXact i (fun x => x.addNote note))

/-- parser.rs:258-266 `create_xact` -/
def createXact (line : Str) (j : Journal) : Res (Journal × Nat) := do
  let (date, aux, payee, note) ← Scanner.tokenizeXactHeader line
  let x ← Xact.create date aux payee note
  .ok (j.addXact x)

/-- What a line inside a transaction is, parser.rs:287-319. -/
inductive BodyLine where
  /-- blank: ends the transaction -/
  | fin
  /-- comment line -/
  | note
  /-- posting, without the leading white space -/
  | post (input : Str)
  /-- a line that does not start with a space -/
  | bad
deriving DecidableEq, Repr

/-- parser.rs:287-319 -/
def classify (line : Str) : BodyLine :=
  match line with
  | ' ' :: _ =>
    match trimStart line with
    | [] => .fin
    | c :: cs => if c = ';' then .note else .post (c :: cs)
  | '\r' :: _ => .fin
  | '\n' :: _ => .fin
  | _ => .bad

/-- parser.rs:273-325: the lines of a transaction.  Returns the lines left. -/
def readBody (i : Nat) : Source → Journal → Res (Journal × Source)
  | [], j => .ok (j, [])
  | none :: rest, j => .ok (j, rest)
  | some line :: rest, j =>
    match classify line with
    | .fin => .ok (j, rest)
    | .note => do let j' ← parseTrailingNote line i j; readBody i rest j'
    | .post input => do let j' ← parsePost input i j; readBody i rest j'
    | .bad => .error .badXactLine

/-- parser.rs:328 `finalize(xact_ptr, journal)` -/
def finalizeXact (i : Nat) (j : Journal) : Res Journal :=
  match j.xacts[i]? with
  | none => .error .badPointer
  | some x => do
    let (x', pool) ← Finalize.finalize x j.pool
    .ok { j with pool := pool, xacts := j.xacts.set i x' }

/-- parser.rs:268-331 `xact_directive` -/
def xactDirective (line : Str) (rest : Source) (j : Journal) : Res (Journal × Source) := do
  let (j, i) ← createXact line j
  let (j, rest) ← readBody i rest j
  let j ← finalizeXact i j
  .ok (j, rest)

/-- Rust `split_whitespace().next()`: the first word and the text after it. -/
def nextWord (s : Str) : Str × Str := splitAtFirst isWs (trimStart s)

/-- What a line outside a transaction is, parser.rs:139-196 and general_directive 200-249. -/
inductive TopLine where
  | ignored
  | xact
  | indented
  | includeFile (file : Str)
  /-- an include that looks up no file -/
  | skipped
  | price
  | fails (p : Panic)
deriving DecidableEq, Repr

/-- The rest of a path after a slash names nothing: only slashes and dots standing alone (std `Path::components`). -/
def rootRest : Str → Bool
  | [] => true
  | ['.'] => true
  | '.' :: '/' :: cs => rootRest cs
  | '/' :: cs => rootRest cs
  | _ => false

/-- parser.rs:335-369: what an include does with its argument, apart from whether there is such a file.  The root
directory has no parent (`unwrap` fails); a name starting with `~` or `\` is not joined with the current directory, so
without a slash its parent is the empty path, which does not exist, and nothing is read. -/
def includePath (file : Str) : TopLine :=
  match file with
  | '/' :: cs => if rootRest cs then .fails .includeRoot else .includeFile file
  | '~' :: cs => if '/' ∈ cs then .includeFile file else .skipped
  | '\\' :: cs => if '/' ∈ cs then .includeFile file else .skipped
  | _ => .includeFile file

/-- parser.rs:200-249 `general_directive`, as a classification: `include FILE`, or a price line (the words
starting with `i` other than `include` and `import` fall through to parser.rs:180-186), or a panic. -/
def generalDirective (line : Str) : TopLine :=
  let (directive, rest) := nextWord line
  match directive with
  | [] => .fails .noDirective
  | c :: _ =>
    if c = 'i' then
      if directive = str "include" then
        match (nextWord rest).1 with
        | [] => .fails .includeWithoutArgument
        | file => includePath file
      else if directive = str "import" then .fails .unsupportedDirective
      else .price
    else .fails .unsupportedDirective

/-- parser.rs:139-196 `read_next_directive`: what the line is.  (The buffer of a successful `read_line` is never
empty.) -/
def topLine (line : Str) : TopLine :=
  if line = ['\r', '\n'] ∨ line = ['\n'] then .ignored
  else match line with
    | [] => .fails .noDirective
    | c :: _ =>
      if c = ';' ∨ c = '#' ∨ c = '*' ∨ c = '|' then .ignored
      else if c = '-' then .ignored
      else if isDig c then .xact
      else if c = ' ' ∨ c = '\t' then .indented
      else generalDirective line

/-- parser.rs:108-137 `parse`.  `inc` reads an included file.  Each round consumes a line, so the fuel
`source.length + 1` suffices (`parseGo_fuel`). -/
def parseGo (inc : Str → Journal → Res Journal) : Nat → Source → Journal → Res Journal
  | 0, _, _ => .error .outOfFuel
  | _ + 1, [], j => .ok j
  | _ + 1, none :: _, j => .ok j
  | fuel + 1, some line :: rest, j =>
    match topLine line with
    | .ignored => parseGo inc fuel rest j
    | .skipped => parseGo inc fuel rest j
    | .xact => do
      let (j', rest') ← xactDirective line rest j
      parseGo inc fuel rest' j'
    | .indented => .error .indentedTopLevel
    | .includeFile file => do
      let j' ← inc file j
      parseGo inc fuel rest j'
    | .price => do
      let pool ← j.pool.parsePriceDirective line
      parseGo inc fuel rest { j with pool := pool }
    | .fails p => .error p

/-- parser.rs:108-137 with a given way of reading included files. -/
def parseWith (inc : Str → Journal → Res Journal) (src : Source) (j : Journal) : Res Journal :=
  parseGo inc (src.length + 1) src j

/-- parser.rs:335-377 `include_directive` and the recursion through `parse_file`.  `depth` bounds the nesting of
includes (the Rust program overflows its stack on a cyclic include); a file that does not exist is skipped. -/
def parse (files : Files) : Nat → Source → Journal → Res Journal
  | 0, src, j =>
    parseWith (fun file j => match files file with
      | none => .ok j
      | some _ => .error .stackOverflow) src j
  | depth + 1, src, j =>
    parseWith (fun file j => match files file with
      | none => .ok j
      | some src' => parse files depth src' j) src j

/-- lib.rs:153-156 `parse_text` -/
def parseText (files : Files) (depth : Nat) (text : Str) (j : Journal) : Res Journal :=
  parse files depth (textSource text) j

/-- lib.rs:144-147 `parse_file` -/
def parseFile (files : Files) (depth : Nat) (path : Str) (j : Journal) : Res Journal :=
  match files path with
  | none => .error .fileOpen
  | some src => parse files depth src j

/-- journal.rs:99-104 `Journal::read`: the journal and the number returned. -/
def read (files : Files) (depth : Nat) (src : Source) (j : Journal) : Res (Journal × Nat) := do
  let j' ← parse files depth src j
  .ok (j', j'.xacts.length)

end Ledger.Parser
