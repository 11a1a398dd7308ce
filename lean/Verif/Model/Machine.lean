import Verif.Model.Heap
/-
The program with its pointers.

The main model identifies commodities by symbol, accounts by path and postings by position, as the code intends.  The
code keeps raw pointers into tables and vectors that move when they grow.  The definitions here repeat those of the main
model from the commodity pool to `run`, but an amount has the address of its commodity (`Model/Memory.lean`), a node of
the price graph the address of the commodity it was made for, and an account its address and that of its parent
(`Model/Heap.lean`); pointers are compared and followed wherever the code does so.  Following a pointer to memory that
was freed is undefined behaviour in Rust and `danglingPointer` here.  Null pointers are as in the main model
(`Model/Trace.lean` records where they are turned into references).

Not here: `Post::xact_ptr` and `Price::commodity` beyond its use, as nothing follows them; C68 is about the former.
-/
namespace Ledger.Machine
open Ledger Ledger.Memory Ledger.Heap

/-- amount.rs:14-18; the null pointer is `none`. -/
structure Amt where
  qty : Dec
  ptr : Option Addr
deriving DecidableEq, Repr

/-- annotate.rs:14-21 -/
structure Ann where
  price : Option Amt
  date : Option Date
deriving DecidableEq, Repr

/-- pool.rs:24-34, history.rs:36: the nodes of the price graph are pointers. -/
structure Store where
  commodities : List (Str × Commodity)
  annotated : List (Str × Ann)
  nodes : List Addr
  edges : List Edge
deriving DecidableEq, Repr

namespace Store

/-- pool.rs:38-46 -/
def empty : Store := ⟨[], [], [], []⟩

def keys (p : Store) : List Str := p.commodities.map (·.1)

/-- Address of an entry of the table of commodities. -/
def addrOf (p : Store) (symbol : Str) : Addr := ⟨tableBlock p.keys.length, p.keys.idxOf symbol⟩

/-- Following a pointer to a commodity: the table must still lie where it lay when the pointer was taken. -/
def deref (p : Store) (a : Addr) : Res Commodity :=
  if a.block = tableBlock p.keys.length then
    match p.commodities[a.slot]? with
    | some c => .ok c.2
    | none => .error .danglingPointer
  else .error .danglingPointer

/-- amount.rs:65-73 `get_commodity` -/
def look (p : Store) (c : Option Addr) : Res (Option Commodity) :=
  match c with
  | none => .ok none
  | some a => do let x ← p.deref a; .ok (some x)

/-- pool.rs:63-98 `create`: the table is asked for the address after the insertion. -/
def create (p : Store) (symbol : Str) (ann : Option Ann) : Store × Addr :=
  let annotated := match ann with
    | some a => assocInsert symbol a p.annotated
    | none => p.annotated
  let q : Store := { p with commodities := assocInsert symbol ⟨symbol, p.nodes.length, ann.isSome⟩ p.commodities,
                            annotated := annotated }
  ({ q with nodes := q.nodes ++ [q.addrOf symbol] }, q.addrOf symbol)

/-- pool.rs:111-135 `find_or_create` -/
def findOrCreate (p : Store) (symbol : Str) (ann : Option Ann) : Store × Option Addr :=
  if symbol = [] then (p, none)
  else match assocGet symbol p.commodities with
    | some _ =>
      let q := match ann with
        | some a => if (assocGet symbol p.annotated).isNone
            then { p with annotated := assocInsert symbol a p.annotated } else p
        | none => p
      (q, some (p.addrOf symbol))
    | none =>
      let (p, a) := p.create symbol ann
      (p, some a)

/-- pool.rs:137-139, history.rs:87-90: the node of the price graph is followed. -/
def getByIndex (p : Store) (i : Nat) : Res Commodity :=
  match p.nodes[i]? with
  | some a => p.deref a
  | none => .error .badNodeIndex

/-- history.rs:53-85 `add_price`: the commodities pointed to are compared. -/
def addPrice (p : Store) (source : Option Addr) (t : DateTime) (price : Amt) : Res Store :=
  match source with
  | none => .error .badPointer
  | some a => do
    let src ← p.deref a
    let dst ← p.look price.ptr
    if some src = dst then .error .priceOfItself
    else match dst with
      | none => .error .priceWithoutCommodity
      | some d => .ok { p with edges := History.insertPrice src.graphIndex d.graphIndex t price.qty p.edges }

end Store

namespace Amt

/-- amount.rs:32-36 -/
def abs (a : Amt) : Amt := { a with qty := a.qty.setSignPositive }

/-- amount.rs:52-63 `Amount::add`: the pointers are compared. -/
def add (a b : Amt) : Res Amt :=
  if a.ptr ≠ b.ptr then .error .differentCommodities
  else if b.qty.isZero then .ok a
  else do let q ← a.qty.add b.qty; .ok { a with qty := q }

/-- amount.rs:76-86 `inverse`: the pointer is turned into a reference. -/
def inverse (p : Store) (a : Amt) : Res Amt := do
  let _ ← p.look a.ptr
  .ok ⟨if a.qty.isSignPositive then a.qty.setSignNegative else a.qty, a.ptr⟩

/-- amount.rs:107-109 -/
def isZero (a : Amt) : Bool := a.qty.isZero

/-- amount.rs:111-113 -/
def removeCommodity (a : Amt) : Amt := { a with ptr := none }

/-- amount.rs:140-156 `/` -/
def div (a b : Amt) : Res Amt := do
  let q ← a.qty.div b.qty
  .ok ⟨q, if a.ptr = none then b.ptr else a.ptr⟩

/-- amount.rs:158-172 `*`: the pointer is turned into a reference. -/
def mul (p : Store) (a b : Amt) : Res Amt := do
  let q ← a.qty.mul b.qty
  let c := if a.ptr = none then b.ptr else a.ptr
  let _ ← p.look c
  .ok ⟨q, c⟩

/-- amount.rs:180-188 `-=`: the pointers are compared. -/
def subAssign (a b : Amt) : Res Amt :=
  if a.ptr ≠ b.ptr then .error .differentCommodities
  else do let q ← a.qty.sub b.qty; .ok { a with qty := q }

/-- amount.rs:190-200 `*=` -/
def mulAssign (a b : Amt) : Res Amt := do
  let q ← a.qty.mul b.qty
  .ok ⟨q, if a.ptr = none ∧ b.ptr ≠ none then b.ptr else a.ptr⟩

end Amt

/-- `get_commodity() == get_commodity()`: the commodities pointed to are compared. -/
def same (p : Store) (a b : Amt) : Res Bool := do
  let x ← p.look a.ptr
  let y ← p.look b.ptr
  .ok (decide (x = y))

/-- balance.rs:40-57 `Balance::add` -/
def addTo (p : Store) : List Amt → Amt → Res (List Amt)
  | [], a => .ok [a]
  | x :: xs, a => do
    let eq ← same p x a
    if eq then do let x' ← x.add a; .ok (x' :: xs)
    else do let xs' ← addTo p xs a; .ok (x :: xs')

/-- balance.rs:60-77 `-= Amount` -/
def subFrom (p : Store) : List Amt → Amt → Res (List Amt)
  | [], a => do let x ← a.inverse p; .ok [x]
  | x :: xs, a => do
    let eq ← same p x a
    if eq then do let x' ← x.subAssign a; .ok (x' :: xs)
    else do let xs' ← subFrom p xs a; .ok (x :: xs')

/-- balance.rs:85-91 `+= Balance` -/
def addAll (p : Store) : List Amt → List Amt → Res (List Amt)
  | b, [] => .ok b
  | b, a :: as => do let b' ← addTo p b a; addAll p b' as

/-- post.rs:12-28 -/
structure Pst where
  account : Nat
  amount : Option Amt
  cost : Option Amt
  note : Option Str
deriving DecidableEq, Repr

/-- xact.rs:118-141 -/
def sumPosts (p : Store) : List Pst → Nat → List Amt → Option Nat → Res (List Amt × Option Nat)
  | [], _, b, np => .ok (b, np)
  | x :: xs, i, b, np =>
    match (match x.cost with | some c => some c | none => x.amount) with
    | some a => do let b' ← addTo p b a; sumPosts p xs (i + 1) b' np
    | none => match np with
      | some _ => .error .secondNullPost
      | none => sumPosts p xs (i + 1) b (some i)

/-- xact.rs:159-163 -/
def topPost (ps : List Pst) : Option Pst := ps.find? (fun p => p.amount.isSome)

/-- xact.rs:186-196; `comm` is the commodity `x.get_commodity()` referred to. -/
def assignCosts (p : Store) (comm : Option Commodity) (perUnit : Amt) : List Pst → List Amt → Res (List Pst × List Amt)
  | [], b => .ok ([], b)
  | x :: xs, b =>
    match x.amount with
    | none => .error .postWithoutAmount
    | some amt => do
      let c ← p.look amt.ptr
      if c = comm then do
        let b ← subFrom p b amt
        let cost ← perUnit.mul p amt
        let b ← addTo p b cost
        let (xs', b) ← assignCosts p comm perUnit xs b
        .ok ({ x with cost := some cost } :: xs', b)
      else do
        let (xs', b) ← assignCosts p comm perUnit xs b
        .ok (x :: xs', b)

/-- xact.rs:151-199 -/
def impliedCosts (p : Store) (ps : List Pst) (b : List Amt) (np : Option Nat) : Res (List Pst × List Amt) :=
  match np, b with
  | none, [x, y] =>
    match topPost ps with
    | none => .ok (ps, b)
    | some top =>
      if !x.isZero ∧ !y.isZero then do
        let cx ← p.look x.ptr
        let ct ← p.look (match top.amount with | some a => a.ptr | none => none)
        let (x, y) := if cx ≠ ct then (y, x) else (x, y)
        let comm ← p.look x.ptr
        let perUnit ← y.div x
        assignCosts p comm perUnit.abs ps b
      else .ok (ps, b)
  | _, _ => .ok (ps, b)

/-- pool.rs:169-173 -/
def perUnitCost (amount cost : Amt) (isPerUnit : Bool) : Res Amt :=
  if isPerUnit || amount.isZero then .ok cost.abs
  else do let q ← cost.div amount; .ok q.abs

/-- pool.rs:185-198: the price to record. -/
def newPrice (p : Store) (amount perUnit : Amt) (sym : Addr) (moment : DateTime) : Res (Option (Addr × DateTime × Amt)) :=
  if perUnit.isZero then .ok none
  else do
    let eq ← same p amount perUnit
    .ok (if eq then none else some (sym, moment, perUnit))

/-- pool.rs:207-213: the basis cost. -/
def basisCost (p : Store) (annotation : Option Ann) (amount final : Amt) : Res Amt :=
  match annotation with
  | some ann => match ann.price with
    | some annPrice => annPrice.mul p amount
    | none => .ok ⟨Dec.ofI32 0, none⟩
  | none => .ok final

/-- pool.rs:152-218 `exchange` of a total cost: the amount of the breakdown and the price to record. -/
def exchange (p : Store) (amount cost : Amt) (moment : DateTime) : Res (Amt × Option (Addr × DateTime × Amt)) :=
  match amount.ptr with
  | none => .error .amountWithoutCommodity
  | some sym => do
    let c ← p.deref sym
    let node ← p.getByIndex c.graphIndex
    let perUnit ← perUnitCost amount cost false
    let cc ← p.look cost.ptr
    let perUnit := if cc = none then perUnit.removeCommodity else perUnit
    let price ← newPrice p amount perUnit sym moment
    let _ ← basisCost p (assocGet node.symbol p.annotated) amount cost
    .ok (amount, price)

/-- xact.rs:201-242 -/
def recordPrices (date : Option Date) : List Pst → Store → Res (List Pst × Store)
  | [], p => .ok ([], p)
  | x :: xs, p =>
    match x.cost with
    | none => do
      let (xs', p) ← recordPrices date xs p
      .ok (x :: xs', p)
    | some cost =>
      match x.amount with
      | none => .error .postWithoutAmount
      | some amt => do
        let eq ← same p amt cost
        if eq then .error .costSameCommodity
        else match date with
          | none => .error .xactWithoutDate
          | some d => do
            let (amount, price) ← exchange p amt cost ⟨d, Time.midnight⟩
            let p ← match price with
              | some (c, t, q) => p.addPrice (some c) t q
              | none => .ok p
            let (xs', p) ← recordPrices date xs p
            .ok ({ x with amount := some amount } :: xs', p)

/-- xact.rs:244-274 -/
def fillNull (p : Store) (ps : List Pst) (b : List Amt) (np : Option Nat) : Res (List Pst) :=
  match np with
  | none => .ok ps
  | some i => match b with
    | [a] => do
      let a' ← a.inverse p
      .ok (ps.modify i (fun x => { x with amount := some a' }))
    | _ => .error .nullPostCommodities

/-- xact.rs:105-278 `finalize` on the postings of a transaction. -/
def finalize (date : Option Date) (posts : List Pst) (p : Store) : Res (List Pst × Store) := do
  let (b, np) ← sumPosts p posts 0 [] none
  if posts.length = 1 then .error .singlePosting
  else do
    let (ps, b) ← impliedCosts p posts b np
    let (ps, p) ← recordPrices date ps p
    let ps ← fillNull p ps b np
    .ok (ps, p)

/-- parser.rs:71-84 `parse_amount_parts` -/
def parseAmountParts (quantity symbol : Str) (p : Store) : Store × Option Amt :=
  let (p, c) := p.findOrCreate symbol none
  (p, (Dec.fromStr quantity).map (fun q => ⟨q, c⟩))

/-- annotate.rs:33-56 `Annotation::parse` -/
def parseAnnotation (date quantity symbol : Str) (p : Store) : Res (Store × Ann) := do
  let (p, c) := p.findOrCreate symbol none
  let price : Option Amt := (Dec.fromStr quantity).map (fun q => ⟨q, c⟩)
  let d ← if date = [] then .ok none else match Chrono.parseDate date with
    | some d => .ok (some d)
    | none => .error .dateParse
  .ok (p, ⟨price, d⟩)

/-- parser.rs:477-502 `parse_cost` -/
def parseCost (tokens : Scanner.PostTokens) (amount : Option Amt) (p : Store) : Res (Store × Option Amt) :=
  match amount with
  | none => .ok (p, none)
  | some amt =>
    if tokens.costQuantity = [] then .ok (p, none)
    else match parseAmountParts tokens.costQuantity tokens.costSymbol p with
      | (p, none) => .ok (p, none)
      | (p, some cost) =>
        if tokens.isPerUnit then do let c ← cost.mulAssign amt; .ok (p, some c)
        else .ok (p, some cost)

/-- parser.rs:424-452 -/
def parsePostAmounts (tokens : Scanner.PostTokens) (p : Store) : Res (Store × Option Amt × Option Amt) := do
  let (p, amount) := parseAmountParts tokens.quantity tokens.symbol p
  let (p, annotation) ← parseAnnotation tokens.priceDate tokens.priceQuantity tokens.priceCommodity p
  let (p, _) := p.findOrCreate tokens.symbol (some annotation)
  let (p, cost) ← parseCost tokens amount p
  .ok (p, amount, cost)

/-- pool.rs:224-252 `parse_price_directive`: both pointers are taken before the first is followed. -/
def parsePriceDirective (p : Store) (line : Str) : Res Store := do
  let (date, time, commodity, quantity, priceCommodity) ← Scanner.scanPriceDirective line
  match Chrono.parseDate date with
  | none => .error .dateParse
  | some d =>
    let t? := if time = [] then some Time.midnight else Chrono.parseTime time
    match t? with
    | none => .error .timeParse
    | some t =>
      let (p, source) := p.findOrCreate commodity none
      match Dec.fromStr quantity with
      | none => .error .quantityParse
      | some q =>
        let (p, target) := p.findOrCreate priceCommodity none
        p.addPrice source ⟨d, t⟩ ⟨q, target⟩

/-- xact.rs:13-21 -/
structure Xct where
  date : Option Date
  auxDate : Option Date
  payee : Str
  posts : List Pst
  note : Option Str
deriving DecidableEq, Repr

/-- journal.rs:20-25 -/
structure Jrn where
  tree : State
  store : Store
  xacts : List Xct

/-- journal.rs:28-36 -/
def Jrn.new : Jrn := ⟨State.new, Store.empty, []⟩

/-- parser.rs:415-475 `parse_post`.  The pointer to the posting that the account gets is that of `Memory.storedPost`. -/
def parsePost (input : Str) (i : Nat) (j : Jrn) : Res Jrn := do
  let tokens ← Scanner.scanPost input
  if tokens.account = [] then .error .invalidAccountName
  else do
    let (tree, acct) ← j.tree.register tokens.account
    match acct with
    | none => .error .accountUnwrapNone
    | some a => do
      let (p, amount, cost) ← parsePostAmounts tokens j.store
      let n := match j.xacts[i]? with | some x => x.posts.length | none => 0
      let _ ← tree.deref a
      .ok ⟨tree.push a (i, n), p, j.xacts.modify i (fun x => { x with posts := x.posts ++ [⟨a, amount, cost, none⟩] })⟩

/-- parser.rs:402-409, post.rs:50-52 -/
def noteLast (n : Str) : List Pst → List Pst
  | [] => []
  | [p] => [{ p with note := some n }]
  | p :: q :: r => p :: noteLast n (q :: r)

/-- parser.rs:396-409 -/
def Xct.addNote (x : Xct) (n : Str) : Xct :=
  if x.posts = [] then { x with note := some n } else { x with posts := noteLast n x.posts }

/-- parser.rs:383-410 `parse_trailing_note` -/
def parseTrailingNote (line : Str) (i : Nat) (j : Jrn) : Res Jrn := do
  let r ← dropBytes (trimStart line) 1
  let note := trim r
  if note = [] then .ok j else .ok { j with xacts := j.xacts.modify i (fun x => x.addNote note) }

/-- parser.rs:258-266 `create_xact` -/
def createXact (line : Str) (j : Jrn) : Res (Jrn × Nat) := do
  let (date, aux, payee, note) ← Scanner.tokenizeXactHeader line
  let x ← Xact.create date aux payee note
  .ok ({ j with xacts := j.xacts ++ [⟨x.date, x.auxDate, x.payee, [], x.note⟩] }, j.xacts.length)

/-- parser.rs:273-325 -/
def readBody (i : Nat) : Parser.Source → Jrn → Res (Jrn × Parser.Source)
  | [], j => .ok (j, [])
  | none :: rest, j => .ok (j, rest)
  | some line :: rest, j =>
    match Parser.classify line with
    | .fin => .ok (j, rest)
    | .note => do let j' ← parseTrailingNote line i j; readBody i rest j'
    | .post input => do let j' ← parsePost input i j; readBody i rest j'
    | .bad => .error .badXactLine

/-- parser.rs:328 -/
def finalizeXact (i : Nat) (j : Jrn) : Res Jrn :=
  match j.xacts[i]? with
  | none => .error .badPointer
  | some x => do
    let (ps, p) ← finalize x.date x.posts j.store
    .ok { j with store := p, xacts := j.xacts.set i { x with posts := ps } }

/-- parser.rs:268-331 `xact_directive` -/
def xactDirective (line : Str) (rest : Parser.Source) (j : Jrn) : Res (Jrn × Parser.Source) := do
  let (j, i) ← createXact line j
  let (j, rest) ← readBody i rest j
  let j ← finalizeXact i j
  .ok (j, rest)

/-- parser.rs:108-137 `parse` -/
def parseGo (inc : Str → Jrn → Res Jrn) : Nat → Parser.Source → Jrn → Res Jrn
  | 0, _, _ => .error .outOfFuel
  | _ + 1, [], j => .ok j
  | _ + 1, none :: _, j => .ok j
  | fuel + 1, some line :: rest, j =>
    match Parser.topLine line with
    | .ignored => parseGo inc fuel rest j
    | .skipped => parseGo inc fuel rest j
    | .xact => do
      let (j', rest') ← xactDirective line rest j
      parseGo inc fuel rest' j'
    | .indented => .error .indentedTopLevel
    | .includeFile file => do
      let j' ← inc file j
      parseGo inc fuel rest j'
    | .price => do
      let p ← parsePriceDirective j.store line
      parseGo inc fuel rest { j with store := p }
    | .fails p => .error p

/-- parser.rs:335-377 `include_directive` and the recursion through `parse_file` -/
def parse (files : Parser.Files) : Nat → Parser.Source → Jrn → Res Jrn
  | 0, src, j =>
    parseGo (fun file j => match files file with
      | none => .ok j
      | some _ => .error .stackOverflow) (src.length + 1) src j
  | depth + 1, src, j =>
    parseGo (fun file j => match files file with
      | none => .ok j
      | some src' => parse files depth src' j) (src.length + 1) src j

/-- lib.rs:144-147 `parse_file` -/
def parseFile (files : Parser.Files) (depth : Nat) (path : Str) (j : Jrn) : Res Jrn :=
  match files path with
  | none => .error .fileOpen
  | some src => parse files depth src j

/-- lib.rs:135-138 -/
def readFiles (files : Parser.Files) (depth : Nat) : List Str → Jrn → Res Jrn
  | [], j => .ok j
  | f :: fs, j => do let j' ← parseFile files depth f j; readFiles files depth fs j'

/-- Following the pointer to a posting that its account has: the vector of postings must still lie where it lay when the
posting had been pushed.  `stays` is as in `Memory.block`. -/
def derefPost (stays : Nat → Bool) (j : Jrn) (r : PostRef) : Res Pst :=
  match j.xacts[r.1]? with
  | none => .error .danglingPointer
  | some x =>
    if storedPost stays r = ⟨block vecNext stays x.posts.length, r.2⟩ then
      match x.posts[r.2]? with
      | some p => .ok p
      | none => .error .danglingPointer
    else .error .danglingPointer

/-- account.rs:157-171 `Account::amount` -/
def amountGo (stays : Nat → Bool) (j : Jrn) : List PostRef → List Amt → Res (List Amt)
  | [], b => .ok b
  | r :: rs, b => do
    let p ← derefPost stays j r
    match p.amount with
    | none => amountGo stays j rs b
    | some a => do let b' ← addTo j.store b a; amountGo stays j rs b'

/-- account.rs:196-210 -/
def totalGo (p : Store) : List (Str × Res (List Amt)) → List Amt → Res (List Amt)
  | [], b => .ok b
  | (_, r) :: rs, b => do
    let sub ← r
    let b' ← addAll p b sub
    totalGo p rs b'

/-- account.rs:196-216 `Account::total` -/
def accountTotal (stays : Nat → Bool) (j : Jrn) (a : Account) : Res (List Amt) :=
  Account.fold (fun _ ps rs => do
    let b ← totalGo j.store (sortByKey rs) []
    let own ← amountGo stays j ps []
    addAll j.store b own) a

/-- report.rs:47-56: the symbols are found through the pointers. -/
def showBalance (p : Store) : List Amt → Res Str
  | [] => .ok []
  | a :: as => do
    let c ← p.look a.ptr
    let rest ← showBalance p as
    .ok (a.qty.display ++ (match c with | some c => ' ' :: c.symbol | none => []) ++ rest)

/-- report.rs:42-70 `get_children_lines`, for the accounts at the given paths (as `Heap.reportGo`). -/
def reportGo (stays : Nat → Bool) (j : Jrn) : List Path → State → Res (State × List Str)
  | [], s => .ok (s, [])
  | q :: qs, s => match s.master.at? q with
    | none => .error .danglingPointer
    | some x => do
      let total ← accountTotal stays j x.erase
      let text ← showBalance j.store total
      let (s, name) ← s.fullname x.addr
      let (s, lines) ← reportGo stays j qs s
      .ok (s, (str "Account " ++ name ++ str " has balance " ++ text) :: lines)

/-- report.rs:30-40 `balance_report` -/
def balanceReport (stays : Nat → Bool) (j : Jrn) : Res (List Str) := do
  let (_, lines) ← reportGo stays j (j.tree.master.erase.flatten.map (·.1)) j.tree
  .ok lines

/-- lib.rs:83-123 `execute_command` -/
def executeCommand (stays : Nat → Bool) (files : Parser.Files) (depth : Nat) (commands : List Str) (filenames : List Str) :
    Res (List Str) :=
  match commands with
  | [] => .error .noVerb
  | verb :: _ => do
    let j ← readFiles files depth filenames Jrn.new
    match verb with
    | [] => .error .noVerb
    | c :: _ =>
      if c = 'a' then .ok ((sortByKey ((j.tree.master.erase.flatten.map (·.2)).map (fun s => (s, ())))).map (·.1))
      else if c = 'b' then
        if verb = str "b" ∨ verb = str "bal" ∨ verb = str "balance" then balanceReport stays j
        else .error .unsupportedVerb
      else .error .unsupportedVerb

/-- lib.rs:67-72 `run` -/
def run (stays : Nat → Bool) (files : Parser.Files) (depth : Nat) (args : List Str) : Res (List Str) := do
  let (commands, filenames) ← Options.processArguments args
  executeCommand stays files depth commands filenames

end Ledger.Machine
