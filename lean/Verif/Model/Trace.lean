import Verif.Model.Report
/-
Runs with what they do beside their result: null pointers turned into references (undefined behaviour in Rust) and the
lines "Error: ..." written when a line cannot be read.  The definitions repeat those of the model from `finalize` to
`run` with these events recorded; the results are the same (`Lemmas/Trace.lean`).
-/
namespace Ledger.Trace
open Ledger Ledger.Parser

/-- What is recorded. -/
inductive Event where
  /-- `&*commodity` of a null pointer, amount.rs:85,126,170 -/
  | nullReference
  /-- parser.rs:112,277 `println!("Error: {:?}", err)` -/
  | readError
deriving DecidableEq, Repr

/-- A computation with the events up to its end or panic. -/
structure Traced (α : Type) where
  events : List Event
  res : Res α

instance : Monad Traced where
  pure a := ⟨[], .ok a⟩
  bind m f := match m.res with
    | .ok a => ⟨m.events ++ (f a).events, (f a).res⟩
    | .error e => ⟨m.events, .error e⟩

/-- A computation without events. -/
def lift {α : Type} (r : Res α) : Traced α := ⟨[], r⟩

/-- One event. -/
def emit (e : Event) : Traced Unit := ⟨[e], .ok ()⟩

/-- `unsafe { &*commodity }`. -/
def reference (c : Option Str) : Traced Unit := if c = none then emit .nullReference else pure ()

/-- amount.rs:76-86 `Amount::inverse` -/
def inverse (a : Amount) : Traced Amount := do reference a.comm; pure a.inverse

/-- amount.rs:116-128 `+` -/
def addOp (a b : Amount) : Traced Amount := do
  let r ← lift (a.addOp b)
  reference r.comm
  pure r

/-- amount.rs:158-172 `*` -/
def mul (a b : Amount) : Traced Amount := do
  let r ← lift (a.mul b)
  reference r.comm
  pure r

/-- balance.rs:60-77 -/
def subGo : List Amount → Amount → Traced (List Amount)
  | [], a => do let x ← inverse a; pure [x]
  | x :: xs, a =>
    if x.comm = a.comm then do let x' ← lift (x.subAssign a); pure (x' :: xs)
    else do let xs' ← subGo xs a; pure (x :: xs')

/-- balance.rs:60-77 `-= Amount` -/
def subAssign (b : Balance) (a : Amount) : Traced Balance := do let l ← subGo b.amounts a; pure ⟨l⟩

/-- xact.rs:186-196 -/
def assignCosts (comm : Option Str) (perUnit : Amount) : List Post → Balance → Traced (List Post × Balance)
  | [], b => pure ([], b)
  | p :: ps, b =>
    match p.amount with
    | none => lift (.error .postWithoutAmount)
    | some amt =>
      if amt.comm = comm then do
        let b ← subAssign b amt
        let cost ← mul perUnit amt
        let b ← lift (b.add cost)
        let r ← assignCosts comm perUnit ps b
        pure ({ p with cost := some cost } :: r.1, r.2)
      else do
        let r ← assignCosts comm perUnit ps b
        pure (p :: r.1, r.2)

/-- xact.rs:151-199 -/
def impliedCosts (ps : List Post) (b : Balance) (np : Option Nat) : Traced (List Post × Balance) :=
  match np, b.amounts with
  | none, [x, y] =>
    match Finalize.topPost ps with
    | none => pure (ps, b)
    | some top =>
      if !x.isZero ∧ !y.isZero then do
        let topComm := match top.amount with | some a => a.comm | none => none
        let xy := if x.comm ≠ topComm then (y, x) else (x, y)
        let perUnit ← lift (xy.2.div xy.1)
        assignCosts xy.1.comm perUnit.abs ps b
      else pure (ps, b)
  | _, _ => pure (ps, b)

/-- pool.rs:200-204 -/
def finalCost (amount cost : Amount) (isPerUnit : Bool) : Traced Amount :=
  if !isPerUnit then pure cost else mul cost amount.abs

/-- pool.rs:207-213 -/
def basisCost (annotation : Option Annotation) (amount final : Amount) : Traced Amount :=
  match annotation with
  | some ann => match ann.price with
    | some annPrice => mul annPrice amount
    | none => pure (Amount.ofI32 0)
  | none => pure final

/-- pool.rs:152-218 -/
def exchange (p : Pool) (amount cost : Amount) (isPerUnit : Bool) (moment : DateTime) :
    Traced (CostBreakdown × Option Price) :=
  match amount.comm with
  | none => lift (.error .amountWithoutCommodity)
  | some sym => do
    let c ← lift (p.deref (some sym))
    let sym' ← lift (p.getByIndex c.graphIndex)
    let perUnit ← lift (Pool.perUnitCost amount cost isPerUnit)
    let perUnit := if cost.comm = none then perUnit.removeCommodity else perUnit
    let newPrice := if !perUnit.isZero ∧ amount.comm ≠ perUnit.comm
      then some ⟨sym, moment, perUnit⟩ else none
    let final ← finalCost amount cost isPerUnit
    let basis ← basisCost (assocGet sym' p.annotated) amount final
    pure (⟨amount, final, basis⟩, newPrice)

/-- xact.rs:201-242 -/
def recordPrices (date : Option Date) : List Post → Pool → Traced (List Post × Pool)
  | [], pool => pure ([], pool)
  | p :: ps, pool =>
    match p.cost with
    | none => do
      let r ← recordPrices date ps pool
      pure (p :: r.1, r.2)
    | some cost =>
      match p.amount with
      | none => lift (.error .postWithoutAmount)
      | some amt =>
        if amt.comm = cost.comm then lift (.error .costSameCommodity)
        else match date with
          | none => lift (.error .xactWithoutDate)
          | some d => do
            let e ← exchange pool amt cost false ⟨d, Time.midnight⟩
            let pool ← lift (match e.2 with
              | some np => pool.addPriceStruct np
              | none => .ok pool)
            let r ← recordPrices date ps pool
            pure ({ p with amount := some e.1.amount } :: r.1, r.2)

/-- xact.rs:244-274 -/
def fillNull (ps : List Post) (b : Balance) (np : Option Nat) : Traced (List Post) :=
  match np with
  | none => pure ps
  | some i => match b.amounts with
    | [a] => do
      let x ← inverse a
      pure (ps.modify i (fun p => { p with amount := some x }))
    | _ => lift (.error .nullPostCommodities)

/-- xact.rs:105-278 `finalize` -/
def finalize (x : Xact) (pool : Pool) : Traced (Xact × Pool) := do
  let s ← lift (Finalize.sumPosts x.posts 0 Balance.empty none)
  if x.posts.length = 1 then lift (.error .singlePosting)
  else do
    let c ← impliedCosts x.posts s.1 s.2
    let r ← recordPrices x.date c.1 pool
    let ps ← fillNull r.1 c.2 s.2
    pure ({ x with posts := ps }, r.2)

/-- parser.rs:273-325 -/
def readBody (i : Nat) : Source → Journal → Traced (Journal × Source)
  | [], j => pure (j, [])
  | none :: rest, j => do emit .readError; pure (j, rest)
  | some line :: rest, j =>
    match classify line with
    | .fin => pure (j, rest)
    | .note => do let j' ← lift (parseTrailingNote line i j); readBody i rest j'
    | .post input => do let j' ← lift (parsePost input i j); readBody i rest j'
    | .bad => lift (.error .badXactLine)

/-- parser.rs:328 -/
def finalizeXact (i : Nat) (j : Journal) : Traced Journal :=
  match j.xacts[i]? with
  | none => lift (.error .badPointer)
  | some x => do
    let r ← finalize x j.pool
    pure { j with pool := r.2, xacts := j.xacts.set i r.1 }

/-- parser.rs:268-331 `xact_directive` -/
def xactDirective (line : Str) (rest : Source) (j : Journal) : Traced (Journal × Source) := do
  let c ← lift (createXact line j)
  let r ← readBody c.2 rest c.1
  let j ← finalizeXact c.2 r.1
  pure (j, r.2)

/-- parser.rs:108-137 `parse` -/
def parseGo (inc : Str → Journal → Traced Journal) : Nat → Source → Journal → Traced Journal
  | 0, _, _ => lift (.error .outOfFuel)
  | _ + 1, [], j => pure j
  | _ + 1, none :: _, j => do emit .readError; pure j
  | fuel + 1, some line :: rest, j =>
    match topLine line with
    | .ignored => parseGo inc fuel rest j
    | .skipped => parseGo inc fuel rest j
    | .xact => do
      let r ← xactDirective line rest j
      parseGo inc fuel r.2 r.1
    | .indented => lift (.error .indentedTopLevel)
    | .includeFile file => do
      let j' ← inc file j
      parseGo inc fuel rest j'
    | .price => do
      let pool ← lift (j.pool.parsePriceDirective line)
      parseGo inc fuel rest { j with pool := pool }
    | .fails p => lift (.error p)

/-- parser.rs:108-137 -/
def parseWith (inc : Str → Journal → Traced Journal) (src : Source) (j : Journal) : Traced Journal :=
  parseGo inc (src.length + 1) src j

/-- parser.rs:335-377 and 108-137 -/
def parse (files : Files) : Nat → Source → Journal → Traced Journal
  | 0, src, j =>
    parseWith (fun file j => match files file with
      | none => pure j
      | some _ => lift (.error .stackOverflow)) src j
  | depth + 1, src, j =>
    parseWith (fun file j => match files file with
      | none => pure j
      | some src' => parse files depth src' j) src j

/-- lib.rs:144-147 `parse_file` -/
def parseFile (files : Files) (depth : Nat) (path : Str) (j : Journal) : Traced Journal :=
  match files path with
  | none => lift (.error .fileOpen)
  | some src => parse files depth src j

/-- lib.rs:135-138 -/
def readFiles (files : Files) (depth : Nat) : List Str → Journal → Traced Journal
  | [], j => pure j
  | f :: fs, j => do let j' ← parseFile files depth f j; readFiles files depth fs j'

/-- lib.rs:83-123 `execute_command`; the reports form no references to commodities by themselves. -/
def executeCommand (files : Files) (depth : Nat) (commands : List Str) (filenames : List Str) :
    Traced (List Str) :=
  match commands with
  | [] => lift (.error .noVerb)
  | verb :: _ => do
    let j ← readFiles files depth filenames Journal.new
    lift (match verb with
    | [] => .error .noVerb
    | c :: _ =>
      if c = 'a' then .ok ((sortByKey ((Report.reportAccounts j).map (fun s => (s, ())))).map (·.1))
      else if c = 'b' then
        if verb = str "b" ∨ verb = str "bal" ∨ verb = str "balance" then Report.balanceReport j
        else .error .unsupportedVerb
      else .error .unsupportedVerb)

/-- lib.rs:67-72 `run` -/
def run (files : Files) (depth : Nat) (args : List Str) : Traced (List Str) := do
  let o ← lift (Options.processArguments args)
  executeCommand files depth o.1 o.2

end Ledger.Trace
