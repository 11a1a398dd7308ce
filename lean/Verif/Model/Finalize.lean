import Verif.Model.Journal
/-
Finalisation of a transaction (src/xact.rs:105-278).
-/
namespace Ledger.Finalize
open Ledger

/-- xact.rs:118-141: the first loop.  Sums cost-or-amount of the postings and remembers the posting without
either. -/
def sumPosts : List Post → Nat → Balance → Option Nat → Res (Balance × Option Nat)
  | [], _, b, np => .ok (b, np)
  | p :: ps, i, b, np =>
    match (match p.cost with | some c => some c | none => p.amount) with
    | some a => do let b' ← b.add a; sumPosts ps (i + 1) b' np
    | none => match np with
      | some _ => .error .secondNullPost
      | none => sumPosts ps (i + 1) b (some i)

/-- xact.rs:159-163: the first posting with an amount. -/
def topPost (ps : List Post) : Option Post := ps.find? (fun p => p.amount.isSome)

/-- xact.rs:186-196: every posting in commodity `comm` gets the cost `perUnit * amount`; the running balance is
updated along the way. -/
def assignCosts (comm : Option Str) (perUnit : Amount) : List Post → Balance → Res (List Post × Balance)
  | [], b => .ok ([], b)
  | p :: ps, b =>
    match p.amount with
    | none => .error .postWithoutAmount
    | some amt =>
      if amt.comm = comm then do
        let b ← b.subAssign amt
        let cost ← perUnit.mul amt
        let b ← b.add cost
        let (ps', b) ← assignCosts comm perUnit ps b
        .ok ({ p with cost := some cost } :: ps', b)
      else do
        let (ps', b) ← assignCosts comm perUnit ps b
        .ok (p :: ps', b)

/-- xact.rs:151-199: the two-commodity case. -/
def impliedCosts (ps : List Post) (b : Balance) (np : Option Nat) : Res (List Post × Balance) :=
  match np, b.amounts with
  | none, [x, y] =>
    match topPost ps with
    | none => .ok (ps, b)
    | some top =>
      if !x.isZero ∧ !y.isZero then do
        let topComm := match top.amount with | some a => a.comm | none => none
        let (x, y) := if x.comm ≠ topComm then (y, x) else (x, y)
        let perUnit ← y.div x
        assignCosts x.comm perUnit.abs ps b
      else .ok (ps, b)
  | _, _ => .ok (ps, b)

/-- xact.rs:201-242: prices from the costs. -/
def recordPrices (date : Option Date) : List Post → Pool → Res (List Post × Pool)
  | [], pool => .ok ([], pool)
  | p :: ps, pool =>
    match p.cost with
    | none => do
      let (ps', pool) ← recordPrices date ps pool
      .ok (p :: ps', pool)
    | some cost =>
      match p.amount with
      | none => .error .postWithoutAmount
      | some amt =>
        if amt.comm = cost.comm then .error .costSameCommodity
        else match date with
          | none => .error .xactWithoutDate
          | some d => do
            let (breakdown, newPrice) ← pool.exchange amt cost false ⟨d, Time.midnight⟩
            let pool ← match newPrice with
              | some np => pool.addPriceStruct np
              | none => .ok pool
            let (ps', pool) ← recordPrices date ps pool
            .ok ({ p with amount := some breakdown.amount } :: ps', pool)

/-- xact.rs:244-274: the posting without amount gets the inverse of the rest. -/
def fillNull (ps : List Post) (b : Balance) (np : Option Nat) : Res (List Post) :=
  match np with
  | none => .ok ps
  | some i => match b.amounts with
    | [a] => .ok (ps.modify i (fun p => { p with amount := some a.inverse }))
    | _ => .error .nullPostCommodities

/-- xact.rs:105-278 `finalize`, on the transaction and the commodity pool it works on. -/
def finalize (x : Xact) (pool : Pool) : Res (Xact × Pool) := do
  let (b, np) ← sumPosts x.posts 0 Balance.empty none
  if x.posts.length = 1 then .error .singlePosting
  else do
    let (ps, b) ← impliedCosts x.posts b np
    let (ps, pool) ← recordPrices x.date ps pool
    let ps ← fillNull ps b np
    .ok ({ x with posts := ps }, pool)

end Ledger.Finalize
