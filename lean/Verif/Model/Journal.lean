import Verif.Model.Account
import Verif.Model.Pool
/-
Postings, transactions and the journal (src/post.rs, src/xact.rs, src/journal.rs).
-/
namespace Ledger

/-- post.rs:12-28.  The `xact_ptr` back pointer is the position of the posting in the journal. -/
structure Post where
  account : Path
  amount : Option Amount
  cost : Option Amount
  note : Option Str
deriving DecidableEq, Repr

/-- xact.rs:13-21.  The `journal` pointer is never set. -/
structure Xact where
  date : Option Date
  auxDate : Option Date
  payee : Str
  posts : List Post
  note : Option Str
deriving DecidableEq, Repr

/-- journal.rs:20-25 -/
structure Journal where
  master : Account
  pool : Pool
  xacts : List Xact
deriving DecidableEq, Repr

namespace Xact

/-- parser.rs:49-53 -/
def parseDate (s : Str) : Res Date :=
  match Chrono.parseDate s with
  | some d => .ok d
  | none => .error .dateParse

/-- xact.rs:39-72 -/
def create (date aux payee note : Str) : Res Xact := do
  let d ← if date = [] then .ok none else do let d ← parseDate date; .ok (some d)
  let a ← if aux = [] then .ok none else do let d ← parseDate aux; .ok (some d)
  .ok { date := d, auxDate := a,
        payee := if payee = [] then str "Unknown Payee" else payee,
        posts := [],
        note := if note = [] then none else some note }

/-- The last posting of the transaction gets the note (parser.rs:402-409, post.rs:50-52). -/
def noteLast (n : Str) : List Post → List Post
  | [] => []
  | [p] => [{ p with note := some n }]
  | p :: q :: r => p :: noteLast n (q :: r)

/-- parser.rs:396-409: a note goes to the transaction while it has no posting, otherwise to the last posting;
xact.rs:74-76. -/
def addNote (x : Xact) (n : Str) : Xact :=
  if x.posts = [] then { x with note := some n } else { x with posts := noteLast n x.posts }

end Xact

namespace Journal

/-- journal.rs:28-36 -/
def new : Journal := ⟨Account.new [], Pool.empty, []⟩

/-- journal.rs:38-42 `add_xact`: returns the position of the new transaction. -/
def addXact (j : Journal) (x : Xact) : Journal × Nat :=
  ({ j with xacts := j.xacts ++ [x] }, j.xacts.length)

/-- journal.rs:44-46 `all_posts` -/
def allPosts (j : Journal) : List Post := j.xacts.flatMap (·.posts)

/-- journal.rs:68-88 `register_account` -/
def registerAccount (j : Journal) (n : Str) : Res (Journal × Option Path) :=
  if n = [] then .error .invalidAccountName
  else do
    let (m, r) ← j.master.findOrCreate n true
    .ok ({ j with master := m }, r)

/-- journal.rs:90-92 -/
def findAccount (j : Journal) (n : Str) : Res (Option Path) := j.master.findAccount n

/-- Mutation of the transaction at a position. -/
def updateXact (j : Journal) (i : Nat) (f : Xact → Xact) : Journal :=
  { j with xacts := j.xacts.modify i f }

/-- Dereference of a posting reference. -/
def postAt (j : Journal) (r : PostRef) : Option Post :=
  match j.xacts[r.1]? with
  | some x => x.posts[r.2]?
  | none => none

/-- account.rs:157-171: the loop of `Account::amount` over the account's postings. -/
def amountGo (j : Journal) : List PostRef → Balance → Res Balance
  | [], b => .ok b
  | r :: rs, b => match j.postAt r with
    | none => .error .badPostRef
    | some p => match p.amount with
      | none => amountGo j rs b
      | some a => do let b' ← b.add a; amountGo j rs b'

/-- account.rs:157-171 `Account::amount` -/
def accountAmount (j : Journal) (a : Account) : Res Balance := amountGo j a.posts Balance.empty

/-- account.rs:196-210: adding the totals of the children in the order given. -/
def totalGo : List (Str × Res Balance) → Balance → Res Balance
  | [], b => .ok b
  | (_, r) :: rs, b => do
    let sub ← r
    let b' ← b.addBalance sub
    totalGo rs b'

/-- account.rs:196-216 `Account::total`: children sorted by name, then the account's own amounts. -/
def accountTotal (j : Journal) (a : Account) : Res Balance :=
  Account.fold (fun _ ps rs => do
    let b ← totalGo (sortByKey rs) Balance.empty
    let own ← amountGo j ps Balance.empty
    b.addBalance own) a

end Journal
end Ledger
