import Verif.Model.Memory
import Verif.Model.Report
/-
The account tree with its pointers (src/account.rs).

`Model/Account.lean` identifies accounts by their path and computes the full name from the path.  The code computes it
from the parent pointers and caches it.  Here every account has an address, a parent pointer and a cache, and accounts
move when the table they lie in grows (`Model/Memory.lean`).  An account owns its children, so the accounts in memory
form a tree; following a pointer means finding the account that has the address.  Addresses are never used twice; an
address that no account has is the address of freed memory.  Reading freed memory is undefined behaviour in Rust; it is
`danglingPointer` here.
-/
namespace Ledger
namespace Heap
open Ledger.Memory

/-- account.rs:10-20: an account at an address. -/
inductive Node where
  | mk (addr : Nat) (parent : Option Nat) (name : Str) (cache : Str) (posts : List PostRef) (children : List Node)
deriving Repr

namespace Node

def addr : Node → Nat
  | mk a _ _ _ _ _ => a
def parent : Node → Option Nat
  | mk _ p _ _ _ _ => p
def name : Node → Str
  | mk _ _ n _ _ _ => n
def cache : Node → Str
  | mk _ _ _ c _ _ => c
def posts : Node → List PostRef
  | mk _ _ _ _ ps _ => ps
def children : Node → List Node
  | mk _ _ _ _ _ cs => cs

/-- Copying an account to another address; the table of its children is not copied, only the pointer to it. -/
def moveTo (a : Nat) : Node → Node
  | mk _ p n c ps cs => mk a p n c ps cs

def setCache (c : Str) : Node → Node
  | mk a p n _ ps cs => mk a p n c ps cs

/-- The lookup `accounts.get(name)`. -/
def getChild (n : Str) : List Node → Option Node
  | [] => none
  | c :: cs => if c.name = n then some c else getChild n cs

/-- The child with the name of `c` after a mutation. -/
def setChild (c : Node) : List Node → List Node
  | [] => []
  | x :: xs => if x.name = c.name then c :: xs else x :: setChild c xs

mutual
/-- All accounts, parents first. -/
def nodes : Node → List Node
  | mk a p n c ps cs => mk a p n c ps cs :: nodesList cs
def nodesList : List Node → List Node
  | [] => []
  | c :: cs => nodes c ++ nodesList cs
end

mutual
/-- The tree without addresses, as the rest of the model has it. -/
def erase : Node → Account
  | mk _ _ n _ ps cs => .mk n ps (eraseList cs)
def eraseList : List Node → List Account
  | [] => []
  | c :: cs => erase c :: eraseList cs
end

/-- The account at a path. -/
def at? : Node → Path → Option Node
  | a, [] => some a
  | mk _ _ _ _ _ cs, n :: p => match getChild n cs with
    | some c => at? c p
    | none => none

end Node

/-- Moving the entries of a table to a new allocation, to the addresses from `next` on. -/
def relocate (next : Nat) : List Node → List Node
  | [] => []
  | c :: cs => c.moveTo next :: relocate (next + 1) cs

/-- account.rs:36-49 `create_account`: the new account with a pointer to its parent is inserted into the table of the
parent, whose entries move if it is full.  `next` is the first address not used yet.  Result: the table, the new account
and the next unused address. -/
def insertNew (next self : Nat) (first : Str) (cs : List Node) : List Node × Node × Nat :=
  let (cs, next) := if cs.length < room tableNext cs.length then (cs, next) else (relocate next cs, next + cs.length)
  let c := Node.mk next (some self) first [] [] []
  (cs ++ [c], c, next + 1)

/-- account.rs:100-139 `find_or_create`.  Result: the account afterwards, the next unused address and the address of the
account found or created. -/
def findOrCreateGo : Nat → Nat → Node → Str → Bool → Res (Node × Nat × Option Nat)
  | 0, _, _, _, _ => .error .outOfFuel
  | fuel + 1, next, .mk a pa an ca ap cs, n, auto =>
    match Node.getChild n cs with
    | some c => .ok (.mk a pa an ca ap cs, next, some c.addr)
    | none =>
      let (first, rest) := Account.splitName n
      let found : Option (Node × List Node × Nat) :=
        match Node.getChild first cs with
        | some c => some (c, cs, next)
        | none => if auto then
            let (cs', c, next') := insertNew next a first cs
            some (c, cs', next')
          else none
      match found with
      | none => .ok (.mk a pa an ca ap cs, next, none)
      | some (c, cs', next') =>
        if rest = [] then .ok (.mk a pa an ca ap cs', next', some c.addr)
        else do
          let (c', next'', r) ← findOrCreateGo fuel next' c rest auto
          match r with
          | none => .error .accountUnwrapNone
          | some x => .ok (.mk a pa an ca ap (Node.setChild c' cs'), next'', some x)

/-- The master account and the next unused address. -/
structure State where
  master : Node
  next : Nat

/-- journal.rs:28-36: the master account in its box. -/
def State.new : State := ⟨.mk 0 none [] [] [] [], 1⟩

/-- journal.rs:60-84 `register_account` of a name that is not empty: `find_or_create` on the master account. -/
def State.register (s : State) (n : Str) : Res (State × Option Nat) := do
  let (m, next, r) ← findOrCreateGo (n.length + 1) s.next s.master n true
  .ok (⟨m, next⟩, r)

/-- Following a pointer. -/
def State.deref (s : State) (a : Nat) : Res Node :=
  match (Node.nodes s.master).find? (fun x => x.addr = a) with
  | some x => .ok x
  | none => .error .danglingPointer

mutual
/-- Mutation of the account at an address (there is only one). -/
def Node.mutate (a : Nat) (f : Node → Node) : Node → Node
  | .mk b p n c ps cs =>
    let x := Node.mk b p n c ps (Node.mutateList a f cs)
    if b = a then f x else x
def Node.mutateList (a : Nat) (f : Node → Node) : List Node → List Node
  | [] => []
  | c :: cs => Node.mutate a f c :: Node.mutateList a f cs
end

/-- parser.rs:469-473: the reference to a posting is pushed on the account at the address just returned by
`register_account`. -/
def State.push (s : State) (a : Nat) (r : PostRef) : State :=
  { s with master := s.master.mutate a (fun | .mk b p n c ps cs => .mk b p n c (ps ++ [r]) cs) }

/-- account.rs:61-73: the loop over the parents. -/
def State.climb (s : State) : Nat → Node → Str → Res Str
  | 0, _, _ => .error .outOfFuel
  | fuel + 1, first, text =>
    match first.parent with
    | none => .ok text
    | some b => do
      let up ← s.deref b
      s.climb fuel up (if up.name = [] then text else up.name ++ ':' :: text)

/-- account.rs:51-76 `fullname` of the account at an address; account.rs:78-85 `set_fullname`. -/
def State.fullname (s : State) (a : Nat) : Res (State × Str) := do
  let x ← s.deref a
  if x.parent = none then .ok (s, [])
  else if x.cache ≠ [] then .ok (s, x.cache)
  else do
    let text ← s.climb ((Node.nodes s.master).length + 1) x x.name
    .ok ({ s with master := s.master.mutate a (Node.setCache text) }, text)

/-- report.rs:42-70 `get_children_lines` for the accounts at the given paths, one after the other: the total, then the
full name.  (The recursion visits the accounts in the order of `flatten`, see C26.) -/
def reportGo (j : Journal) : List Path → State → Res (State × List Str)
  | [], s => .ok (s, [])
  | p :: ps, s => match s.master.at? p with
    | none => .error .danglingPointer
    | some x => do
      let total ← j.accountTotal x.erase
      let (s, name) ← s.fullname x.addr
      let (s, lines) ← reportGo j ps s
      .ok (s, Report.balanceLine name total :: lines)

/-- report.rs:30-40 `balance_report` on the account tree in memory. -/
def balanceReport (j : Journal) (s : State) : Res (State × List Str) :=
  reportGo j (s.master.erase.flatten.map (·.1)) s

end Heap
end Ledger
