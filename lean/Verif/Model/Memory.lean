import Verif.Model.Journal
/-
Where the objects of a journal lie in memory.

The rest of the model identifies commodities by symbol, accounts by path and postings by position.  The code keeps raw
pointers to them: `Amount::commodity`, the nodes of the price graph, `Post::account`, `Account::parent`, `Account::posts`
and `Post::xact_ptr`.  The objects live in containers that move their contents to another allocation when they grow.
This file gives the address of every object as a function of the state of the journal, so that "the pointer is still
valid" becomes "the object still has the address it had when the pointer was taken".

Nothing is ever removed from these containers, so the allocation a container uses is determined by the number of elements
it has; allocations of one container are numbered.  A freed allocation is never given out again in the model; with a real
allocator a dangling pointer can come to point at something else, which is no better.
-/
namespace Ledger
namespace Memory

/-- Capacity of a container after `n` insertions, one after the other; `next` is the growth policy. -/
def room (next : Nat → Nat) : Nat → Nat
  | 0 => 0
  | n + 1 => if n < room next n then room next n else next (room next n)

/-- Number of the allocation a container uses after `n` insertions (0: none yet).  `stays n` tells whether the allocator
can enlarge the allocation in place when the insertion number `n` needs it; the first allocation is always new. -/
def block (next : Nat → Nat) (stays : Nat → Bool) : Nat → Nat
  | 0 => 0
  | n + 1 =>
    if n < room next n then block next stays n
    else if n ≠ 0 ∧ stays n then block next stays n
    else block next stays n + 1

/-- Growth of `HashMap` (hashbrown `reserve_rehash`, `capacity_to_buckets`): room for 3, 7, 14, 28, ... entries.  A table
without removals always allocates anew and moves its entries. -/
def tableNext (c : Nat) : Nat := if c = 0 then 3 else if c = 3 then 7 else 2 * c

/-- Growth of `Vec` (`RawVec::grow_amortized`) for elements of at most 1024 bytes: 4, 8, 16, ...  The allocation is
enlarged by `realloc`, which may or may not move it. -/
def vecNext (c : Nat) : Nat := max 4 (2 * c)

/-- The allocation of a table with `n` entries. -/
def tableBlock (n : Nat) : Nat := block tableNext (fun _ => false) n

/-- An address inside a container: the allocation and the place in it.  The place of an entry of a table depends on its
hash; within one allocation it does not change and differs from entry to entry, the number of the entry stands for it. -/
structure Addr where
  block : Nat
  slot : Nat
deriving DecidableEq, Repr

/-- Address of the entry with a key in a table with the given keys. -/
def tableAddr (keys : List Str) (k : Str) : Option Addr :=
  if k ∈ keys then some ⟨tableBlock keys.length, keys.idxOf k⟩ else none

/-- pool.rs:26: address of a commodity, an entry of `commodities: HashMap<String, Commodity>`. -/
def commodityAddr (p : Pool) (s : Str) : Option Addr := tableAddr (p.commodities.map (·.1)) s

/-- account.rs:15: address of the account with the name `n` below the account at path `p`, an entry of
`accounts: HashMap<String, Account>`.  (The master account is boxed, journal.rs:21, and never moves.  When an account
moves, its own table is not copied, only the pointer to it is.) -/
def accountAddr (master : Account) (p : Path) (n : Str) : Option Addr :=
  match master.at? p with
  | some a => tableAddr (a.children.map (·.name)) n
  | none => none

/-- xact.rs:19: address of a posting, an element of `posts: Vec<Post>` of its transaction. -/
def postAddr (stays : Nat → Bool) (j : Journal) (r : PostRef) : Option Addr :=
  match j.xacts[r.1]? with
  | some x => if r.2 < x.posts.length then some ⟨block vecNext stays x.posts.length, r.2⟩ else none
  | none => none

/-- parser.rs:458-473, xact.rs:79-84: the pointer to a posting that is stored in its account, taken right after the
posting has been pushed. -/
def storedPost (stays : Nat → Bool) (r : PostRef) : Addr := ⟨block vecNext stays (r.2 + 1), r.2⟩

/-- journal.rs:24: address of a transaction, an element of `xacts: Vec<Xact>`. -/
def xactAddr (stays : Nat → Bool) (j : Journal) (i : Nat) : Option Addr :=
  if i < j.xacts.length then some ⟨block vecNext stays j.xacts.length, i⟩ else none

/-- xact.rs:80, parser.rs:262-265: the pointer to its transaction that is stored in a posting, taken right after the
transaction has been pushed. -/
def storedXact (stays : Nat → Bool) (i : Nat) : Addr := ⟨block vecNext stays (i + 1), i⟩

/-! Amounts with pointers to commodities anywhere in memory. -/

/-- commodity.rs:11-28: a commodity as a value.  `name` and `note` are never assigned. -/
structure Cell where
  symbol : Str
  graphIndex : Option Nat
  annotated : Bool
deriving DecidableEq, Repr

/-- The commodities in memory, by address. -/
abbrev Heap := Nat → Cell

/-- amount.rs:14-18 -/
structure PAmount where
  qty : Dec
  ptr : Option Nat
deriving DecidableEq, Repr

/-- amount.rs:65-73 `get_commodity` -/
def PAmount.commodity (h : Heap) (a : PAmount) : Option Cell := a.ptr.map h

/-- amount.rs:52-63 `Amount::add`: the pointers are compared. -/
def PAmount.add (a b : PAmount) : Res PAmount :=
  if a.ptr ≠ b.ptr then .error .differentCommodities
  else if b.qty.isZero then .ok a
  else do let q ← a.qty.add b.qty; .ok { a with qty := q }

/-- balance.rs:40-57 `Balance::add`: the commodities pointed to are compared. -/
def balanceAdd (h : Heap) : List PAmount → PAmount → Res (List PAmount)
  | [], a => .ok [a]
  | x :: xs, a =>
    if x.commodity h = a.commodity h then do let x' ← x.add a; .ok (x' :: xs)
    else do let xs' ← balanceAdd h xs a; .ok (x :: xs')

end Memory
end Ledger
