import Verif.Spec.Heap
import Verif.Spec.Journal
import Verif.Spec.Found
/-
The pointers that a journal keeps, and whether they still point to what they were taken from.
-/
namespace Ledger
open Ledger.Memory Ledger.Heap

namespace Heap

/-- The account tree in memory and the pointers to accounts kept by the postings (parser.rs:441-473, `Post::account`) after
the given postings have been read, each with the path that its account name denotes. -/
inductive Books : State → List Nat → List (PostRef × Path) → Prop
  | new : Books State.new [] []
  | post {s s' : State} {homes : List Nat} {bs : List (PostRef × Path)} {n : Str} {a : Nat} (r : PostRef)
      (h : Books s homes bs) (hr : s.register n = .ok (s', some a)) :
      Books (s'.push a r) (homes ++ [a]) (bs ++ [(r, pathOf n)])

/-- Every account points to the account it is in. -/
def ParentsRight (s : State) : Prop := ∀ x ∈ Node.nodes s.master, ∀ c ∈ x.children, c.parent = some x.addr

/-- Every posting points to its account. -/
def HomesRight (s : State) (homes : List Nat) (bs : List (PostRef × Path)) : Prop :=
  List.Forall₂ (fun a b => ∃ x, s.master.at? b.2 = some x ∧ s.deref a = .ok x) homes bs

end Heap

/-- Address of the commodity with the number `i` when the node of the price graph was made that points to it
(pool.rs:74-84: right after it was put into the table). -/
def storedNode (i : Nat) : Addr := ⟨tableBlock (i + 1), i⟩

/-- All pointers kept by a journal point to what they were taken from: the nodes of the price graph and the amounts to
commodities (whenever they were taken), accounts to postings, postings to transactions and accounts, accounts to accounts. -/
structure Intact (stays : Nat → Bool) (j : Journal) (s : State) (homes : List Nat) : Prop where
  nodes : ∀ i c, (j.pool.commodities.map (·.1))[i]? = some c → commodityAddr j.pool c = some (storedNode i)
  amounts : ∀ p, p.Later j.pool → ∀ c a, commodityAddr p c = some a → commodityAddr j.pool c = some a
  posts : ∀ q rs, j.master.postsAt q = some rs → ∀ r ∈ rs, postAddr stays j r = some (storedPost stays r)
  xacts : ∀ i < j.xacts.length, xactAddr stays j i = some (storedXact stays i)
  homes : HomesRight s homes (bookings j.xacts)
  parents : ParentsRight s

/-- There are at most `n` of them. -/
def AtMost {α : Type} (n : Nat) (P : α → Prop) : Prop := ∀ l : List α, l.Nodup → (∀ x ∈ l, P x) → l.length ≤ n

/-- At most three commodities, three accounts below each account, four transactions and four postings in each. -/
structure Tiny (is : List Item) : Prop where
  commodities : AtMost 3 (fun c => (∃ e ∈ allEntries (writings is), e.Mentions c) ∨ ∃ r, Item.price r ∈ is ∧ (c = r.src ∨ c = r.dst))
  accounts : ∀ q, AtMost 3 (fun n => ∃ e ∈ allEntries (writings is), q ++ [n] <+: pathOf e.account)
  xacts : (writings is).length ≤ 4
  posts : ∀ w ∈ writings is, w.entries.length ≤ 4

end Ledger
