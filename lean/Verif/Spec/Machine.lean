import Verif.Spec.Stale
/-
Journals and texts whose pointers are good enough for the program: no pointer that is followed can be stale.
-/
namespace Ledger
open Ledger.Heap

/-- At most three commodities, three accounts below each account with grandchildren, and four postings in each transaction. -/
structure SlimJournal (j : Journal) : Prop where
  commodities : j.pool.len ≤ 3
  accounts : Narrow j.master
  posts : ∀ x ∈ j.xacts, x.posts.length ≤ 4

/-- The same of what is written: at most three commodities are mentioned, an account with accounts two levels below it has at
most three right below it, and each transaction has at most four postings. -/
structure Slim (is : List Item) : Prop where
  commodities : AtMost 3 (fun c => (∃ e ∈ allEntries (writings is), e.Mentions c) ∨ ∃ r, Item.price r ∈ is ∧ (c = r.src ∨ c = r.dst))
  accounts : ∀ q, (∃ e ∈ allEntries (writings is), ∃ n m, q ++ [n, m] <+: pathOf e.account) →
    AtMost 3 (fun n => ∃ e ∈ allEntries (writings is), q ++ [n] <+: pathOf e.account)
  posts : ∀ w ∈ writings is, w.entries.length ≤ 4

end Ledger
