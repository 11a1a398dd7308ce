import Verif.Spec.Accounts
import Verif.Spec.Prices
import Verif.Spec.Totals
import Verif.Model.Parser
/-
What a journal should hold, independent of how the parser builds it.
-/
namespace Ledger

/-- The postings of the `i`-th transaction with the accounts they name. -/
def postRefs (i : Nat) (ps : List Post) : List (PostRef × Path) := ps.zipIdx.map (fun x => ((i, x.2), x.1.account))

/-- All postings of a journal, in order, with the accounts they name. -/
def bookings (xs : List Xact) : List (PostRef × Path) := xs.zipIdx.flatMap (fun x => postRefs x.2 x.1.posts)

/-- The account tree agrees with the transactions: each account lists exactly the postings that name it, each once
and in the order of the journal; and every posting names an account of the tree. -/
structure Booked (j : Journal) : Prop where
  wf : j.master.WF
  root : j.master.name = []
  named : ∀ b ∈ bookings j.xacts, j.master.Has b.2
  lists : ∀ p ps, j.master.postsAt p = some ps → ps = ((bookings j.xacts).filter (fun b => b.2 = p)).map (·.1)

/-- The amounts of the postings to an account and everything below it. -/
def amountsBelow (j : Journal) (p : Path) : List Amount :=
  (j.allPosts.filter (fun q => p.isPrefixOf q.account)).filterMap (·.amount)

/-- The amounts of all postings. -/
def allAmounts (j : Journal) : List Amount := j.allPosts.filterMap (·.amount)

/-- A pool later in the run of a program. -/
def Pool.Later (p p' : Pool) : Prop := ∃ ops, runOps p ops = .ok p'

/-- Complete transactions: every posting has an amount and there is not just one posting. -/
def Complete (x : Xact) : Prop := (∀ p ∈ x.posts, p.amount ≠ none) ∧ x.posts.length ≠ 1

/-- The journals a program can have: a new one, after parsing into it, registering accounts or using its commodity
pool any number of times. -/
inductive Journal.Reachable : Journal → Prop
  | new : Journal.Reachable Journal.new
  | parse {j j' : Journal} (files : Parser.Files) (depth : Nat) (src : Parser.Source) (h : Journal.Reachable j)
      (hp : Parser.parse files depth src j = .ok j') : Journal.Reachable j'
  | register {j j' : Journal} {r : Option Path} (n : Str) (h : Journal.Reachable j)
      (hr : j.registerAccount n = .ok (j', r)) : Journal.Reachable j'
  | pool {j : Journal} {p : Pool} (h : Journal.Reachable j) (hp : j.pool.Later p) :
      Journal.Reachable { j with pool := p }

end Ledger
