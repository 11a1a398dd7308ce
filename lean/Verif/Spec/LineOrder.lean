import Verif.Spec.Journal
/-
The order in which a report line lists the commodities.
-/
namespace Ledger

/-- Each commodity where it occurs first. -/
def firsts : List (Option Str) → List (Option Str)
  | [] => []
  | c :: cs => c :: (firsts cs).filter (fun d => d ≠ c)

/-- Order of accounts with parents last: an account comes after everything below it, and siblings with all that is below
them are in ascending order of name. -/
def ParentLast : Path → Path → Prop
  | [], _ => False
  | _ :: _, [] => True
  | m :: p, n :: q => StrBefore m n ∨ (m = n ∧ ParentLast p q)

/-- The amounts of the postings that name exactly this account, in the order of the journal. -/
def amountsAt (j : Journal) (p : Path) : List Amount :=
  (j.allPosts.filter (fun q => q.account = p)).filterMap (·.amount)

/-- A list of the account and all accounts below it, parents last. -/
structure ParentsLast (j : Journal) (p : Path) (l : List Path) : Prop where
  mem : ∀ q, q ∈ l ↔ j.master.Has q ∧ p <+: q
  order : l.Pairwise ParentLast

end Ledger
