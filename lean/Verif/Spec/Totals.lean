import Verif.Spec.Accounts
import Verif.Spec.Value
import Verif.Model.Journal
/-
What an account total and a report line should be, independent of the recursion of the model.
-/
namespace Ledger

mutual
/-- All postings booked in an account and its descendants. -/
def subtreePosts : Account → List PostRef
  | .mk _ ps cs => ps ++ subtreePostsList cs
def subtreePostsList : List Account → List PostRef
  | [] => []
  | c :: cs => subtreePosts c ++ subtreePostsList cs
end

/-- The amounts of the postings referred to. -/
def amountsOf (j : Journal) (rs : List PostRef) : List Amount :=
  rs.filterMap (fun r => (j.postAt r).bind (·.amount))

/-- All references lead to postings. -/
def RefsValid (j : Journal) (rs : List PostRef) : Prop := ∀ r ∈ rs, (j.postAt r).isSome

instance (j : Journal) (rs : List PostRef) : Decidable (RefsValid j rs) := by unfold RefsValid; infer_instance

/-- The text of one entry of a balance: quantity, and the symbol after a space. -/
def entryText (a : Amount) : Str :=
  match a.comm with
  | some s => a.qty.display ++ str " " ++ s
  | none => a.qty.display

/-- The line of the balance report for an account. -/
def lineText (fullname : Str) (b : Balance) : Str :=
  str "Account " ++ fullname ++ str " has balance " ++ (b.amounts.map entryText).flatten

end Ledger
