import Verif.Spec.Faults
/-
Which transactions balance after they are completed.
-/
namespace Ledger

/-- Everything is written and sums to zero in every commodity, or a posting is blank and the others do not sum to less than zero in
any commodity. -/
def LeavesNothing (w : Writing) : Prop :=
  ((∀ e ∈ w.entries, e.amount ≠ none) ∧ EntriesBalance w.entries) ∨
    ((∃ e ∈ w.entries, e.amount = none) ∧ ∀ c, 0 ≤ entriesSum w.entries c)

/-- The rate between two commodities and the amounts converted with it can be represented. -/
def ExactRate (w : Writing) (A B : Option Str) : Prop :=
  Representable (entriesSum w.entries B / entriesSum w.entries A) ∧
    ∀ e ∈ w.entries, e.commodity = A → ∀ a, e.amount = some a →
      Representable (|entriesSum w.entries B / entriesSum w.entries A| * a.qty.val)

end Ledger
