import Verif.Spec.Found
/-
Transactions for which a null pointer is turned into a reference.
-/
namespace Ledger

/-- A transaction without commodities, one of whose postings is left blank. -/
structure Bare (w : Writing) : Prop where
  blank : ∃ e ∈ w.entries, e.amount = none
  bare : ∀ e ∈ w.entries, e.amount ≠ none → e.worthIn = none

/-- There is such a transaction, and neither it nor one before it is faulty. -/
def BareMet (ws : List Writing) : Prop :=
  ∃ l w r, ws = l ++ w :: r ∧ (∀ v ∈ l, ¬ Faulty v) ∧ ¬ Faulty w ∧ Bare w

end Ledger
