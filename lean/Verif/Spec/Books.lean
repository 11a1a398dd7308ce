import Verif.Spec.Faults
/-
Whole books: transactions that leave nothing over, and the accounts that a report lists.
-/
namespace Ledger

/-- A transaction of plain amounts that leaves nothing over: it sums to zero in every commodity, or one posting is left
blank beside amounts in one commodity that do not sum to less than zero. -/
structure Even (w : Writing) : Prop where
  plain : ∀ e ∈ w.entries, e.cost = none
  even : ((∀ e ∈ w.entries, e.amount ≠ none) ∧ EntriesBalance w.entries) ∨
    ∃ l e r c, w.entries = l ++ e :: r ∧ e.amount = none ∧ (∀ q ∈ l ++ r, q.amount ≠ none ∧ q.worthIn = c) ∧
      0 ≤ entriesSum (l ++ r) c

/-- The accounts that a report lists for an account and those below it. -/
def Bookings.listedFrom (b : Bookings) : Nat → Path → List Path
  | 0, _ => []
  | d + 1, p => p :: (b.names p).flatMap (fun n => listedFrom b d (p ++ [n]))

/-- The accounts that a report lists, line by line. -/
def Bookings.listed (b : Bookings) : List Path := b.listedFrom (b.depth + 1) []

/-- The total of an account in a report. -/
def Bookings.figure (b : Bookings) (p : Path) : List Amount := b.total (b.depth + 1 - p.length) p

/-- What is booked to an account and to the accounts below it. -/
def Bookings.within (b : Bookings) (p : Path) : Bookings := b.filter (fun x => p.isPrefixOf x.1)

end Ledger
