import Verif.Spec.Written
/-
What of a transaction the balances are made of.
-/
namespace Ledger

/-- A transaction without its date, payee, note and comments: its postings, with their accounts, amounts, lots and costs. -/
def Writing.money (w : Writing) : List Entry := w.entries.map (fun e => { e with comments := [] })

end Ledger
