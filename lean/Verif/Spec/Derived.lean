import Verif.Spec.Faults
/-
What a transaction with an implied rate comes to.
-/
namespace Ledger
open Ledger.Parser

/-- What the postings that hold other commodities than `A` add to the sum in `c`: their costs if they have one, otherwise
their amounts. -/
def restSum (es : List Entry) (A c : Option Str) : ℚ :=
  (es.map (fun e => if e.commodity ≠ A ∧ e.worthIn = c then e.worth else 0)).sum

/-- The sum of the amounts held in `A`, whatever they cost. -/
def heldSum (es : List Entry) (A : Option Str) : ℚ :=
  (es.map (fun e => if e.commodity = A then (e.amount.map (·.qty.val)).getD 0 else 0)).sum

/-- The same sum without signs. -/
def heldSize (es : List Entry) (A : Option Str) : ℚ :=
  (es.map (fun e => if e.commodity = A then |(e.amount.map (·.qty.val)).getD 0| else 0)).sum

end Ledger
