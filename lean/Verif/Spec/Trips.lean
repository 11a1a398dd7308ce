import Verif.Spec.Causes
import Verif.Spec.Fresh
/-
Which stale pointers the program follows before a faulty transaction ends it.
-/
namespace Ledger

/-- What a posting has mentioned when the pointer is taken that comes with what it is booked at: everything if that is a cost
with a commodity, and else the commodity of the amount. -/
def Entry.bookedAfter (e : Entry) : List Str := if e.cost.bind (·.2.comm) = none then e.holder.toList else e.mentions

/-- The table moves between the moment when the pointer of what a posting is booked at is taken and the end of the transaction. -/
def StaleBooked (M : List Str) (w : Writing) (before : List Entry) (e : Entry) : Prop :=
  e.worthIn ≠ none ∧ Moves (M ++ entryMentions before ++ e.bookedAfter) (M ++ entryMentions w.entries)

/-- The same of the pointer of the amount. -/
def StaleAmount (M : List Str) (w : Writing) (before : List Entry) (e : Entry) : Prop :=
  ∃ s, e.commodity = some s ∧ Moves (M ++ entryMentions before ++ [s]) (M ++ entryMentions w.entries)

/-- The same of the very first mention of the commodity of the amount. -/
def StaleNode (M : List Str) (w : Writing) (e : Entry) : Prop :=
  ∃ s pre, e.commodity = some s ∧ pre <+: M ++ entryMentions w.entries ∧ s ∈ pre ∧ Moves pre (M ++ entryMentions w.entries)

/-- A faulty transaction makes the program follow a stale pointer before the panic of its fault. -/
inductive Trips (M : List Str) (w : Writing) : Prop
  /-- of what the postings until the second blank one are booked at, if these are two or more -/
  | sum (t l r : List Entry) (e : Entry) (ht : t <+: w.entries) (hb : t.countP (fun f => f.amount = none) ≤ 1)
      (h2 : 2 ≤ t.countP (fun f => f.amount ≠ none)) (h : t = l ++ e :: r) (hs : StaleBooked M w l e)
  /-- of any amount, if a rate is implied -/
  | rate (A B : Option Str) (l r : List Entry) (e : Entry) (hi : ImpliedBy w A B) (h : w.entries = l ++ e :: r) (hs : StaleAmount M w l e)
  /-- of the amount and the cost of the postings with a written cost, up to that with a fault -/
  | cost (l r : List Entry) (e : Entry) (hb : ¬ TwoBlank w) (h1 : w.entries.length ≠ 1) (h : w.entries = l ++ e :: r)
      (hl : ∀ f ∈ l, ∀ k, ¬ CostFault w f k) (hc : e.cost ≠ none) (hs : StaleAmount M w l e ∨ StaleBooked M w l e)
  /-- of the nodes of the postings with a cost, before that with a fault, and of that if it is found only when the price is to be
  recorded -/
  | node (l r : List Entry) (e : Entry) (hb : ¬ TwoBlank w) (h1 : w.entries.length ≠ 1) (h : w.entries = l ++ e :: r)
      (hl : ∀ f ∈ l, ∀ k, ¬ CostFault w f k) (he : ∀ k, CostFault w e k → k = .priceWithoutCommodity) (hc : Costed w e)
      (hs : StaleNode M w e)

end Ledger
