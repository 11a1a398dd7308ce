import Verif.Spec.Xact
import Verif.Spec.Journal
/-
Which transactions are accepted, in terms of their postings.
-/
namespace Ledger

/-- The amounts of a list of postings. -/
def writtenAmounts (ps : List Post) : List Amount := ps.filterMap (·.amount)

/-- The costs written beside them. -/
def writtenCosts (ps : List Post) : List Amount := ps.filterMap (·.cost)

/-- The cost per unit is zero with 28 decimals. -/
def Vanishing (a c : Amount) : Prop :=
  (a.qty.val = 0 → c.qty.val = 0) ∧ (a.qty.val ≠ 0 → |c.qty.val / a.qty.val| ≤ 1 / 2 / 10 ^ 28)

/-- A cost that is no price: of an amount without commodity, in the commodity of the amount itself, in a transaction
without date, or a number without commodity that is not (nearly) zero. -/
def NoPrice (date : Option Date) (a c : Amount) : Prop :=
  a.comm = none ∨ a.comm = c.comm ∨ date = none ∨ (c.comm = none ∧ ¬ Vanishing a c)

/-- A rate is implied between `c1` and `c2`: no posting is blank, everything is booked in these two commodities and
neither sums to zero.  The postings in `c1` are the ones to get a cost: `c1` is the commodity of the first booked
amount if the first posting with an amount has that amount's commodity, and the other one if not. -/
def Implied (ps : List Post) (c1 c2 : Option Str) : Prop :=
  (∀ p ∈ ps, ¬ p.Blank) ∧ c1 ≠ c2 ∧ (∀ a ∈ bookedAmounts ps, a.comm = c1 ∨ a.comm = c2) ∧
  sumIn c1 (bookedAmounts ps) ≠ 0 ∧ sumIn c2 (bookedAmounts ps) ≠ 0 ∧
  ∃ f t, (bookedAmounts ps).head? = some f ∧ (writtenAmounts ps).head? = some t ∧ (f.comm = c1 ↔ t.comm = f.comm)

/-- What is wrong with a transaction. -/
inductive Defective (x : Xact) : Prop
  /-- a single posting -/
  | single (h : x.posts.length = 1)
  /-- two blank postings -/
  | blanks (l m r : List Post) (p q : Post) (h : x.posts = l ++ p :: m ++ q :: r) (hp : p.Blank) (hq : q.Blank)
  /-- a blank posting beside two commodities -/
  | mixed (p : Post) (hp : p ∈ x.posts) (hb : p.Blank) (a b : Amount) (ha : a ∈ bookedAmounts x.posts)
      (hb' : b ∈ bookedAmounts x.posts) (hne : a.comm ≠ b.comm)
  /-- a cost of nothing -/
  | lone (p : Post) (hp : p ∈ x.posts) (hc : p.cost ≠ none) (ha : p.amount = none)
  /-- a cost that is no price, unless it is replaced by an implied one -/
  | cost (p : Post) (hp : p ∈ x.posts) (a c : Amount) (ha : p.amount = some a) (hc : p.cost = some c)
      (hbad : NoPrice x.date a c) (hkeep : ∀ c2, ¬ Implied x.posts a.comm c2)
  /-- an implied cost that is no price -/
  | rate (c1 c2 : Option Str) (h : Implied x.posts c1 c2) (p : Post) (hp : p ∈ x.posts) (a : Amount)
      (ha : p.amount = some a) (hac : a.comm = c1) (hbad : c1 = none ∨ c2 = none ∨ x.date = none)

/-- There are no costs, neither written nor implied. -/
def Costless (ps : List Post) : Prop := (∀ p ∈ ps, p.cost = none) ∧ ∀ c1 c2, ¬ Implied ps c1 c2

/-- Numbers of everyday size: at most `D` decimals and at most `10 ^ T` in all, with `D + 2 * T ≤ 27`, and at most a
billion postings.  So these may be two decimals and a million million, nine decimals and a billion, or seventeen decimals
and a hundred thousand.  Without costs `D + T ≤ 28` suffices, so that it may be eighteen decimals and ten billion. -/
structure Ordinary (ps : List Post) : Prop where
  numbers : ∃ D T : Nat, (D + 2 * T ≤ 27 ∨ (D + T ≤ 28 ∧ Costless ps)) ∧ (∀ a ∈ writtenAmounts ps ++ writtenCosts ps, a.qty.Valid ∧ a.qty.scale ≤ D) ∧
    mass (writtenAmounts ps ++ writtenCosts ps) ≤ 10 ^ T
  count : ps.length ≤ 10 ^ 9

/-- The pool knows the commodities of the amounts and costs. -/
def Pool.Knows (pool : Pool) (ps : List Post) : Prop :=
  ∀ a ∈ writtenAmounts ps ++ writtenCosts ps, ∀ s, a.comm = some s → (pool.find s).isSome

/-- The prices of lots in the pool are at most 10^15. -/
def Pool.OrdinaryLots (pool : Pool) : Prop :=
  ∀ s ann pr, assocGet s pool.annotated = some ann → ann.price = some pr → |pr.qty.val| ≤ 10 ^ 15

end Ledger
