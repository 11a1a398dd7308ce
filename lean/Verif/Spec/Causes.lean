import Verif.Spec.Faults
/-
Which panic a written transaction causes.
-/
namespace Ledger

/-- Two postings are blank. -/
def TwoBlank (w : Writing) : Prop :=
  ∃ l m r e f, w.entries = l ++ e :: m ++ f :: r ∧ e.amount = none ∧ f.amount = none

/-- The panic that the cost of a posting causes, be it written or implied. -/
inductive CostFault (w : Writing) (e : Entry) : Panic → Prop
  /-- a written cost in the commodity of the amount -/
  | same (a : Amount) (ha : e.amount = some a) (hc : e.cost ≠ none) (hk : ∀ B, ¬ ImpliedBy w a.comm B)
      (h : a.comm = e.worthIn) : CostFault w e .costSameCommodity
  /-- a written cost of an amount without commodity -/
  | bare (a : Amount) (ha : e.amount = some a) (hc : e.cost ≠ none) (hk : ∀ B, ¬ ImpliedBy w a.comm B)
      (h : a.comm = none) (hw : e.worthIn ≠ none) : CostFault w e .amountWithoutCommodity
  /-- a written cost without commodity that is not (nearly) zero -/
  | number (a : Amount) (ha : e.amount = some a) (hc : e.cost ≠ none) (hk : ∀ B, ¬ ImpliedBy w a.comm B)
      (h : a.comm ≠ none) (hw : e.worthIn = none)
      (hz : ¬ ((a.qty.val = 0 → e.worth = 0) ∧ (a.qty.val ≠ 0 → |e.worth / a.qty.val| ≤ 1 / 2 / 10 ^ 28))) :
      CostFault w e .priceWithoutCommodity
  /-- a rate is implied for an amount without commodity -/
  | rateBare (a : Amount) (B : Option Str) (ha : e.amount = some a) (h : a.comm = none) (hi : ImpliedBy w a.comm B) :
      CostFault w e .amountWithoutCommodity
  /-- a rate is implied to numbers without commodity: the cost is counted in the commodity of the amount -/
  | rateSame (a : Amount) (ha : e.amount = some a) (h : a.comm ≠ none) (hi : ImpliedBy w a.comm none) :
      CostFault w e .costSameCommodity

/-- The panic that a transaction causes: that of two blank postings before that of a single posting, then that of the
first faulty cost, then that of a blank posting beside two commodities. -/
inductive Cause (w : Writing) : Panic → Prop
  | blanks (h : TwoBlank w) : Cause w .secondNullPost
  | single (h : w.entries.length = 1) : Cause w .singlePosting
  | cost (l r : List Entry) (e : Entry) (k : Panic) (hb : ¬ TwoBlank w) (hs : w.entries.length ≠ 1)
      (h : w.entries = l ++ e :: r) (hl : ∀ f ∈ l, ∀ k', ¬ CostFault w f k') (he : CostFault w e k) : Cause w k
  | mixed (e p q : Entry) (hb : ¬ TwoBlank w) (hs : w.entries.length ≠ 1)
      (hf : ∀ f ∈ w.entries, ∀ k, ¬ CostFault w f k) (he : e ∈ w.entries) (hp : p ∈ w.entries) (hq : q ∈ w.entries)
      (hn : e.amount = none) (hpa : p.amount ≠ none) (hqa : q.amount ≠ none) (hne : p.worthIn ≠ q.worthIn) :
      Cause w .nullPostCommodities

/-- The first faulty one of several transactions causes this panic. -/
def FirstCause (ws : List Writing) (k : Panic) : Prop :=
  ∃ l w r, ws = l ++ w :: r ∧ (∀ v ∈ l, ¬ Faulty v) ∧ Cause w k

end Ledger
