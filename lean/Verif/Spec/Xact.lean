import Verif.Spec.Value
import Verif.Spec.Prices
import Verif.Model.Journal
/-
What finalising a transaction should do, in terms of its postings.
-/
namespace Ledger

/-- What a posting contributes to the balance of its transaction: its cost if it has one, else its amount. -/
def Post.booked (p : Post) : Option Amount :=
  match p.cost with
  | some c => some c
  | none => p.amount

/-- A posting without amount (and without cost). -/
def Post.Blank (p : Post) : Prop := p.booked = none

instance (p : Post) : Decidable p.Blank := by unfold Post.Blank; infer_instance

/-- The contributions of a list of postings. -/
def bookedAmounts (ps : List Post) : List Amount := ps.filterMap Post.booked

/-- The postings sum to zero in every commodity. -/
def Balances (ps : List Post) : Prop := ∀ c, sumIn c (bookedAmounts ps) = 0

/-- `q` is the per-unit cost |cost / amount| (or |cost| if the amount is zero): exactly if a quantity can hold it,
otherwise rounded. -/
def IsUnitCost (q : Dec) (amount cost : Amount) : Prop :=
  (amount.qty.val = 0 → q.val = |cost.qty.val|) ∧
  (amount.qty.val ≠ 0 → PreciseTo q |cost.qty.val / amount.qty.val| ∧
    (Representable (cost.qty.val / amount.qty.val) → q.val = |cost.qty.val / amount.qty.val|))

/-- The prices that the costs of a transaction's postings stand for: one recording per posting with a cost, in order,
at midnight of the transaction's date; nothing for a posting without cost or with a per-unit cost of zero. -/
inductive PricesOf (date : Option Date) : List Post → List Recording → Prop
  | nil : PricesOf date [] []
  | noCost {p : Post} {ps : List Post} {rs : List Recording} (hc : p.cost = none) (h : PricesOf date ps rs) :
      PricesOf date (p :: ps) rs
  | zero {p : Post} {ps : List Post} {rs : List Recording} {a c : Amount} {q : Dec} (ha : p.amount = some a)
      (hc : p.cost = some c) (hne : a.comm ≠ c.comm) (hq : IsUnitCost q a c) (h0 : q.val = 0) (h : PricesOf date ps rs) :
      PricesOf date (p :: ps) rs
  | price {p : Post} {ps : List Post} {rs : List Recording} {a c : Amount} {q : Dec} {A B : Str} {d : Date}
      (ha : p.amount = some a) (hc : p.cost = some c) (hA : a.comm = some A) (hB : c.comm = some B) (hne : A ≠ B)
      (hd : date = some d) (hq : IsUnitCost q a c) (h0 : q.val ≠ 0) (h : PricesOf date ps rs) :
      PricesOf date (p :: ps) (⟨A, B, ⟨d, Time.midnight⟩, q⟩ :: rs)

/-- A list of recordings as pool operations. -/
def Recording.op (r : Recording) : PoolOp := .addPrice r.src r.time ⟨r.qty, some r.dst⟩

end Ledger
