import Verif.Model.Amount
/-
Comparison of quantities and amounts: the derived `PartialEq`, `Eq`, `PartialOrd` and `Ord` (src/amount.rs:14, 202).
-/
namespace Ledger

/-- `Ord` of `Quantity` (amount.rs:202 derive), which is `Ord` of `Decimal`: the numbers at a common scale. -/
def Dec.cmp (a b : Dec) : Ordering :=
  let ma : Int := (if a.neg then -(a.mant : Int) else a.mant) * 10 ^ b.scale
  let mb : Int := (if b.neg then -(b.mant : Int) else b.mant) * 10 ^ a.scale
  if ma < mb then .lt else if ma = mb then .eq else .gt

/-- `PartialEq` of `Amount` (amount.rs:14 derive): equal quantities and the same commodity pointer. -/
def Amount.equal (a b : Amount) : Bool := a.qty.numEq b.qty && a.comm == b.comm

end Ledger
