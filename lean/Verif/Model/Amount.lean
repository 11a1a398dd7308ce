import Verif.Model.Quantity
/-
`Amount` (src/amount.rs:14-200).
-/
namespace Ledger

/-- amount.rs:14-18.  The commodity pointer is modelled by the symbol of the commodity it points to; `none` is
the null pointer. -/
structure Amount where
  qty : Dec
  comm : Option Str
deriving DecidableEq, Repr

namespace Amount

/-- amount.rs:32-36 -/
def abs (a : Amount) : Amount := { a with qty := a.qty.setSignPositive }

/-- amount.rs:45-50 -/
def null : Amount := ⟨Dec.zero, none⟩

/-- amount.rs:52-63 `Amount::add` -/
def add (a b : Amount) : Res Amount :=
  if a.comm ≠ b.comm then .error .differentCommodities
  else if b.qty.isZero then .ok a
  else do let q ← a.qty.add b.qty; .ok { a with qty := q }

/-- amount.rs:76-86 `Amount::inverse`.  Note that the quantity of a negative amount is returned unchanged. -/
def inverse (a : Amount) : Amount :=
  ⟨if a.qty.isSignPositive then a.qty.setSignNegative else a.qty, a.comm⟩

/-- amount.rs:89-95 `Amount::invert` -/
def invert (a : Amount) : Amount :=
  if a.qty.isSignPositive then { a with qty := a.qty.setSignNegative }
  else { a with qty := a.qty.setSignPositive }

/-- amount.rs:99-105 -/
def isNull (a : Amount) : Bool := if a.qty.isZero then a.comm.isNone else false

/-- amount.rs:107-109 -/
def isZero (a : Amount) : Bool := a.qty.isZero

/-- amount.rs:111-113 -/
def removeCommodity (a : Amount) : Amount := { a with comm := none }

/-- amount.rs:116-128 `+` -/
def addOp (a b : Amount) : Res Amount :=
  if a.comm ≠ b.comm then .error .differentCommodities
  else do let q ← a.qty.add b.qty; .ok ⟨q, a.comm⟩

/-- amount.rs:130-138 `+=` -/
def addAssign (a b : Amount) : Res Amount :=
  if a.comm ≠ b.comm then .error .differentCommodities
  else do let q ← a.qty.add b.qty; .ok { a with qty := q }

/-- amount.rs:140-156 `/` -/
def div (a b : Amount) : Res Amount := do
  let q ← a.qty.div b.qty
  .ok ⟨q, if a.comm = none then b.comm else a.comm⟩

/-- amount.rs:158-172 `*` -/
def mul (a b : Amount) : Res Amount := do
  let q ← a.qty.mul b.qty
  .ok ⟨q, if a.comm = none then b.comm else a.comm⟩

/-- amount.rs:180-188 `-=` -/
def subAssign (a b : Amount) : Res Amount :=
  if a.comm ≠ b.comm then .error .differentCommodities
  else do let q ← a.qty.sub b.qty; .ok { a with qty := q }

/-- amount.rs:190-200 `*=` -/
def mulAssign (a b : Amount) : Res Amount := do
  let q ← a.qty.mul b.qty
  .ok ⟨q, if a.comm = none ∧ b.comm ≠ none then b.comm else a.comm⟩

/-- amount.rs:174-178 `From<i32>` -/
def ofI32 (v : Int) : Amount := ⟨Dec.ofI32 v, none⟩

end Amount

/-- balance.rs:13-23 (`Balance::amounts`): the amounts in the order of the vector. -/
structure Balance where
  amounts : List Amount
deriving DecidableEq, Repr

namespace Balance

/-- balance.rs:26-35 -/
def empty : Balance := ⟨[]⟩

/-- balance.rs:40-57: the search over `amounts` and the update of the first entry found.  Commodities are
compared by `get_commodity() == get_commodity()`, equality of the commodities pointed to; with one commodity per
symbol in the pool this is equality of symbols (see `Model/Memory.lean` for commodities outside the pool). -/
def addGo : List Amount → Amount → Res (List Amount)
  | [], a => .ok [a]
  | x :: xs, a =>
    if x.comm = a.comm then do let x' ← x.add a; .ok (x' :: xs)
    else do let xs' ← addGo xs a; .ok (x :: xs')

/-- balance.rs:40-57 `Balance::add`, balance.rs:79-83 `+= Amount` -/
def add (b : Balance) (a : Amount) : Res Balance := do
  let l ← addGo b.amounts a; .ok ⟨l⟩

/-- balance.rs:60-77: search and update for `-=`. -/
def subGo : List Amount → Amount → Res (List Amount)
  | [], a => .ok [a.inverse]
  | x :: xs, a =>
    if x.comm = a.comm then do let x' ← x.subAssign a; .ok (x' :: xs)
    else do let xs' ← subGo xs a; .ok (x :: xs')

/-- balance.rs:60-77 `-= Amount` -/
def subAssign (b : Balance) (a : Amount) : Res Balance := do
  let l ← subGo b.amounts a; .ok ⟨l⟩

/-- Adding a list of amounts one after the other (the `for` loops over amounts). -/
def addAll : Balance → List Amount → Res Balance
  | b, [] => .ok b
  | b, a :: as => do let b' ← b.add a; b'.addAll as

/-- balance.rs:85-91 `+= Balance` -/
def addBalance (b other : Balance) : Res Balance := b.addAll other.amounts

end Balance
end Ledger
