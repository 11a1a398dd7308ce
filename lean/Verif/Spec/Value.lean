import Verif.Model.Amount
import Mathlib.Data.Rat.Defs
import Mathlib.Algebra.Order.Field.Rat
/-
What the numbers mean: the rational number denoted by a quantity, independent of the arithmetic of the model.
-/
namespace Ledger

/-- Signed mantissa. -/
def Dec.signed (d : Dec) : Int := if d.neg then -(d.mant : Int) else d.mant

/-- The rational number denoted by a quantity. -/
def Dec.val (d : Dec) : ℚ := (d.signed : ℚ) / 10 ^ d.scale

/-- A rational number is representable if some quantity with a 96-bit mantissa and at most 28 decimals denotes
it. -/
def Representable (x : ℚ) : Prop := ∃ d : Dec, d.Valid ∧ d.val = x

/-- The integer nearest to `x` has at most 96 bits: `|x| < 2^96 - 1/2`. -/
def Moderate (x : ℚ) : Prop := 2 * |x| < 2 ^ 97 - 1

/-- `r` is `x` rounded to `S` decimals, with all 28 of them or as many as a 96-bit mantissa has room for, unless `r` is
exactly `x`. -/
def PreciseTo (r : Dec) (x : ℚ) : Prop :=
  ∃ S, r.scale ≤ S ∧ S ≤ 28 ∧ |r.val - x| ≤ 1 / 2 / 10 ^ S ∧
    (r.val = x ∨ S = 28 ∨ ¬ Moderate (x * 10 ^ (S + 1)))

/-- The meaning of an amount for a commodity: its value if it is in that commodity, else zero. -/
def Amount.valIn (c : Option Str) (a : Amount) : ℚ := if a.comm = c then a.qty.val else 0

/-- The sum of a list of amounts in one commodity. -/
def sumIn (c : Option Str) : List Amount → ℚ
  | [] => 0
  | a :: as => a.valIn c + sumIn c as

/-- The total a balance holds in a commodity. -/
def Balance.totalIn (b : Balance) (c : Option Str) : ℚ := sumIn c b.amounts

/-- A balance has one entry per commodity. -/
def Balance.OneEach (b : Balance) : Prop := (b.amounts.map (·.comm)).Nodup

end Ledger

namespace Ledger

/-- Sum of the absolute values of a list of amounts, over all commodities. -/
def mass : List Amount → ℚ
  | [] => 0
  | a :: as => |a.qty.val| + mass as

/-- "Within the decimal range": the amounts are quantities of at most `S ≤ 28` decimals and the sum of their
absolute values, written with `S` decimals, fits in 96 bits.  (With two decimals that is a sum of absolute values
below 7.9·10^26.) -/
def InRange (as : List Amount) : Prop :=
  ∃ S ≤ 28, (∀ a ∈ as, a.qty.Valid ∧ a.qty.scale ≤ S) ∧ mass as * 10 ^ S < 2 ^ 96

end Ledger
