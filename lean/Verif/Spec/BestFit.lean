import Verif.Spec.Value
import Mathlib.Algebra.Ring.Parity
import Mathlib.Algebra.Order.Field.Rat
/-
The number that a quantity can hold in place of an exact result.
-/
namespace Ledger

/-- The integer nearest to a number; halfway between two integers, the even one. -/
def NearestEven (x : ℚ) (z : ℤ) : Prop := |x - z| ≤ 1 / 2 ∧ (|x - z| = 1 / 2 → Even z)

/-- `v` is `x` rounded to the largest number of decimals, at most 28, with which its digits have room in 96 bits. -/
def BestFit (x v : ℚ) : Prop :=
  ∃ (S : Nat) (z : ℤ), S ≤ 28 ∧ NearestEven (x * 10 ^ S) z ∧ |z| < 2 ^ 96 ∧ v = z / 10 ^ S ∧
    ∀ S' z', S < S' → S' ≤ 28 → NearestEven (x * 10 ^ S') z' → 2 ^ 96 ≤ |z'|

end Ledger
