import Verif.Spec.Totals
/-
How far a computed sum may be off, independent of how it is computed.
-/
namespace Ledger

/-- The sum of the absolute values of the amounts in one commodity. -/
def sizeIn (c : Option Str) : List Amount → ℚ
  | [] => 0
  | a :: as => |a.valIn c| + sizeIn c as

/-- The part of the absolute values that `n` roundings can make up, each of one part in `10^28`. -/
def slack (n : Nat) : ℚ := (1 + 1 / 10 ^ 28) ^ n - 1

/-- The balance holds, for every commodity, the sum of the amounts up to `n` roundings. -/
def Balance.Approximates (b : Balance) (n : Nat) (as : List Amount) : Prop :=
  ∀ c, |b.totalIn c - sumIn c as| ≤ slack n * sizeIn c as

end Ledger
