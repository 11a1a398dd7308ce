import Verif.Spec.Search
import Verif.Spec.Value
/-
The rate of a chain of prices.
-/
namespace Ledger

/-- The product of the prices of the legs. -/
def legsProduct : List (DateTime × Dec) → ℚ
  | [] => 1
  | (_, q) :: ls => q.val * legsProduct ls

/-- Every partial product, from the first leg on, is representable, so that no step of the multiplication rounds. -/
def StepsExact (x : ℚ) : List (DateTime × Dec) → Prop
  | [] => True
  | (_, q) :: ls => Representable (x * q.val) ∧ StepsExact (x * q.val) ls

/-- `y` comes from `x` by multiplying with the price of one leg after the other, each product being rounded where it has to
be, and only there. -/
inductive RoundedSteps : ℚ → List (DateTime × Dec) → ℚ → Prop
  | nil (x : ℚ) : RoundedSteps x [] x
  | cons {x y : ℚ} {t : DateTime} {q d : Dec} {ls : List (DateTime × Dec)} :
      PreciseTo d (x * q.val) → (Representable (x * q.val) → d.val = x * q.val) → RoundedSteps d.val ls y →
      RoundedSteps x ((t, q) :: ls) y

/-- A chain between two commodities with no shorter one. -/
def ShortestChain (recs : List Recording) (A B : Str) (cs : List Str) : Prop :=
  ChainFrom recs A B cs ∧ ∀ cs', ChainFrom recs A B cs' → cs.length ≤ cs'.length

/-- What a query for a price in `B` along these legs gives: the price of a single leg as it is; for more legs the prices
multiplied one after the other, each product rounded only where it has to be, or a panic for overflow where the next product
is too large. -/
def RateResult (B : Str) (legs : List (DateTime × Dec)) (result : Res (Option PricePoint)) : Prop :=
  (∃ t q, legs = [(t, q)] ∧ result = .ok (some ⟨t, ⟨q, some B⟩⟩)) ∨
  (2 ≤ legs.length ∧
    ((∃ t r, result = .ok (some ⟨t, ⟨r, some B⟩⟩) ∧ RoundedSteps 1 legs r.val) ∨
      (result = .error .decimalOverflow ∧ ∃ pre t q post x, legs = pre ++ (t, q) :: post ∧ RoundedSteps 1 pre x ∧
        ¬ Moderate (x * q.val))))

end Ledger
