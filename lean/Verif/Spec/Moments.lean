import Verif.Spec.Found
import Verif.Spec.Rate
/-
When things in a text happen, and what a pool says about prices.
-/
namespace Ledger

/-- The moment of a thing in a text: midnight at the beginning of the day of a transaction; the date and time of a price line. -/
def Item.moment : Item → Option DateTime
  | .xact w => some ⟨w.date, Time.midnight⟩
  | .price r => some r.time
  | .gap => none

/-- The two texts say the same of each moment, in the same order; what belongs to different moments may come in any order. -/
def SameMoments (is is' : List Item) : Prop :=
  ∀ t, is.filter (fun i => i.moment = some t) = is'.filter (fun i => i.moment = some t)

/-- The direct price of `A` in `B` in a pool; none if one of them is not known. -/
def directIn (p : Pool) (A B : Str) : Option (DateTime × Dec) :=
  match p.findIndex A, p.findIndex B with
  | .ok i, .ok k => p.history.getDirectPrice i k
  | _, _ => none

/-- A chain of commodities each of which has a direct price in the next. -/
def LinkedIn (p : Pool) : List Str → Prop
  | [] => False
  | [_] => True
  | A :: B :: rest => (directIn p A B).isSome ∧ LinkedIn p (B :: rest)

/-- A chain from `A` to `B` with no shorter one. -/
def ShortestIn (p : Pool) (A B : Str) (cs : List Str) : Prop :=
  (LinkedIn p cs ∧ cs.head? = some A ∧ cs.getLast? = some B) ∧
    ∀ cs', LinkedIn p cs' → cs'.head? = some A → cs'.getLast? = some B → cs.length ≤ cs'.length

end Ledger
