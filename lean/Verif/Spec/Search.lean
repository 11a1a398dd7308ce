import Verif.Spec.Prices
/-
The contract assumed of petgraph's `astar` with unit edge costs and zero estimate.
-/
namespace Ledger

/-- A walk along edges, given by its nodes. -/
inductive Walk (E : Nat → Nat → Prop) : Nat → Nat → List Nat → Prop
  | here (i : Nat) : Walk E i i [i]
  | step {i j k : Nat} {l : List Nat} : E i j → Walk E j k l → Walk E i k (i :: l)

/-- The graph has an edge. -/
def History.HasEdge (h : History) (i j : Nat) : Prop := ∃ e ∈ h.edges, e.src = i ∧ e.dst = j

/-- The search finds a walk if there is one, with the fewest hops, and returns its number of hops. -/
def History.IsShortest (search : History.Search) : Prop :=
  ∀ h i j,
    (search h i j = none → ∀ l, ¬ Walk h.HasEdge i j l) ∧
    (∀ n l, search h i j = some (n, l) →
      Walk h.HasEdge i j l ∧ l.length = n + 1 ∧ ∀ l', Walk h.HasEdge i j l' → l.length ≤ l'.length)

/-- The legs of a chain of commodities: for each step the latest price. -/
inductive Legs (recs : List Recording) : List Str → List (DateTime × Dec) → Prop
  | nil (A : Str) : Legs recs [A] []
  | cons {A B : Str} {rest : List Str} {t : DateTime} {q : Dec} {ls : List (DateTime × Dec)} :
      IsLatest recs A B t q → Legs recs (B :: rest) ls → Legs recs (A :: B :: rest) ((t, q) :: ls)

end Ledger
