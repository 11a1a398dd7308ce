import Verif.Spec.Machine
/-
Texts that make the program follow a stale pointer.
-/
namespace Ledger

/-- A commodity that the items mention. -/
def Named (is : List Item) (c : Str) : Prop :=
  (∃ e ∈ allEntries (writings is), e.Mentions c) ∨ ∃ r, Item.price r ∈ is ∧ (c = r.src ∨ c = r.dst)

/-- The numbers of entries at which a table is full. -/
def Full (k : Nat) : Prop := k = 3 ∨ ∃ i, k = 7 * 2 ^ i

/-- The names with the first property fit into a table that those with the second do not fit into. -/
def Overfills (P Q : Str → Prop) : Prop := ∃ k, Full k ∧ AtMost k P ∧ ¬ AtMost k Q

/-- The accounts right below `q` that the paths lead to or through. -/
def Below (ps : List Path) (q : Path) (n : Str) : Prop := ∃ p ∈ ps, q ++ [n] <+: p

/-- The paths lead through an account `q ++ [n]` with something below it before they lead to more accounts next to it than fit
into the table it is in. -/
def Displaced (ps : List Path) : Prop :=
  ∃ ps₁ ps₂ q n m, ps = ps₁ ++ ps₂ ∧ (∃ p ∈ ps₁, q ++ [n, m] <+: p) ∧ Overfills (Below ps₁ q) (Below ps q)

/-- The posting is in a commodity. -/
def Entry.InCommodity (e : Entry) : Prop := ∃ a s, e.amount = some a ∧ a.comm = some s

end Ledger
