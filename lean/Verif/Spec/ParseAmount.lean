import Verif.Model.Pool
/-
Specification for C116: registering a commodity.
-/
namespace Ledger

/-- A commodity is registered: the known ones are as before, this one is known, with the next free number, and nothing
else is; prices and lots are as before.  Without a symbol nothing happens. -/
def Registers (p : Pool) (s : Str) (p' : Pool) : Prop :=
  p'.annotated = p.annotated ∧ p'.history.edges = p.history.edges ∧ (s = [] → p' = p) ∧ ((p.find s).isSome → p' = p) ∧
    ∀ t, p'.find t = if s ≠ [] ∧ t = s ∧ p.find s = none then some ⟨s, p.history.nodes.length, false⟩ else p.find t

end Ledger
