import Verif.Model.Heap
/-
Histories of the account tree in memory, and names of accounts.
-/
namespace Ledger
namespace Heap

/-- What happens to the account tree in memory: names are registered, postings are pushed, full names are asked for. -/
inductive Later (s0 : State) : State → Prop
  | refl : Later s0 s0
  | register {s s' : State} {r : Option Nat} (n : Str) (h : Later s0 s) (hr : s.register n = .ok (s', r)) : Later s0 s'
  | push {s : State} (a : Nat) (r : PostRef) (h : Later s0 s) : Later s0 (s.push a r)
  | fullname {s s' : State} {p : Path} {x : Node} {text : Str} (h : Later s0 s) (hx : s.master.at? p = some x)
      (hr : s.fullname x.addr = .ok (s', text)) : Later s0 s'

/-- The account trees in memory a program can have. -/
def Reach (s : State) : Prop := Later State.new s

/-- The name of the account at a path: the names joined with colons, empty names above the account left out. -/
def joined (p : Path) : Str :=
  match p.getLast? with
  | none => []
  | some n => List.intercalate [':'] (p.dropLast.filter (· ≠ []) ++ [n])

/-- Every account that is at least two levels above the account at the path has at most three children. -/
def NarrowAbove (a : Account) (p : Path) : Prop :=
  ∀ q x, q <+: p → q.length + 2 ≤ p.length → a.at? q = some x → x.children.length ≤ 3

/-- Every account with grandchildren has at most three children. -/
def Narrow (a : Account) : Prop :=
  ∀ q x, a.at? q = some x → (∃ y ∈ x.children, y.children ≠ []) → x.children.length ≤ 3

end Heap
end Ledger
