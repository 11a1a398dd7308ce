import Verif.Spec.Follows
/-
When the pointers that the program follows are up to date: the table of commodities has not moved since they were taken.
-/
namespace Ledger

/-- The commodities a posting mentions, in the order in which they are looked up: those of the amount, the lot price and the
cost. -/
def Entry.mentions (e : Entry) : List Str :=
  e.holder.toList ++ ((e.lot.price.bind (·.comm)).or e.strays.price).toList ++ ((e.cost.bind (·.2.comm)).or e.strays.cost).toList

def entryMentions (es : List Entry) : List Str := es.flatMap Entry.mentions

@[inherit_doc Entry.mentions]
def Item.mentions : Item → List Str
  | .xact w => entryMentions w.entries
  | .price r => [r.src, r.dst]
  | .gap => []

@[inherit_doc Entry.mentions]
def mentions (is : List Item) : List Str := is.flatMap Item.mentions

/-- The table of commodities moves between two moments: what was mentioned until the first fits into a table that what was
mentioned until the second does not fit into. -/
def Moves (before now : List Str) : Prop := Overfills (· ∈ before) (· ∈ now)

/-- A posting that has a cost in the end: a written one or one that its transaction implies. -/
def Costed (w : Writing) (e : Entry) : Prop := e.cost ≠ none ∨ ∃ A B, ImpliedBy w A B ∧ e.commodity = A

/-- What must not have happened while an item is read.  For a price: that the table moves when the second commodity is looked
up.  For a transaction: that it moves between the amount of a posting and the end; for a posting with a cost that it moves
between the very first mention of its commodity and the end. -/
def ItemFresh (M : List Str) : Item → Prop
  | .price r => ¬ Moves (M ++ [r.src]) (M ++ [r.src, r.dst])
  | .xact w =>
    (∀ l e r s, w.entries = l ++ e :: r → e.commodity = some s →
      ¬ Moves (M ++ entryMentions l ++ [s]) (M ++ entryMentions w.entries)) ∧
    (∀ e ∈ w.entries, ∀ s, e.commodity = some s → Costed w e →
      ∀ pre, pre <+: M ++ entryMentions w.entries → s ∈ pre → ¬ Moves pre (M ++ entryMentions w.entries))
  | .gap => True

/-- As `ItemFresh` for a transaction; and the table does not move between the cost of an amount without commodity and the end. -/
def XactFresh (M : List Str) (w : Writing) : Prop :=
  ItemFresh M (.xact w) ∧ ∀ l e r, w.entries = l ++ e :: r → e.commodity = none → e.cost ≠ none →
    ¬ Moves (M ++ entryMentions l ++ e.mentions) (M ++ entryMentions w.entries)

/-- Reading needs no pointer into a table that has moved. -/
def FreshReading (is : List Item) : Prop := ∀ is₁ i is₂, is = is₁ ++ i :: is₂ → ItemFresh (mentions is₁) i

/-- The table does not move between the amount of any posting and the end of all files. -/
def FreshReport (is : List Item) : Prop :=
  ∀ is₁ w is₂ l e r s, is = is₁ ++ .xact w :: is₂ → w.entries = l ++ e :: r → e.commodity = some s →
    ¬ Moves (mentions is₁ ++ entryMentions l ++ [s]) (mentions is)

/-- A vector of `n` elements is where its first element was put: the allocator extended it in place each time it was full. -/
def Remains (stays : Nat → Bool) (n : Nat) : Prop := ∀ i, 4 * 2 ^ i < n → stays (4 * 2 ^ i) = true

end Ledger
