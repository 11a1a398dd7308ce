import Verif.Spec.Written
import Verif.Model.Journal
/-
Transactions the other way round.
-/
namespace Ledger

/-- The same digits and decimals with the other sign; a zero may have either sign. -/
def Dec.Opposite (a b : Dec) : Prop := b.mant = a.mant ∧ b.scale = a.scale ∧ (a.mant = 0 ∨ b.neg = !a.neg)

/-- The same commodity and the opposite quantity. -/
def Amount.Opposite (a b : Amount) : Prop := a.qty.Opposite b.qty ∧ b.comm = a.comm

/-- An amount with the other sign. -/
def Amount.turned (a : Amount) : Amount := ⟨⟨!a.qty.neg, a.qty.mant, a.qty.scale⟩, a.comm⟩

/-- A posting with the other sign: what was bought is sold.  The price per unit stays, the cost of the whole has the other sign. -/
def Entry.turned (e : Entry) : Entry :=
  { e with amount := e.amount.map Amount.turned
           cost := e.cost.map (fun c => (c.1, if c.1 then c.2 else c.2.turned)) }

/-- A transaction with all signs the other way round. -/
def Writing.turned (w : Writing) : Writing := { w with entries := w.entries.map Entry.turned }

/-- No posting is left blank. -/
def Writing.Full (w : Writing) : Prop := ∀ e ∈ w.entries, e.amount ≠ none

/-- Opposite postings, both with an amount. -/
structure Post.Opposite (p p' : Post) : Prop where
  account : p'.account = p.account
  amount : ∃ a a', p.amount = some a ∧ p'.amount = some a' ∧ a.Opposite a'
  cost : (p.cost = none ∧ p'.cost = none) ∨ ∃ c c', p.cost = some c ∧ p'.cost = some c' ∧ c.Opposite c'

/-- Opposite transactions of the same day. -/
def Xact.Opposite (x x' : Xact) : Prop := List.Forall₂ Post.Opposite x.posts x'.posts ∧ x'.date = x.date

/-- Journals with the same accounts, commodities, prices and lots whose transactions are opposite. -/
structure OppositeBooks (j j' : Journal) : Prop where
  master : j'.master = j.master
  xacts : List.Forall₂ Xact.Opposite j.xacts j'.xacts
  pool : j'.pool = j.pool

/-- Three lists of the same length whose elements are related one by one. -/
inductive Three {α β γ : Type} (R : α → β → γ → Prop) : List α → List β → List γ → Prop
  | nil : Three R [] [] []
  | cons {a : α} {b : β} {c : γ} {as : List α} {bs : List β} {cs : List γ} (h : R a b c) (t : Three R as bs cs) :
    Three R (a :: as) (b :: bs) (c :: cs)

/-- The postings with a written amount are opposite; the blank one has the same amount in both, and it is not above zero. -/
def Post.Turned (blank : Bool) (p p' : Post) : Prop :=
  if blank then p'.account = p.account ∧ p.cost = none ∧ p'.cost = none ∧
    ∃ a, p.amount = some a ∧ p'.amount = some a ∧ a.qty.neg = true
  else p.Opposite p'

def Xact.Turned (blanks : List Bool) (x x' : Xact) : Prop := Three Post.Turned blanks x.posts x'.posts ∧ x'.date = x.date

/-- Journals with the same accounts, commodities, prices and lots whose transactions are opposite but for the blank postings,
which are marked. -/
structure TurnedBooks (blanks : List (List Bool)) (j j' : Journal) : Prop where
  master : j'.master = j.master
  xacts : Three Xact.Turned blanks j.xacts j'.xacts
  pool : j'.pool = j.pool

/-- Which postings are blank. -/
def Writing.blanks (w : Writing) : List Bool := w.entries.map (fun e => e.amount.isNone)

end Ledger
