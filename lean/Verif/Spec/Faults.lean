import Verif.Spec.Written
import Verif.Spec.Accept
/-
Which written transactions are refused, and what is made of the others.
-/
namespace Ledger

/-- A transaction implies a rate between two commodities: no posting is blank, everything counts in these two
commodities and neither sums to zero.  `A` is the one to get costs: the commodity that the first posting counts in, if it
counts in the commodity of its amount, and the other one if not. -/
def ImpliedBy (w : Writing) (A B : Option Str) : Prop :=
  (∀ e ∈ w.entries, e.amount ≠ none) ∧ A ≠ B ∧ (∀ e ∈ w.entries, e.worthIn = A ∨ e.worthIn = B) ∧
  entriesSum w.entries A ≠ 0 ∧ entriesSum w.entries B ≠ 0 ∧
  ∃ e, w.entries.head? = some e ∧ (e.worthIn = A ↔ e.commodity = e.worthIn)

/-- The cost of this posting is no price: the amount has no commodity or the same as the cost, or the cost is a number
without commodity other than (nearly) zero. -/
def Entry.Priceless (e : Entry) (a : Amount) : Prop :=
  a.comm = none ∨ a.comm = e.worthIn ∨ (e.worthIn = none ∧
    ¬ ((a.qty.val = 0 → e.worth = 0) ∧ (a.qty.val ≠ 0 → |e.worth / a.qty.val| ≤ 1 / 2 / 10 ^ 28)))

/-- What can be wrong with a written transaction. -/
inductive Faulty (w : Writing) : Prop
  /-- it has a single posting -/
  | single (h : w.entries.length = 1)
  /-- two postings are blank -/
  | blanks (l m r : List Entry) (e f : Entry) (h : w.entries = l ++ e :: m ++ f :: r) (he : e.amount = none)
      (hf : f.amount = none)
  /-- a posting is blank beside two commodities -/
  | mixed (e p q : Entry) (he : e ∈ w.entries) (hp : p ∈ w.entries) (hq : q ∈ w.entries) (hb : e.amount = none)
      (hpa : p.amount ≠ none) (hqa : q.amount ≠ none) (hne : p.worthIn ≠ q.worthIn)
  /-- a written cost is no price, and is not replaced by an implied one -/
  | cost (e : Entry) (a : Amount) (he : e ∈ w.entries) (ha : e.amount = some a) (hc : e.cost ≠ none)
      (hbad : e.Priceless a) (hkeep : ∀ B, ¬ ImpliedBy w a.comm B)
  /-- a rate is implied where there is no commodity -/
  | rate (A B : Option Str) (h : ImpliedBy w A B) (e : Entry) (a : Amount) (he : e ∈ w.entries) (ha : e.amount = some a)
      (hac : a.comm = A) (hbad : A = none ∨ B = none)

/-- The amount of a posting and its cost, if it has one, both counted positive. -/
def Entry.size (e : Entry) : ℚ :=
  match e.amount, e.cost with
  | none, _ => 0
  | some a, none => |a.qty.val|
  | some a, some _ => |a.qty.val| + |e.worth|

/-- At most `D` decimals, also in products. -/
def Entry.UpTo (D : Nat) (e : Entry) : Prop := (∀ a, e.amount = some a → a.qty.scale ≤ D) ∧ e.worthDecimals ≤ D

/-- There are no costs, neither written nor implied. -/
def Writing.Costless (w : Writing) : Prop := (∀ e ∈ w.entries, e.cost = none) ∧ ∀ A B, ¬ ImpliedBy w A B

/-- Numbers of everyday size: at most `D` decimals, also in products, and at most `10 ^ T` in all, with `D + 2 * T ≤ 27`; at
most a billion postings, lot prices of at most 10^15.  So these may be two decimals and a million million, nine decimals and a
billion, or seventeen decimals and a hundred thousand.  Without costs `D + T ≤ 28` suffices, so that it may be eighteen
decimals and ten billion. -/
structure Everyday (w : Writing) : Prop where
  numbers : ∃ D T : Nat, (D + 2 * T ≤ 27 ∨ (D + T ≤ 28 ∧ w.Costless)) ∧ (∀ e ∈ w.entries, e.UpTo D) ∧ (w.entries.map (·.size)).sum ≤ 10 ^ T
  count : w.entries.length ≤ 10 ^ 9
  lots : ∀ e ∈ w.entries, ∀ pr, e.lot.price = some pr → |pr.qty.val| ≤ 10 ^ 15

/-- There is room to add everything up: with at most `D` decimals it is at most `10 ^ (28 - D)` in all. -/
def Roomy (es : List Entry) : Prop := ∃ D : Nat, D ≤ 28 ∧ (∀ e ∈ es, e.UpTo D) ∧ (es.map (·.size)).sum * 10 ^ D ≤ 10 ^ 28

/-- The posting with its cost at a rate, if it is in the commodity `A`; the cost is rounded. -/
def CostedEntry (A B : Option Str) (rate : ℚ) (e e' : Entry) : Prop :=
  (e.commodity = A ∧ ∃ a k, e.amount = some a ∧ k.comm = B ∧ PreciseTo k.qty (rate * a.qty.val) ∧
    e' = { e with cost := some (false, k) }) ∨ (e.commodity ≠ A ∧ e' = e)

/-- What a posting adds to the balance of its transaction (`Entry.worth`), digit by digit. -/
def Entry.figure (e : Entry) : Option Amount :=
  match e.amount, e.cost with
  | none, _ => none
  | some a, none => some a
  | some _, some (false, k) => some k
  | some a, some (true, k) => some ⟨k.qty.times a.qty, k.comm.or a.comm⟩

/-- What a blank posting gets beside these postings: the first of the sums, with a minus sign. -/
def fillOf (es : List Entry) : Option Amount :=
  (tally (es.filterMap (·.figure))).head?.map (fun a => ⟨⟨true, a.qty.mant, a.qty.scale⟩, a.comm⟩)

/-- What a transaction books: the written amounts, and for a blank posting what it gets. -/
def Writing.bookings (w : Writing) : Bookings :=
  w.entries.filterMap (fun e => (e.amount.or (fillOf w.entries)).map (fun a => (pathOf e.account, a)))

/-- What is made of a transaction that is accepted. -/
inductive Settles (w : Writing) : Writing → Prop
  /-- nothing is missing and no rate is implied: it is kept, whether it balances or not -/
  | kept (ha : ∀ e ∈ w.entries, e.amount ≠ none) (hn : ∀ A B, ¬ ImpliedBy w A B) : Settles w w
  /-- a blank posting gets the sum of the others with a minus sign, whatever the sign of the sum; it has no more decimals
  than they have, and is the sum digit by digit where the products have room -/
  | filled (l r : List Entry) (e : Entry) (a : Amount) (h : w.entries = l ++ e :: r) (he : e.amount = none)
      (hq : ∀ q ∈ l ++ r, q.amount ≠ none ∧ q.worthIn = a.comm) (ha : a.qty.val = - |entriesSum (l ++ r) a.comm|)
      (hd : a.qty.Valid ∧ ∀ S, (∀ q ∈ l ++ r, q.worthDecimals ≤ S) → a.qty.scale ≤ S)
      (hx : (∀ q ∈ l ++ r, ∀ f, q.figure = some f → f.qty.Valid) → fillOf (l ++ r) = some a) :
      Settles w { w with entries := l ++ { e with amount := some a } :: r }
  /-- the postings in one of two commodities get costs, at the rounded quotient of the sums -/
  | rated (A B : Option Str) (u : Dec) (es : List Entry) (h : ImpliedBy w A B)
      (hu : PreciseTo u (entriesSum w.entries B / entriesSum w.entries A))
      (hes : List.Forall₂ (CostedEntry A B |u.val|) w.entries es) : Settles w { w with entries := es }

/-- The lot of the first posting in a commodity. -/
def firstLot (es : List Entry) (s : Str) : Option Annotation := (es.find? (fun e => e.holder = some s)).map (·.lot)

/-- `q` is the price per unit: exactly if a quantity can hold it, otherwise rounded. -/
def UnitPrice (q : Dec) (amount worth : ℚ) : Prop :=
  (amount = 0 → q.val = |worth|) ∧
  (amount ≠ 0 → PreciseTo q |worth / amount| ∧ (Representable (worth / amount) → q.val = |worth / amount|))

/-- The prices that the costs of postings on a date stand for: one for each posting with a cost, in order, at midnight;
nothing for a posting without cost or with a price of zero. -/
inductive EntryPrices (d : Date) : List Entry → List Recording → Prop
  | nil : EntryPrices d [] []
  | noCost {e : Entry} {es : List Entry} {rs : List Recording} (hc : e.cost = none) (h : EntryPrices d es rs) :
      EntryPrices d (e :: es) rs
  | zero {e : Entry} {es : List Entry} {rs : List Recording} {a : Amount} {q : Dec} (ha : e.amount = some a)
      (hc : e.cost ≠ none) (hne : a.comm ≠ e.worthIn) (hq : UnitPrice q a.qty.val e.worth) (h0 : q.val = 0)
      (h : EntryPrices d es rs) : EntryPrices d (e :: es) rs
  | price {e : Entry} {es : List Entry} {rs : List Recording} {a : Amount} {q : Dec} {A B : Str} (ha : e.amount = some a)
      (hc : e.cost ≠ none) (hA : a.comm = some A) (hB : e.worthIn = some B) (hne : A ≠ B)
      (hq : UnitPrice q a.qty.val e.worth) (h0 : q.val ≠ 0) (h : EntryPrices d es rs) :
      EntryPrices d (e :: es) (⟨A, B, ⟨d, Time.midnight⟩, q⟩ :: rs)

/-- What these transactions make of a journal: it gets the new transactions; the accounts and commodities they mention,
in addition to the ones it has; a lot for each commodity that had none; and the prices, in the order of the postings. -/
structure Outcome (ws ws' : List Writing) (rs : List Recording) (j j' : Journal) : Prop where
  settled : List.Forall₂ Settles ws ws'
  xacts : ∃ new, j'.xacts = j.xacts ++ new ∧ List.Forall₂ XactOf ws' new
  accounts : ∀ q, j'.master.Has q ↔ j.master.Has q ∨ ∃ e ∈ allEntries ws, q <+: pathOf e.account
  commodities : ∀ s, (j'.pool.find s).isSome ↔ (j.pool.find s).isSome ∨ ∃ e ∈ allEntries ws, e.Mentions s
  lots : ∀ s, assocGet s j'.pool.annotated = (assocGet s j.pool.annotated).or (firstLot (allEntries ws) s)
  prices : ∃ rss, List.Forall₂ (fun w r => EntryPrices w.date w.entries r) ws' rss ∧ rs = rss.flatten
  history : ∀ ops, runOps Pool.empty ops = .ok j.pool →
    ∃ ops', runOps Pool.empty ops' = .ok j'.pool ∧ recordings ops' = recordings ops ++ rs

end Ledger
