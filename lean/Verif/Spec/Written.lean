import Verif.Spec.Posting
import Verif.Spec.NumberText
import Verif.Spec.Calendar
import Verif.Spec.Accounts
import Verif.Spec.Journal
import Verif.Spec.Text
import Verif.Spec.Xact
import Verif.Spec.Figures
import Verif.Spec.Reading
/-
What postings and transactions say, read off their texts, and what a journal should hold for them.  The definitions use
neither the scanner nor the parser of the model.
-/
namespace Ledger
open Ledger.Parser

/-- The commodity a symbol stands for: none if nothing is written. -/
def symbolOf (s : Str) : Option Str := if s = [] then none else some s

/-- The text is this amount. -/
def WrittenAmount (text : Str) (a : Amount) : Prop :=
  ∃ q s, AmountText text q s ∧ Numeral q a.qty ∧ a.comm = symbolOf s

/-- The text is a day. -/
def WrittenDay (text : Str) (d : Date) : Prop :=
  ∃ y m x, y ≤ 9999 ∧ CalendarDay y m x ∧ text = isoDate y m x ∧ d = ⟨y, m, x⟩

/-- The text is this lot: a price or none, a date or none. -/
def WrittenLot (text : Str) (lot : Annotation) : Prop :=
  ∃ q s d, LotText text q s d ∧
    ((q = [] ∧ lot.price = none) ∨ ∃ p, lot.price = some p ∧ Numeral q p.qty ∧ p.comm = symbolOf s) ∧
    ((d = [] ∧ lot.date = none) ∨ ∃ x, lot.date = some x ∧ WrittenDay d x)

/-- The text is this cost: nothing, or an amount per unit (`true`) or for the whole posting (`false`). -/
def WrittenCost (text : Str) (cost : Option (Bool × Amount)) : Prop :=
  ∃ q s u, CostText text q s u ∧
    ((q = [] ∧ cost = none) ∨ ∃ a, cost = some (u, a) ∧ Numeral q a.qty ∧ a.comm = symbolOf s)

/-- The symbols of a posting that stand beside something that is not a number, in the places of the amount, the lot
price and the cost. -/
structure Strays where
  amount : Option Str := none
  price : Option Str := none
  cost : Option Str := none
deriving DecidableEq

/-- What a posting says. -/
structure Entry where
  account : Str
  amount : Option Amount
  lot : Annotation
  cost : Option (Bool × Amount)
  /-- the texts of the comment lines after it -/
  comments : List Str
  strays : Strays
deriving DecidableEq

/-- What a number and a symbol say: an amount, or only a stray symbol if the number cannot be read. -/
def NumberSays (q s : Str) (a : Option Amount) (stray : Option Str) : Prop :=
  (∃ d, Numeral q d ∧ a = some ⟨d, symbolOf s⟩ ∧ stray = none) ∨
    ((∀ d, ¬ Numeral q d) ∧ a = none ∧ stray = symbolOf s)

/-- What the parts of a posting line say.  A cost counts only if there is an amount and something in the place of the
number of the cost. -/
structure PartsSay (t : Scanner.PostTokens) (e : Entry) : Prop where
  account : e.account = t.account
  amount : NumberSays t.quantity t.symbol e.amount e.strays.amount
  price : NumberSays t.priceQuantity t.priceCommodity e.lot.price e.strays.price
  date : (t.priceDate = [] ∧ e.lot.date = none) ∨ ∃ d, DayText t.priceDate d ∧ e.lot.date = some d
  cost : ((e.amount = none ∨ t.costQuantity = []) ∧ e.cost = none ∧ e.strays.cost = none) ∨
    (e.amount ≠ none ∧ t.costQuantity ≠ [] ∧
      ∃ k, NumberSays t.costQuantity t.costSymbol k e.strays.cost ∧ e.cost = k.map (t.isPerUnit, ·))
  comments : e.comments = []

/-- The text is this posting: it is not refused, and this is what its parts say. -/
def EntryText (text : Str) (e : Entry) : Prop := ∃ t, PostPart text (.ok t) ∧ PartsSay t e

/-- A posting line of a transaction: it is indented by a space. -/
def EntryLine (line : Str) (e : Entry) : Prop := ∃ text, line = ' ' :: text ∧ EntryText text e

/-- A posting line and the comment lines after it. -/
def EntryBlock (lines : List Str) (e : Entry) : Prop :=
  ∃ line cs, lines = line :: cs ∧ EntryLine line { e with comments := [] } ∧ List.Forall₂ CommentLine cs e.comments

/-- The cost of a whole posting, from the amount and the written cost: a per-unit cost is multiplied with the amount,
exactly and without more decimals than both have together; digit by digit where a quantity has room for all of them. -/
def CostOf (a : Amount) : Option (Bool × Amount) → Option Amount → Prop
  | none, c => c = none
  | some (false, k), c => c = some k
  | some (true, k), c => ∃ r, c = some r ∧ r.qty.val = k.qty.val * a.qty.val ∧ r.comm = k.comm.or a.comm ∧
      r.qty.Valid ∧ r.qty.scale ≤ k.qty.scale + a.qty.scale ∧ ((k.qty.times a.qty).Valid → r.qty = k.qty.times a.qty)

/-- The cost of a whole posting where the product need not be representable: it is rounded to 28 decimals, or to as many
as there is room for. -/
def CostTaken (a : Amount) : Option (Bool × Amount) → Option Amount → Prop
  | none, c => c = none
  | some (false, k), c => c = some k
  | some (true, k), c => ∃ r, c = some r ∧ PreciseTo r.qty (k.qty.val * a.qty.val) ∧ r.comm = k.comm.or a.comm

/-- The posting a journal should hold for what is written; of several comments the last is kept. -/
structure PostOf (e : Entry) (p : Post) : Prop where
  account : p.account = pathOf e.account
  amount : p.amount = e.amount
  cost : (e.amount = none ∧ p.cost = none) ∨ ∃ a, e.amount = some a ∧ CostOf a e.cost p.cost
  note : p.note = lastText e.comments

/-- The product of a per-unit cost and the amount can be represented. -/
def Entry.Fits (e : Entry) : Prop :=
  ∀ a k, e.amount = some a → e.cost = some (true, k) → Representable (k.qty.val * a.qty.val)

/-- The commodity of a posting's amount. -/
def Entry.commodity (e : Entry) : Option Str := e.amount.bind (·.comm)

/-- The commodity a posting's lot is stored for. -/
def Entry.holder (e : Entry) : Option Str := e.commodity.or e.strays.amount

/-- The commodities a posting mentions. -/
def Entry.Mentions (e : Entry) (s : Str) : Prop :=
  e.holder = some s ∨ ((∃ p, e.lot.price = some p ∧ p.comm = some s) ∨ e.strays.price = some s) ∨
    (∃ u k, e.cost = some (u, k) ∧ k.comm = some s) ∨ e.strays.cost = some s

/-- What a posting does to the commodity pool: its commodities are known, its lot is stored for its commodity if none
was stored before, and nothing else changes. -/
structure PoolAfter (e : Entry) (p p' : Pool) : Prop where
  known : ∀ s, (p'.find s).isSome ↔ (p.find s).isSome ∨ e.Mentions s
  lots : ∀ s, assocGet s p'.annotated =
    if e.holder = some s ∧ assocGet s p.annotated = none then some e.lot
    else assocGet s p.annotated
  edges : p'.history.edges = p.history.edges

/-- What a posting adds to the balance of its transaction: its cost if it has one, otherwise its amount; the value, the
commodity and the number of decimals. -/
def Entry.worth (e : Entry) : ℚ :=
  match e.amount, e.cost with
  | none, _ => 0
  | some a, none => a.qty.val
  | some _, some (false, k) => k.qty.val
  | some a, some (true, k) => k.qty.val * a.qty.val

@[inherit_doc Entry.worth]
def Entry.worthIn (e : Entry) : Option Str :=
  match e.amount, e.cost with
  | none, _ => none
  | some a, none => a.comm
  | some _, some (false, k) => k.comm
  | some a, some (true, k) => k.comm.or a.comm

@[inherit_doc Entry.worth]
def Entry.worthDecimals (e : Entry) : Nat :=
  match e.amount, e.cost with
  | none, _ => 0
  | some a, none => a.qty.scale
  | some _, some (false, k) => k.qty.scale
  | some a, some (true, k) => k.qty.scale + a.qty.scale

/-- The sum of the postings in a commodity. -/
def entriesSum (es : List Entry) (c : Option Str) : ℚ := (es.map (fun e => if e.worthIn = c then e.worth else 0)).sum

/-- The postings sum to zero in every commodity. -/
def EntriesBalance (es : List Entry) : Prop := ∀ c, entriesSum es c = 0

/-- The sums stay within what quantities can represent. -/
def EntriesInRange (es : List Entry) : Prop :=
  ∃ S ≤ 28, (∀ e ∈ es, e.worthDecimals ≤ S) ∧ (es.map (fun e => |e.worth|)).sum * 10 ^ S < 2 ^ 96

/-- The costs of a posting are usable beside the lots: the cost is in another commodity than the amount, and the price
per unit and the basis costs can be represented. -/
def Entry.CostFits (lots : Str → Annotation → Prop) (e : Entry) : Prop :=
  ∀ a u k, e.amount = some a → e.cost = some (u, k) → ∃ A B, a.comm = some A ∧ k.comm = some B ∧ A ≠ B ∧
    (a.qty.val ≠ 0 → Representable (e.worth / a.qty.val)) ∧
    ∀ lot pr, lots A lot → lot.price = some pr → Representable (pr.qty.val * a.qty.val)

/-- What a transaction says. -/
structure Writing where
  date : Date
  aux : Option Date
  payee : Str
  note : Str
  /-- the texts of the comment lines under the header -/
  comments : List Str
  entries : List Entry
deriving DecidableEq

/-- The line is the header of this transaction. -/
def HeaderSays (line : Str) (w : Writing) : Prop :=
  HeaderLine line ∧ ∃ d a, HeaderPart line d a w.payee w.note ∧ DayText d w.date ∧
    ((a = [] ∧ w.aux = none) ∨ ∃ x, w.aux = some x ∧ DayText a x)

/-- The lines are this transaction: a header and a line for each posting, with comment lines after them. -/
def XactLines (lines : List Str) (w : Writing) : Prop :=
  ∃ header cs blocks, lines = header :: (cs ++ blocks.flatten) ∧ HeaderSays header w ∧
    List.Forall₂ CommentLine cs w.comments ∧ List.Forall₂ EntryBlock blocks w.entries

/-- The rest of the lines after a transaction: nothing, or what follows a blank line or a line that cannot be read. -/
def AfterXact (tail rest : Source) : Prop :=
  (tail = [] ∧ rest = []) ∨ (∃ line, tail = some line :: rest ∧ EndLine line) ∨ tail = none :: rest

/-- The transaction a journal should hold for what is written; a comment under the header replaces its note. -/
structure XactOf (w : Writing) (x : Xact) : Prop where
  date : x.date = some w.date
  aux : x.auxDate = w.aux
  payee : x.payee = if w.payee = [] then str "Unknown Payee" else w.payee
  note : x.note = (lastText w.comments).or (if w.note = [] then none else some w.note)
  posts : List.Forall₂ PostOf w.entries x.posts

/-- A complete transaction: not just one posting, every posting has an amount, the sum is zero in every commodity, and
all of it can be represented. -/
structure Sound (lots : Str → Annotation → Prop) (w : Writing) : Prop where
  several : w.entries.length ≠ 1
  amounts : ∀ e ∈ w.entries, e.amount ≠ none
  balance : EntriesBalance w.entries
  range : EntriesInRange w.entries
  fits : ∀ e ∈ w.entries, e.Fits
  costs : ∀ e ∈ w.entries, e.CostFits lots

/-- The lots that are stored in a pool or written in a transaction. -/
def LotsOf (p : Pool) (ws : List Writing) (s : Str) (lot : Annotation) : Prop :=
  assocGet s p.annotated = some lot ∨ ∃ w ∈ ws, ∃ e ∈ w.entries, e.holder = some s ∧ e.lot = lot

/-- The transaction `w'` is `w` with the amount of its only blank posting filled in, so that the sum is zero: the other
postings count in one commodity and their sum is not negative. -/
def Filled (lots : Str → Annotation → Prop) (w w' : Writing) : Prop :=
  ∃ l e r c a, w.entries = l ++ e :: r ∧ (e.amount = none ∧ e.cost = none) ∧
    (∀ q ∈ l ++ r, q.amount ≠ none ∧ q.worthIn = c ∧ q.Fits ∧ q.CostFits lots) ∧ l ++ r ≠ [] ∧
    EntriesInRange (l ++ r) ∧ 0 ≤ entriesSum (l ++ r) c ∧ a.comm = c ∧ a.qty.val = - entriesSum (l ++ r) c ∧
    w' = { w with entries := l ++ { e with amount := some a } :: r }

/-- The posting `e'` is `e` with its cost, if it is in the commodity `A`: its amount at this rate, in `B`. -/
def RatedEntry (A B : Str) (rate : ℚ) (e e' : Entry) : Prop :=
  (e.commodity = some A ∧ ∃ a k, e.amount = some a ∧ k.comm = some B ∧ k.qty.val = rate * a.qty.val ∧
    e' = { e with cost := some (false, k) }) ∨ (e.commodity ≠ some A ∧ e' = e)

/-- The transaction `w'` is `w` with the costs that it implies: it exchanges the commodity `A` of its first posting,
without written costs, for `B`.  The rate is the quotient of the two sums, which have opposite signs. -/
def Rated (lots : Str → Annotation → Prop) (w w' : Writing) : Prop :=
  ∃ A B rate es, A ≠ B ∧ (∃ e r, w.entries = e :: r ∧ e.commodity = some A) ∧
    (∀ e ∈ w.entries, e.commodity = some A → e.cost = none ∧ ∀ a, e.amount = some a → Representable (rate * a.qty.val) ∧
      ∀ lot pr, lots A lot → lot.price = some pr → Representable (pr.qty.val * a.qty.val)) ∧
    (∀ e ∈ w.entries, e.commodity ≠ some A → e.amount ≠ none ∧ e.worthIn = some B ∧ e.Fits ∧ e.CostFits lots) ∧
    entriesSum w.entries (some A) ≠ 0 ∧ entriesSum w.entries (some B) = - (rate * entriesSum w.entries (some A)) ∧
    0 < rate ∧ Representable rate ∧ EntriesInRange w.entries ∧
    (2 + rate) * (w.entries.map (fun e => |e.worth|)).sum + 2 * w.entries.length ≤ 10 ^ 28 ∧
    List.Forall₂ (RatedEntry A B rate) w.entries es ∧ w' = { w with entries := es }

/-- What a transaction is completed to: itself if nothing is missing. -/
def Completed (lots : Str → Annotation → Prop) (w w' : Writing) : Prop :=
  (Sound lots w ∧ w' = w) ∨ Filled lots w w' ∨ Rated lots w w'

/-- The lines are these transactions: each ends with an empty line or at the end of the text; comments and empty lines
in between do not matter; an include line stands for what `inc` says about the file. -/
inductive JournalLines (inc : Str → List Writing → Prop) : List Str → List Writing → Prop
  | nil : JournalLines inc [] []
  | ignored {line : Str} {lines : List Str} {ws : List Writing} (h : IgnoredLine line) (hr : JournalLines inc lines ws) :
      JournalLines inc (line :: lines) ws
  | xact {block : List Str} {w : Writing} {line : Str} {lines : List Str} {ws : List Writing} (h : XactLines block w)
      (he : EndLine line) (hr : JournalLines inc lines ws) : JournalLines inc (block ++ line :: lines) (w :: ws)
  | last {block : List Str} {w : Writing} (h : XactLines block w) : JournalLines inc block [w]
  | included {line file : Str} {lines : List Str} {ws ws' : List Writing} (h : IncludeLine line file) (hi : inc file ws)
      (hr : JournalLines inc lines ws') : JournalLines inc (line :: lines) (ws ++ ws')

/-- The lines are these transactions, where files include others at most so deep; a file that does not exist counts as
empty. -/
def Says (files : Files) : Nat → List Str → List Writing → Prop
  | 0 => JournalLines (fun f ws => files f = none ∧ ws = [])
  | d + 1 => JournalLines (fun f ws => (files f = none ∧ ws = []) ∨
      ∃ lines, files f = some (lines.map some) ∧ Says files d lines ws)

/-- The lines of a text: each ends with its only line feed, except that the last may have none. -/
def LinesOf (text : Str) (lines : List Str) : Prop :=
  lines.flatten = text ∧ (∀ l ∈ lines.dropLast, FullLine l) ∧ ∀ l, lines.getLast? = some l → l ≠ [] ∧ '\n' ∉ l.dropLast

/-- The file is there and is these transactions. -/
def FileSays (files : Files) (depth : Nat) (file : Str) (ws : List Writing) : Prop :=
  ∃ text lines, files file = some (textSource text) ∧ LinesOf text lines ∧ Says files depth lines ws

/-- The postings of several transactions. -/
def allEntries (ws : List Writing) : List Entry := ws.flatMap (·.entries)

/-- The amounts written for an account and everything below it. -/
def writtenBelow (ws : List Writing) (p : Path) : List Amount :=
  ((allEntries ws).filter (fun e => p.isPrefixOf (pathOf e.account))).filterMap (·.amount)

end Ledger
