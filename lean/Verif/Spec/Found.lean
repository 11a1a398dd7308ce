import Verif.Spec.Faults
/-
What every text says, however odd it is: the transactions and prices up to the line at which it is refused, if it is.
The definitions use no function of the scanner or the parser.
-/
namespace Ledger
open Ledger.Parser

/-! ### lines outside transactions -/

/-- The first word of a text and what follows it. -/
def FirstWord (text w rest : Str) : Prop :=
  ∃ sp, text = sp ++ w ++ rest ∧ Blank sp ∧ w ≠ [] ∧ (∀ c ∈ w, isWs c = false) ∧ ∀ c, rest.head? = some c → isWs c = true

/-- The path is the root directory: it starts with a slash, and nothing else is between the slashes than single dots. -/
def RootPath (f : Str) : Prop :=
  f.head? = some '/' ∧ ∀ a part b, f = a ++ '/' :: (part ++ b) → '/' ∉ part → (∀ c, b.head? = some c → c = '/') →
    part = [] ∨ part = ['.']

/-- A name that is not looked up: it starts with a tilde or backslash and has no slash. -/
def LooseName (f : Str) : Prop := (f.head? = some '~' ∨ f.head? = some '\\') ∧ '/' ∉ f

/-- A line that is neither ignored nor indented nor starts a transaction. -/
def GeneralLine (line : Str) : Prop :=
  ¬ IgnoredLine line ∧ ¬ HeaderLine line ∧ ∀ c, line.head? = some c → c ≠ ' ' ∧ c ≠ '\t'

/-- What a line outside a transaction is. -/
inductive TopPart : (line : Str) → TopLine → Prop
  | ignored {line : Str} (h : IgnoredLine line) : TopPart line .ignored
  | xact {line : Str} (h : HeaderLine line) : TopPart line .xact
  | indented {line : Str} (h : line.head? = some ' ' ∨ line.head? = some '\t') : TopPart line .indented
  | nothing {line : Str} (h : GeneralLine line) (hb : Blank line) : TopPart line (.fails .noDirective)
  | price {line w rest : Str} (h : GeneralLine line) (hw : FirstWord line ('i' :: w) rest)
      (h1 : 'i' :: w ≠ str "include") (h2 : 'i' :: w ≠ str "import") : TopPart line .price
  | imports {line rest : Str} (h : GeneralLine line) (hw : FirstWord line (str "import") rest) :
      TopPart line (.fails .unsupportedDirective)
  | other {line w rest : Str} {c : Char} (h : GeneralLine line) (hw : FirstWord line (c :: w) rest) (hc : c ≠ 'i') :
      TopPart line (.fails .unsupportedDirective)
  | noName {line rest : Str} (h : GeneralLine line) (hw : FirstWord line (str "include") rest) (hb : Blank rest) :
      TopPart line (.fails .includeWithoutArgument)
  | root {line rest f rest' : Str} (h : GeneralLine line) (hw : FirstWord line (str "include") rest)
      (hf : FirstWord rest f rest') (hr : RootPath f) : TopPart line (.fails .includeRoot)
  | skipped {line rest f rest' : Str} (h : GeneralLine line) (hw : FirstWord line (str "include") rest)
      (hf : FirstWord rest f rest') (hl : LooseName f) : TopPart line .skipped
  | file {line rest f rest' : Str} (h : GeneralLine line) (hw : FirstWord line (str "include") rest)
      (hf : FirstWord rest f rest') (hr : ¬ RootPath f) (hl : ¬ LooseName f) : TopPart line (.includeFile f)

/-! ### price lines -/

/-- The next part of a price line: after blanks, up to a space or tab. -/
def PriceElement (text s rest : Str) : Prop := ∃ t, Skip text t ∧ Longest (fun c => c ≠ ' ' ∧ c ≠ '\t') t s rest

/-- The parts of a price line after its first character: date, time (if the next part starts with a digit), commodity,
number and the commodity of the price.  Later ones can be empty. -/
def PriceParts (text d t c q p : Str) : Prop :=
  ∃ r1 r2 r3 r4 r5, PriceElement text d r1 ∧ Skip r1 r2 ∧ r2 ≠ [] ∧
    (((∀ x, r2.head? = some x → isDig x = false) ∧ t = [] ∧ r3 = r2) ∨
      ((∀ x, r2.head? = some x → isDig x = true) ∧ PriceElement r2 t r3)) ∧
    PriceElement r3 c r4 ∧ PriceElement r4 q r5 ∧ ∃ r6, PriceElement r5 p r6

/-- A price line: its first character is skipped and must be ASCII. -/
def PriceLineParts (line d t c q p : Str) : Prop :=
  ∃ x text, line = x :: text ∧ x.toNat < 128 ∧ PriceParts text d t c q p

/-- The time of a price; midnight if none is written. -/
def PriceTime (t : Str) (x : Time) : Prop := (t = [] ∧ x = Time.midnight) ∨ (t ≠ [] ∧ ClockText t x)

/-- The line is this price. -/
def PriceSays (line : Str) (r : Recording) : Prop :=
  ∃ d t q, PriceLineParts line d t r.src q r.dst ∧ DayText d r.time.date ∧ PriceTime t r.time.time ∧
    Numeral q r.qty ∧ r.src ≠ r.dst ∧ r.dst ≠ []

/-- Why a price line is refused. -/
inductive PriceRefused : (line : Str) → Panic → Prop
  | wide {x : Char} {text : Str} (h : 128 ≤ x.toNat) : PriceRefused (x :: text) .sliceBoundary
  | short {x : Char} {text d r1 : Str} (h : x.toNat < 128) (hd : PriceElement text d r1) (hb : Blank r1) :
      PriceRefused (x :: text) .priceLineTooShort
  | date {line d t c q p : Str} (h : PriceLineParts line d t c q p) (hd : ∀ x, ¬ DayText d x) : PriceRefused line .dateParse
  | time {line d t c q p : Str} {x : Date} (h : PriceLineParts line d t c q p) (hd : DayText d x)
      (ht : ∀ y, ¬ PriceTime t y) : PriceRefused line .timeParse
  | number {line d t c q p : Str} {x : Date} {y : Time} (h : PriceLineParts line d t c q p) (hd : DayText d x)
      (ht : PriceTime t y) (hq : ∀ n, ¬ Numeral q n) : PriceRefused line .quantityParse
  | itself {line d t c q : Str} {x : Date} {y : Time} {n : Dec} (h : PriceLineParts line d t c q c) (hd : DayText d x)
      (ht : PriceTime t y) (hq : Numeral q n) : PriceRefused line .priceOfItself
  | bare {line d t c q : Str} {x : Date} {y : Time} {n : Dec} (h : PriceLineParts line d t c q []) (hd : DayText d x)
      (ht : PriceTime t y) (hq : Numeral q n) : PriceRefused line .priceWithoutCommodity

/-! ### lines of transactions -/

/-- Why a posting line is refused, whatever its numbers are. -/
inductive PostUnread : (text : Str) → Panic → Prop
  | scan {text : Str} {k : Panic} (h : PostPart text (.error k)) : PostUnread text k
  | date {text : Str} {t : Scanner.PostTokens} (h : PostPart text (.ok t)) (hd : t.priceDate ≠ [])
      (hn : ∀ d, ¬ DayText t.priceDate d) : PostUnread text .dateParse

/-- Why a line in a transaction is refused: it is not indented by a space, or it is a posting that cannot be read. -/
inductive BodyRefused : (line : Str) → Panic → Prop
  | outside {line : Str} (h : ∀ c, line.head? = some c → c ≠ ' ' ∧ c ≠ '\r' ∧ c ≠ '\n') : BodyRefused line .badXactLine
  | posting {text : Str} {k : Panic} (hp : PostingLine (' ' :: text)) (h : PostUnread text k) :
      BodyRefused (' ' :: text) k

/-- The lines after a header: comments, which belong to the posting before them, and postings, up to a line that is
neither. -/
inductive BodyReads : Source → List Str → List Entry → (tail : Source) → Prop
  | stop {tail : Source} (h : (∃ rest, AfterXact tail rest) ∨ ∃ line rest k, tail = some line :: rest ∧ BodyRefused line k) :
      BodyReads tail [] [] tail
  | comment {line t : Str} {src tail : Source} {ts : List Str} {es : List Entry} (hc : CommentLine line t)
      (h : BodyReads src ts es tail) : BodyReads (some line :: src) (t :: ts) es tail
  | posting {line : Str} {e : Entry} {src tail : Source} {ts : List Str} {es : List Entry} (he : EntryLine line e)
      (h : BodyReads src ts es tail) : BodyReads (some line :: src) [] ({ e with comments := ts } :: es) tail

/-! ### texts -/

/-- What is found in a text: transactions, prices and lines that cannot be read, each in the order in which it is dealt
with. -/
inductive Item where
  | xact (w : Writing)
  | price (r : Recording)
  | gap
deriving DecidableEq

/-- The line that ends a transaction, if it cannot be read.  This is noticed before the transaction is complete. -/
def gapIn : Source → List Item
  | none :: _ => [.gap]
  | _ => []

/-- How reading a text ends. -/
inductive Ending where
  /-- at its end, or at a line that cannot be read outside a transaction -/
  | done
  /-- at a line that is refused outside a transaction -/
  | stop (k : Panic)
  /-- at a line that is refused inside a transaction, of which this much was read -/
  | inside (w : Writing) (k : Panic)
deriving DecidableEq

/-- The panic with which reading ends. -/
def Ending.panic : Ending → Option Panic
  | .done => none
  | .stop k => some k
  | .inside _ k => some k

/-- What the lines say, and how reading them ends.  `inc` is what an included file says. -/
inductive SourceSays (inc : Str → List Item → Ending → Prop) : Source → List Item → Ending → Prop
  | nil : SourceSays inc [] [] .done
  | unreadable {rest : Source} : SourceSays inc (none :: rest) [.gap] .done
  | ignored {line : Str} {rest : Source} {is : List Item} {e : Ending} (h : TopPart line .ignored)
      (hr : SourceSays inc rest is e) : SourceSays inc (some line :: rest) is e
  | skipped {line : Str} {rest : Source} {is : List Item} {e : Ending} (h : TopPart line .skipped)
      (hr : SourceSays inc rest is e) : SourceSays inc (some line :: rest) is e
  | refused {line : Str} {rest : Source} {k : Panic} (h : TopPart line (.fails k)) :
      SourceSays inc (some line :: rest) [] (.stop k)
  | indented {line : Str} {rest : Source} (h : TopPart line .indented) :
      SourceSays inc (some line :: rest) [] (.stop .indentedTopLevel)
  | price {line : Str} {rest : Source} {r : Recording} {is : List Item} {e : Ending} (h : TopPart line .price)
      (hp : PriceSays line r) (hr : SourceSays inc rest is e) : SourceSays inc (some line :: rest) (.price r :: is) e
  | badPrice {line : Str} {rest : Source} {k : Panic} (h : TopPart line .price) (hp : PriceRefused line k) :
      SourceSays inc (some line :: rest) [] (.stop k)
  | badHeader {line : Str} {rest : Source} {k : Panic} (h : TopPart line .xact) (hh : HeaderRefused line k) :
      SourceSays inc (some line :: rest) [] (.stop k)
  | xact {line : Str} {body tail rest : Source} {w : Writing} {is : List Item} {e : Ending} (hh : HeaderSays line w)
      (hb : BodyReads body w.comments w.entries tail) (ht : AfterXact tail rest) (hr : SourceSays inc rest is e) :
      SourceSays inc (some line :: body) (gapIn tail ++ .xact w :: is) e
  | broken {line bad : Str} {body rest : Source} {w : Writing} {k : Panic} (hh : HeaderSays line w)
      (hb : BodyReads body w.comments w.entries (some bad :: rest)) (ht : BodyRefused bad k) :
      SourceSays inc (some line :: body) [] (.inside w k)
  | included {line f : Str} {rest : Source} {is is' : List Item} {e : Ending} (h : TopPart line (.includeFile f))
      (hi : inc f is .done) (hr : SourceSays inc rest is' e) : SourceSays inc (some line :: rest) (is ++ is') e
  | includedStop {line f : Str} {rest : Source} {is : List Item} {e : Ending} (h : TopPart line (.includeFile f))
      (hi : inc f is e) (he : e ≠ .done) : SourceSays inc (some line :: rest) is e

/-- What lines say where files include others at most so deep; a file that does not exist counts as empty. -/
def SaysUpTo (files : Files) : Nat → Source → List Item → Ending → Prop
  | 0 => SourceSays (fun f is e => is = [] ∧ ((files f = none ∧ e = .done) ∨ (files f ≠ none ∧ e = .stop .stackOverflow)))
  | d + 1 => SourceSays (fun f is e => (files f = none ∧ is = [] ∧ e = .done) ∨
      ∃ src, files f = some src ∧ SaysUpTo files d src is e)

/-- What files say that are read one after another; each must exist. -/
inductive FilesSay (files : Files) (depth : Nat) : List Str → List Item → Ending → Prop
  | nil : FilesSay files depth [] [] .done
  | missing {f : Str} {fs : List Str} (h : files f = none) : FilesSay files depth (f :: fs) [] (.stop .fileOpen)
  | read {f : Str} {fs : List Str} {src : Source} {is is' : List Item} {e : Ending} (h : files f = some src)
      (hs : SaysUpTo files depth src is .done) (hr : FilesSay files depth fs is' e) :
      FilesSay files depth (f :: fs) (is ++ is') e
  | stop {f : Str} {fs : List Str} {src : Source} {is : List Item} {e : Ending} (h : files f = some src)
      (hs : SaysUpTo files depth src is e) (he : e ≠ .done) : FilesSay files depth (f :: fs) is e

/-! ### what is made of it -/

/-- The transactions among what a text says. -/
def writings (is : List Item) : List Writing :=
  is.filterMap (fun i => match i with | .xact w => some w | _ => none)

/-- All transactions that are read, including the one in which reading ends. -/
def touched (is : List Item) : Ending → List Writing
  | .inside w _ => writings is ++ [w]
  | _ => writings is

/-- The prices recorded: those of price lines and those of the costs of the settled transactions, in order. -/
inductive ItemPrices : List Item → (settled : List Writing) → List Recording → Prop
  | nil : ItemPrices [] [] []
  | xact {w w' : Writing} {is : List Item} {ws : List Writing} {r rs : List Recording}
      (h : EntryPrices w'.date w'.entries r) (hr : ItemPrices is ws rs) : ItemPrices (.xact w :: is) (w' :: ws) (r ++ rs)
  | price {r : Recording} {is : List Item} {ws : List Writing} {rs : List Recording} (hr : ItemPrices is ws rs) :
      ItemPrices (.price r :: is) ws (r :: rs)
  | gap {is : List Item} {ws : List Writing} {rs : List Recording} (hr : ItemPrices is ws rs) : ItemPrices (.gap :: is) ws rs

/-- What a text makes of a journal: see `Outcome`; in addition the price lines are recorded and their commodities
known. -/
structure ItemsOutcome (is : List Item) (ws' : List Writing) (rs : List Recording) (j j' : Journal) : Prop where
  settled : List.Forall₂ Settles (writings is) ws'
  xacts : ∃ new, j'.xacts = j.xacts ++ new ∧ List.Forall₂ XactOf ws' new
  accounts : ∀ q, j'.master.Has q ↔ j.master.Has q ∨ ∃ e ∈ allEntries (writings is), q <+: pathOf e.account
  commodities : ∀ s, (j'.pool.find s).isSome ↔ (j.pool.find s).isSome ∨ (∃ e ∈ allEntries (writings is), e.Mentions s) ∨
    ∃ r, Item.price r ∈ is ∧ (s = r.src ∨ s = r.dst)
  lots : ∀ s, assocGet s j'.pool.annotated = (assocGet s j.pool.annotated).or (firstLot (allEntries (writings is)) s)
  prices : ItemPrices is ws' rs
  history : ∀ ops, runOps Pool.empty ops = .ok j.pool →
    ∃ ops', runOps Pool.empty ops' = .ok j'.pool ∧ recordings ops' = recordings ops ++ rs

end Ledger
