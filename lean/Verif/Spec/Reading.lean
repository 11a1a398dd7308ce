import Verif.Spec.Posting
import Verif.Spec.NumberText
import Verif.Spec.Calendar
import Verif.Spec.Value
/-
What every posting line, header line and price line is taken for, however odd it is, or why it is refused.  The
definitions use no function of the scanner, only the classes of characters.
-/
namespace Ledger
open Ledger.Scanner (PostTokens)

/-- `s` is the longest beginning of the text with only such characters, and `rest` is what follows it. -/
def Longest (P : Char → Prop) (text s rest : Str) : Prop :=
  text = s ++ rest ∧ (∀ c ∈ s, P c) ∧ ∀ c, rest.head? = some c → ¬ P c

/-- The text without the blanks at its beginning. -/
def Skip (text rest : Str) : Prop := ∃ sp, Longest (fun c => isWs c = true) text sp rest

/-- The beginning of a text taken for an amount: blanks, a number and a symbol, or a symbol and a number if it does not
start like a number.  The second part can be missing, and the symbol also if it comes first. -/
inductive AmountPart : (text q s rest : Str) → Prop
  | number {text t1 q t2 t3 s t4 rest : Str} (h1 : Skip text t1) (hq : Longest NumberChar t1 q t2) (hne : q ≠ [])
      (h2 : Skip t2 t3) (hs : Longest SymbolChar t3 s t4) (h3 : Skip t4 rest) : AmountPart text q s rest
  | symbol {text t1 s t2 t3 q t4 rest : Str} (h1 : Skip text t1) (hne : t1 ≠ [])
      (hn : ∀ c, t1.head? = some c → ¬ NumberChar c) (hs : Longest SymbolChar t1 s t2) (h2 : Skip t2 t3)
      (hq : Longest NumberChar t3 q t4) (h3 : Skip t4 rest) : AmountPart text q s rest

/-- What follows an amount, taken for a lot: any number of prices in braces and dates in brackets.  Number `q`, symbol
`s` and date `d` are those found before; the result is those found in the end and the rest of the text, or a panic. -/
inductive LotPart : (q s d text : Str) → Res (Str × Str × Str × Str) → Prop
  | done {q s d text : Str} (h : ∀ c, text.head? = some c → c ≠ '{' ∧ c ≠ '[' ∧ c ≠ '(') :
      LotPart q s d text (.ok (q, s, d, text))
  | price {s d inner after rest q' s' r : Str} {o : Res (Str × Str × Str × Str)} (hin : '}' ∉ inner)
      (ha : AmountPart inner q' s' r) (hs : Skip after rest) (h : LotPart q' s' d rest o) :
      LotPart [] s d ('{' :: (inner ++ '}' :: after)) o
  | date {q s inner after rest d' r : Str} {o : Res (Str × Str × Str × Str)} (hin : ']' ∉ inner)
      (hd : Longest (fun c => c ≠ '=' ∧ c ≠ ' ') inner d' r) (hs : Skip after rest) (h : LotPart q s d' rest o) :
      LotPart q s [] ('[' :: (inner ++ ']' :: after)) o
  | secondPrice {q s d t : Str} (h : q ≠ []) : LotPart q s d ('{' :: t) (.error .secondLotPrice)
  | secondDate {q s d t : Str} (h : d ≠ []) : LotPart q s d ('[' :: t) (.error .secondLotDate)
  | openBrace {s d t : Str} (h : '}' ∉ t) : LotPart [] s d ('{' :: t) (.error .separatorMissing)
  | openBracket {q s t : Str} (h : ']' ∉ t) : LotPart q s [] ('[' :: t) (.error .separatorMissing)
  | emptyBraces {s d inner after : Str} (hin : '}' ∉ inner) (hb : Blank inner) :
      LotPart [] s d ('{' :: (inner ++ '}' :: after)) (.error .noAmountChar)
  | expression {q s d t : Str} : LotPart q s d ('(' :: t) (.error .valuationExpr)

/-- The signs of a cost: `@` for a unit, `@@` for the whole posting. -/
def CostSign (text rest : Str) (unit : Bool) : Prop :=
  (text = '@' :: rest ∧ rest.head? ≠ some '@' ∧ unit = true) ∨ (text = '@' :: '@' :: rest ∧ unit = false)

/-- What follows a lot, taken for a cost.  The character after the sign is skipped, whatever it is; it must be ASCII.
Anything that does not start with the sign is ignored. -/
inductive CostPart : (text : Str) → Res (Str × Str × Bool) → Prop
  | none {text : Str} (h : text.head? ≠ some '@') : CostPart text (.ok ([], [], false))
  | amount {text t q s r : Str} {c : Char} {u : Bool} (hs : CostSign text (c :: t) u) (hc : c.toNat < 128)
      (ha : AmountPart t q s r) : CostPart text (.ok (q, s, u))
  | nothing {text t : Str} {c : Char} {u : Bool} (hs : CostSign text (c :: t) u) (hc : c.toNat < 128) (hb : Blank t) :
      CostPart text (.error .noAmountChar)
  | wide {text t : Str} {c : Char} {u : Bool} (hs : CostSign text (c :: t) u) (hc : 128 ≤ c.toNat) :
      CostPart text (.error .sliceBoundary)
  | ends {text : Str} {u : Bool} (hs : CostSign text [] u) : CostPart text (.error .sliceBoundary)

/-- The text is an account, two spaces (the first two in a row) and the rest, after blanks. -/
def AccountPart (text acct rest : Str) : Prop :=
  Skip text (acct ++ ' ' :: ' ' :: rest) ∧ (∀ c, acct.head? = some c → c ≠ ';') ∧ ¬ TwoSpaces (acct ++ [' '])

/-- What a posting line is taken for, or why it is refused. -/
inductive PostPart : (text : Str) → Res PostTokens → Prop
  | missing {text rest : Str} (h : Skip text rest) (hr : rest = [] ∨ rest.head? = some ';') :
      PostPart text (.error .noAccount)
  | alone {text acct tail : Str} (h : Skip text (acct ++ tail)) (hc : ∀ c, acct.head? = some c → c ≠ ';') (ha : acct ≠ [])
      (hl : ∀ c, acct.getLast? = some c → isWs c = false) (ht : Blank tail) (h2 : ¬ TwoSpaces (acct ++ tail)) :
      PostPart text (.ok ⟨acct, [], [], [], [], [], [], [], false⟩)
  | noAmount {text acct rest : Str} (h : AccountPart text acct rest) (hb : Blank rest) :
      PostPart text (.error .noAmountChar)
  | badLot {text acct rest q s r : Str} {k : Panic} (h : AccountPart text acct rest) (ha : AmountPart rest q s r)
      (hl : LotPart [] [] [] r (.error k)) : PostPart text (.error k)
  | badCost {text acct rest q s r pq ps pd r' : Str} {k : Panic} (h : AccountPart text acct rest)
      (ha : AmountPart rest q s r) (hl : LotPart [] [] [] r (.ok (pq, ps, pd, r'))) (hc : CostPart r' (.error k)) :
      PostPart text (.error k)
  | full {text acct rest q s r pq ps pd r' cq cs : Str} {u : Bool} (h : AccountPart text acct rest)
      (ha : AmountPart rest q s r) (hl : LotPart [] [] [] r (.ok (pq, ps, pd, r'))) (hc : CostPart r' (.ok (cq, cs, u))) :
      PostPart text (.ok ⟨acct, q, s, pq, ps, pd, cq, cs, u⟩)

/-- `t` is the text without the blanks at both ends. -/
def TrimOf (s t : Str) : Prop := ∃ a b, s = a ++ t ++ b ∧ Blank a ∧ Blank b ∧ Trimmed t

/-- What a header line is taken for: the date up to the first space or equals sign; after equals signs another date up
to the next space; then the payee up to the first two spaces with a semicolon, and the note after them. -/
def HeaderPart (text d a p n : Str) : Prop :=
  ∃ r1 r2, Longest (fun c => c ≠ '=' ∧ c ≠ ' ') text d r1 ∧
    ((r1.head? ≠ some '=' ∧ a = [] ∧ r2 = r1) ∨
      ∃ eqs r, eqs ≠ [] ∧ Longest (· = '=') r1 eqs r ∧ Longest (· ≠ ' ') r a r2) ∧
    ((¬ NoteMark r2 ∧ TrimOf r2 p ∧ n = []) ∨
      ∃ before after, r2 = before ++ ' ' :: ' ' :: ';' :: after ∧ ¬ NoteMark (before ++ [' ', ' ']) ∧
        TrimOf before p ∧ TrimOf after n)

/-- One or more digits. -/
def Digits (s : Str) : Prop := s ≠ [] ∧ ∀ c ∈ s, isDig c = true

/-- The number that digits are. -/
def natOf (s : Str) : Nat := s.foldl (fun n c => n * 10 + (c.toNat - 48)) 0

/-- A year: up to four digits, or a sign and any number of digits. -/
inductive YearText : Str → Int → Prop
  | plain {t : Str} (h : Digits t) (hl : t.length ≤ 4) : YearText t (natOf t)
  | minus {t : Str} (h : Digits t) : YearText ('-' :: t) (-(natOf t))
  | plus {t : Str} (h : Digits t) : YearText ('+' :: t) (natOf t)

/-- A number of one or two digits, after blanks. -/
def TwoText (s : Str) (n : Nat) : Prop := ∃ sp t, s = sp ++ t ∧ Blank sp ∧ Digits t ∧ t.length ≤ 2 ∧ n = natOf t

/-- The text is this day: year, month and day with hyphens in between, each after blanks.  The day exists, and the year
is one of those that are supported. -/
def DayText (s : Str) (d : Date) : Prop :=
  (∃ sp y m x, s = sp ++ y ++ '-' :: m ++ '-' :: x ∧ Blank sp ∧ YearText y d.year ∧ TwoText m d.month ∧ TwoText x d.day) ∧
    -262143 ≤ d.year ∧ d.year ≤ 262142 ∧ CalendarDay (d.year % 400).toNat d.month d.day

/-- The text is this time of day; second 60 is a leap second. -/
def ClockText (s : Str) (t : Time) : Prop :=
  (∃ h m x, s = h ++ ':' :: m ++ ':' :: x ∧ TwoText h t.hour ∧ TwoText m t.minute ∧ TwoText x t.second) ∧
    t.hour ≤ 23 ∧ t.minute ≤ 59 ∧ t.second ≤ 60

/-- Why a posting line is refused: it cannot be taken apart, the date of its lot is not a day, or its amount and its cost
per unit are numbers whose product is too large. -/
inductive PostRefused : (text : Str) → Panic → Prop
  | scan {text : Str} {k : Panic} (h : PostPart text (.error k)) : PostRefused text k
  | date {text : Str} {t : PostTokens} (h : PostPart text (.ok t)) (hd : t.priceDate ≠ [])
      (hn : ∀ d, ¬ DayText t.priceDate d) : PostRefused text .dateParse
  | product {text : Str} {t : PostTokens} {a k : Dec} (h : PostPart text (.ok t))
      (hd : t.priceDate = [] ∨ ∃ d, DayText t.priceDate d) (hu : t.isPerUnit = true) (ha : Numeral t.quantity a)
      (hk : Numeral t.costQuantity k) (hm : ¬ Moderate (k.val * a.val)) : PostRefused text .decimalOverflow

/-- Why a header line is refused: one of its dates is not a day. -/
def HeaderRefused (text : Str) (k : Panic) : Prop :=
  k = .dateParse ∧ ∃ d a p n, HeaderPart text d a p n ∧ ((∀ x, ¬ DayText d x) ∨ (a ≠ [] ∧ ∀ x, ¬ DayText a x))

end Ledger
