import Verif.Model.Scanner
/-
What a written amount, lot, cost, posting and header is, as texts built from their fields.  The definitions do not
use the functions of the scanner, only the classes of characters.
-/
namespace Ledger

/-- A text of blanks. -/
def Blank (s : Str) : Prop := ∀ c ∈ s, isWs c = true

/-- A character of a number: digit, sign, decimal point or comma. -/
def NumberChar (c : Char) : Prop := isDig c = true ∨ c ∈ ['-', '.', ',']

/-- A character of a symbol: not a blank, not `@`, not a digit, not `-`. -/
def SymbolChar (c : Char) : Prop := isWs c = false ∧ c ≠ '@' ∧ isDig c = false ∧ c ≠ '-'

/-- A written number. -/
def QuantityText (q : Str) : Prop := q ≠ [] ∧ ∀ c ∈ q, NumberChar c

/-- A written symbol. -/
def SymbolText (s : Str) : Prop := s ≠ [] ∧ ∀ c ∈ s, SymbolChar c

/-- The ways to write the amount of quantity `q` and symbol `s`. -/
inductive AmountText : (text q s : Str) → Prop
  /-- `25` -/
  | plain {q : Str} (hq : QuantityText q) : AmountText q q []
  /-- `25 EUR`; the blanks can be left out if the symbol does not start like a number -/
  | after {q sp s : Str} (hq : QuantityText q) (hsp : Blank sp) (hs : SymbolText s)
      (h : sp ≠ [] ∨ ∀ c, s.head? = some c → ¬ NumberChar c) : AmountText (q ++ sp ++ s) q s
  /-- `EUR 25`; the blanks can be left out if the number starts with a digit or a sign -/
  | before {q sp s : Str} (hq : QuantityText q) (hsp : Blank sp) (hs : SymbolText s)
      (hn : ∀ c, s.head? = some c → ¬ NumberChar c)
      (h : sp ≠ [] ∨ ∀ c, q.head? = some c → ¬ SymbolChar c) : AmountText (s ++ sp ++ q) q s

/-- A lot price `{20 EUR}`. -/
inductive LotPrice : (text q s : Str) → Prop
  | mk {sp amt sp' q s : Str} (hsp : Blank sp) (h : AmountText amt q s) (hsp' : Blank sp') (hb : '}' ∉ amt) :
    LotPrice ('{' :: sp ++ amt ++ sp' ++ ['}']) q s

/-- A lot date `[2023-05-01]`. -/
inductive LotDate : (text d : Str) → Prop
  | mk {d : Str} (hne : d ≠ []) (h : ∀ c ∈ d, c ≠ ']' ∧ c ≠ '=' ∧ c ≠ ' ') : LotDate ('[' :: d ++ [']']) d

/-- The lot of a posting: nothing, price, date, or both in either order, each after blanks. -/
inductive LotText : (text q s d : Str) → Prop
  | none : LotText [] [] [] []
  | price {sp p q s : Str} (h : Blank sp) (hne : sp ≠ []) (hp : LotPrice p q s) : LotText (sp ++ p) q s []
  | date {sp t d : Str} (h : Blank sp) (hne : sp ≠ []) (hd : LotDate t d) : LotText (sp ++ t) [] [] d
  | priceDate {sp sp' p q s t d : Str} (h : Blank sp) (hne : sp ≠ []) (hp : LotPrice p q s) (h' : Blank sp')
      (hd : LotDate t d) : LotText (sp ++ p ++ sp' ++ t) q s d
  | datePrice {sp sp' p q s t d : Str} (h : Blank sp) (hne : sp ≠ []) (hd : LotDate t d) (h' : Blank sp')
      (hp : LotPrice p q s) : LotText (sp ++ t ++ sp' ++ p) q s d

/-- The cost of a posting: nothing, `@ 25 EUR` or `@@ 250 EUR`.  At least one space follows the sign. -/
inductive CostText : (text q s : Str) → (perUnit : Bool) → Prop
  | none : CostText [] [] [] false
  | unit {sp sp' amt q s : Str} (h : Blank sp) (h' : Blank sp') (ha : AmountText amt q s) :
    CostText (sp ++ '@' :: ' ' :: sp' ++ amt) q s true
  | total {sp sp' amt q s : Str} (h : Blank sp) (h' : Blank sp') (ha : AmountText amt q s) :
    CostText (sp ++ '@' :: '@' :: ' ' :: sp' ++ amt) q s false

/-- The end of a posting line: blanks, or blanks and a note. -/
inductive PostEnd : (text : Str) → (note : Bool) → Prop
  | blank {sp : Str} (h : Blank sp) : PostEnd sp false
  | note {sp rest : Str} (h : Blank sp) (hne : sp ≠ []) : PostEnd (sp ++ ';' :: rest) true

/-- Two successive spaces. -/
def TwoSpaces (s : Str) : Prop := ∃ a b, s = a ++ ' ' :: ' ' :: b

/-- A written account name: it starts with neither a blank nor `;`, does not end with a blank and has no two
successive spaces. -/
def AccountText (a : Str) : Prop :=
  (∃ c rest, a = c :: rest ∧ isWs c = false ∧ c ≠ ';') ∧ (∀ c, a.getLast? = some c → isWs c = false) ∧ ¬ TwoSpaces a

/-- A text without blanks at its ends. -/
def Trimmed (s : Str) : Prop :=
  (∀ c, s.head? = some c → isWs c = false) ∧ (∀ c, s.getLast? = some c → isWs c = false)

/-- Two spaces and a semicolon. -/
def NoteMark (s : Str) : Prop := ∃ a b, s = a ++ ' ' :: ' ' :: ';' :: b

/-- A written date. -/
def DateText (d : Str) : Prop := d ≠ [] ∧ ∀ c ∈ d, c ≠ '=' ∧ c ≠ ' '

/-- A header line `DATE[=AUX] PAYEE  ; NOTE`: the payee and the note can be left out, and there can be more blanks
between the parts. -/
inductive HeaderText : (text d a p n : Str) → Prop
  | mk {d a aux sp p n nt tail : Str} (hd : DateText d)
      (ha : (a = [] ∧ aux = []) ∨ (DateText a ∧ aux = '=' :: a)) (hsp : Blank sp)
      (hp : Trimmed p) (hpm : ¬ NoteMark (sp ++ p)) (hn : Trimmed n)
      (hnt : (n = [] ∧ nt = []) ∨ ∃ gap sp', Blank gap ∧ Blank sp' ∧ nt = gap ++ ' ' :: ' ' :: ';' :: sp' ++ n)
      (ht : Blank tail) (hs : ∀ c, (sp ++ p ++ nt ++ tail).head? = some c → c = ' ') :
      HeaderText (d ++ aux ++ sp ++ p ++ nt ++ tail) d a p n

end Ledger
