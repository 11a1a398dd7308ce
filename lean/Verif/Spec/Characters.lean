import Verif.Model.Basic
/-
The characters that separate the parts of a line, and the digits, one by one.
-/
namespace Ledger

/-- The characters with the Unicode property White_Space. -/
def whiteSpaces : List Char :=
  ['\t', '\n', '\x0b', '\x0c', '\r', ' ', '\u0085', '\u00a0', '\u1680', '\u2000', '\u2001', '\u2002', '\u2003',
   '\u2004', '\u2005', '\u2006', '\u2007', '\u2008', '\u2009', '\u200a', '\u2028', '\u2029', '\u202f', '\u205f', '\u3000']

/-- The digits, by value. -/
def digits : List Char := ['0', '1', '2', '3', '4', '5', '6', '7', '8', '9']

/-- Nothing but white space. -/
def OnlySpace (s : Str) : Prop := ∀ c ∈ s, c ∈ whiteSpaces

/-- A text without white space at its ends. -/
def BareEnds (s : Str) : Prop := (∀ c, s.head? = some c → c ∉ whiteSpaces) ∧ ∀ c, s.getLast? = some c → c ∉ whiteSpaces

end Ledger
