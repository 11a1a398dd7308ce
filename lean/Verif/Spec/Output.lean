import Verif.Model.Basic
/-
Lists of string literals, as Rust writes them.
-/
namespace Ledger

/-- The value of a hexadecimal digit. -/
def hexVal (c : Char) : Option Nat :=
  if '0' ≤ c ∧ c ≤ '9' then some (c.toNat - 48)
  else if 'a' ≤ c ∧ c ≤ 'f' then some (c.toNat - 87)
  else none

/-- Hexadecimal digits that denote a number, after digits that denote `v`. -/
def hexDenotes : Nat → Str → Option Nat
  | v, [] => some v
  | v, c :: cs => match hexVal c with
    | some d => hexDenotes (16 * v + d) cs
    | none => none

/-- A backslash before the first character means the second. -/
inductive Escaped : Char → Char → Prop
  | nul : Escaped '0' '\x00'
  | tab : Escaped 't' '\t'
  | cr : Escaped 'r' '\r'
  | lf : Escaped 'n' '\n'
  | backslash : Escaped '\\' '\\'
  | quote : Escaped '"' '"'

/-- The text of a string literal after the opening quote, closing quote included. -/
inductive LiteralRest : Str → Str → Prop
  | close : LiteralRest ['"'] []
  | char {c : Char} {t s : Str} (h1 : c ≠ '"') (h2 : c ≠ '\\') (h : LiteralRest t s) : LiteralRest (c :: t) (c :: s)
  | escaped {e c : Char} {t s : Str} (he : Escaped e c) (h : LiteralRest t s) : LiteralRest ('\\' :: e :: t) (c :: s)
  | unicode {c : Char} {ds t s : Str} (hd : hexDenotes 0 ds = some c.toNat) (h : LiteralRest t s) :
    LiteralRest ('\\' :: 'u' :: '{' :: (ds ++ '}' :: t)) (c :: s)

/-- The rest of a list of literals after the opening bracket, at least one. -/
inductive LiteralsRest : Str → List Str → Prop
  | last {t s : Str} (h : LiteralRest t s) : LiteralsRest ('"' :: (t ++ [']'])) [s]
  | more {t s u : Str} {ss : List Str} (h : LiteralRest t s) (hs : LiteralsRest u ss) :
    LiteralsRest ('"' :: (t ++ ',' :: ' ' :: u)) (s :: ss)

/-- The text of a list of string literals. -/
inductive LiteralList : Str → List Str → Prop
  | empty : LiteralList ['[', ']'] []
  | some {t : Str} {ss : List Str} (h : LiteralsRest t ss) : LiteralList ('[' :: t) ss

end Ledger
