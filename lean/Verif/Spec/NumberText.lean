import Verif.Spec.Value
/-
What it means for a text to be a decimal number, independent of the parser.
-/
namespace Ledger

/-- The value of a run of digits (other characters, the `_` separators, are skipped). -/
def intVal (s : Str) : ℚ := s.foldl (fun n c => if isDig c then n * 10 + ((c.toNat - 48 : Nat) : ℚ) else n) 0

/-- The value of the digits after a decimal point: `d₁/10 + d₂/100 + ...` -/
def fracVal : Str → ℚ
  | [] => 0
  | c :: cs => if isDig c then (((c.toNat - 48 : Nat) : ℚ) + fracVal cs) / 10 else fracVal cs

/-- Number of digits in a text. -/
def digitCount (s : Str) : Nat := (s.filter isDig).length

/-- `s` is a decimal number: an optional sign, digits with `_` separators, optionally a point and more digits
with separators; at least one digit; no separator before the first digit. -/
structure NumberText (s : Str) (neg : Bool) (intPart fracPart : Str) : Prop where
  shape : ∃ sign, (sign = [] ∨ sign = ['+'] ∨ sign = ['-']) ∧ (neg = true ↔ sign = ['-']) ∧
    ((fracPart = [] ∧ s = sign ++ intPart) ∨ s = sign ++ intPart ++ '.' :: fracPart)
  chars : ∀ c ∈ intPart ++ fracPart, isDig c = true ∨ c = '_'
  digit : digitCount (intPart ++ fracPart) ≠ 0
  sep : (intPart ++ fracPart).head? ≠ some '_'

/-- The number a decimal text denotes. -/
def numberVal (neg : Bool) (intPart fracPart : Str) : ℚ :=
  (if neg then -1 else 1) * (intVal intPart + fracVal fracPart)

/-- The text is a decimal number and `d` is this number, with as many decimals as written. -/
def Numeral (s : Str) (d : Dec) : Prop :=
  ∃ neg I F, NumberText s neg I F ∧ d.val = numberVal neg I F ∧ d.scale = digitCount F ∧ d.Valid ∧
    (d.neg = true → d.val ≠ 0)

end Ledger
