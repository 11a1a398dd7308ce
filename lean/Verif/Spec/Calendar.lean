import Verif.Model.Date
/-
Calendar days and their texts.
-/
namespace Ledger

/-- The lengths of the months of a year. -/
def monthLengths (y : Nat) : List Nat :=
  [31, if y % 400 = 0 ∨ (y % 4 = 0 ∧ y % 100 ≠ 0) then 29 else 28, 31, 30, 31, 30, 31, 31, 30, 31, 30, 31]

/-- Day `d` of month `m` of year `y` exists. -/
def CalendarDay (y m d : Nat) : Prop := ∃ n, 1 ≤ m ∧ (monthLengths y)[m - 1]? = some n ∧ 1 ≤ d ∧ d ≤ n

instance (y m d : Nat) : Decidable (CalendarDay y m d) :=
  decidable_of_iff (1 ≤ m ∧ ((monthLengths y)[m - 1]?).any (fun n => 1 ≤ d ∧ d ≤ n)) <| by
    unfold CalendarDay
    cases h : (monthLengths y)[m - 1]? with
    | none => simp
    | some n => simp

/-- The digit of a number below ten. -/
def digitChar (n : Nat) : Char := Char.ofNat (48 + n)

/-- Two digits. -/
def two (n : Nat) : Str := [digitChar (n / 10 % 10), digitChar (n % 10)]

/-- Four digits. -/
def four (n : Nat) : Str := two (n / 100) ++ two n

/-- `YYYY-MM-DD` -/
def isoDate (y m d : Nat) : Str := four y ++ '-' :: two m ++ '-' :: two d

/-- `HH:MM:SS` -/
def isoTime (h m s : Nat) : Str := two h ++ ':' :: two m ++ ':' :: two s

end Ledger
