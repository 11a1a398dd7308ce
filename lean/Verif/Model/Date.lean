import Verif.Model.Basic
/-
Dates and times as the crate uses them from `chrono` (a dependency, not part of `/repo`):
`NaiveDate::parse_from_str(_, "%Y-%m-%d")` (parser.rs:52,58, pool.rs:228, annotate.rs:49),
`NaiveTime::parse_from_str(_, "%H:%M:%S")` (pool.rs:231) and comparison of `NaiveDateTime`.
-/
namespace Ledger

/-- `chrono::NaiveDate`. -/
structure Date where
  year : Int
  month : Nat
  day : Nat
deriving DecidableEq, Repr

/-- `chrono::NaiveTime` (no fraction can be written in the formats used). -/
structure Time where
  hour : Nat
  minute : Nat
  second : Nat
deriving DecidableEq, Repr

/-- `chrono::NaiveDateTime`. -/
structure DateTime where
  date : Date
  time : Time
deriving DecidableEq, Repr

/-- `NaiveTime::MIN` -/
def Time.midnight : Time := ⟨0, 0, 0⟩

namespace Date

/-- Gregorian leap years. -/
def isLeap (y : Int) : Bool := (y % 4 == 0 && y % 100 != 0) || y % 400 == 0

/-- Days of a month, 0 for numbers that are not months. -/
def daysIn (y : Int) (m : Nat) : Nat :=
  if m = 2 then (if isLeap y then 29 else 28)
  else if m = 4 ∨ m = 6 ∨ m = 9 ∨ m = 11 then 30
  else if 1 ≤ m ∧ m ≤ 12 then 31 else 0

/-- The dates chrono represents: years -262143 to 262142. -/
def Valid (d : Date) : Prop :=
  -262143 ≤ d.year ∧ d.year ≤ 262142 ∧ 1 ≤ d.day ∧ d.day ≤ daysIn d.year d.month

instance (d : Date) : Decidable d.Valid := by unfold Valid; infer_instance

end Date

namespace DateTime

/-- A number ordered like the date-times (`Ord for NaiveDateTime`: year, month, day, time).  The second can be 60
(leap second), hence the base 61. -/
def key (t : DateTime) : Int :=
  ((((t.date.year * 13 + t.date.month) * 32 + t.date.day) * 24 + t.time.hour) * 60 + t.time.minute) * 61
    + t.time.second

/-- `NaiveDateTime < NaiveDateTime` -/
def lt (a b : DateTime) : Bool := a.key < b.key

end DateTime

namespace Chrono

/-- A run of at most `max` ASCII digits (`chrono::format::scan::number`). -/
def takeDigits : Nat → Str → Str × Str
  | 0, s => ([], s)
  | _ + 1, [] => ([], [])
  | n + 1, c :: cs =>
    if isDig c then let (ds, r) := takeDigits n cs; (c :: ds, r) else ([], c :: cs)

/-- The number written by a string of digits. -/
def digitsVal (ds : Str) : Nat := ds.foldl (fun n c => n * 10 + (c.toNat - 48)) 0

/-- `scan::number(s, 1, max)`: between 1 and `max` digits. -/
def number (max : Nat) (s : Str) : Option (Nat × Str) :=
  let (ds, r) := takeDigits max s
  if ds = [] then none else some (digitsVal ds, r)

/-- A numeric item of a format string skips white space before the number; `%Y` also takes a sign, after which
any number of digits is allowed (chrono `parse_internal`). -/
def year (s : Str) : Option (Int × Str) :=
  match trimStart s with
  | '-' :: r => (number r.length r).map (fun (n, r) => (-(n : Int), r))
  | '+' :: r => (number r.length r).map (fun (n, r) => ((n : Int), r))
  | r => (number 4 r).map (fun (n, r) => ((n : Int), r))

/-- A two-digit item (`%m`, `%d`, `%H`, `%M`, `%S`). -/
def two (s : Str) : Option (Nat × Str) := number 2 (trimStart s)

/-- A literal character of the format. -/
def lit (c : Char) : Str → Option Str
  | [] => none
  | d :: ds => if d = c then some ds else none

/-- `NaiveDate::parse_from_str(s, "%Y-%m-%d")` -/
def parseDate (s : Str) : Option Date :=
  match year s with
  | none => none
  | some (y, s) => match lit '-' s with
    | none => none
    | some s => match two s with
      | none => none
      | some (m, s) => match lit '-' s with
        | none => none
        | some s => match two s with
          | none => none
          | some (d, s) => if s = [] ∧ Date.Valid ⟨y, m, d⟩ then some ⟨y, m, d⟩ else none

/-- `NaiveTime::parse_from_str(s, "%H:%M:%S")`.  Second 60 is accepted (a leap second). -/
def parseTime (s : Str) : Option Time :=
  match two s with
  | none => none
  | some (h, s) => match lit ':' s with
    | none => none
    | some s => match two s with
      | none => none
      | some (m, s) => match lit ':' s with
        | none => none
        | some s => match two s with
          | none => none
          | some (x, s) => if s = [] ∧ h ≤ 23 ∧ m ≤ 59 ∧ x ≤ 60 then some ⟨h, m, x⟩ else none

end Chrono
end Ledger
