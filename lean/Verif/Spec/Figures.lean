import Verif.Spec.Value
import Verif.Spec.Accounts
import Verif.Spec.Totals
/-
The figures of a report, digit by digit: sums as they are made by hand, and the report of a list of bookings.  The
definitions use neither the accounts of the model nor its decimal arithmetic.
-/
namespace Ledger

/-- The number without its decimal point, written with `s` decimals. -/
def Dec.digitsAt (d : Dec) (s : Nat) : Int := d.signed * 10 ^ (s - d.scale)

/-- The sum of two figures: it has the decimals of the one that has more.  Zeros do not count: a figure plus a zero is the
figure, with its own decimals, and a zero plus a figure likewise. -/
def Dec.plus (f g : Dec) : Dec :=
  if g.mant = 0 then f
  else if f.mant = 0 then g
  else
    let s := max f.scale g.scale
    let n := f.digitsAt s + g.digitsAt s
    ⟨decide (n < 0), n.natAbs, s⟩

/-- The product of two figures: it has the decimals of both together; a product with zero has none. -/
def Dec.times (f g : Dec) : Dec :=
  if f.mant = 0 ∨ g.mant = 0 then ⟨false, 0, 0⟩ else ⟨f.neg != g.neg, f.mant * g.mant, f.scale + g.scale⟩

/-- Entering an amount in a list with one line for each commodity. -/
def enter : List Amount → Amount → List Amount
  | [], a => [a]
  | x :: xs, a =>
    if x.comm = a.comm then ⟨x.qty.plus a.qty, x.comm⟩ :: xs else x :: enter xs a

/-- The sums of a list of amounts, one line for each commodity. -/
def tally (as : List Amount) : List Amount := as.foldl enter []

/-- What is booked: the account and the amount, in the order of the journal. -/
abbrev Bookings := List (Path × Amount)

/-- What is booked to exactly this account. -/
def Bookings.own (b : Bookings) (p : Path) : List Amount := (b.filter (fun x => x.1 = p)).map (·.2)

/-- The name that follows on the way from an account to one below it. -/
def nextName : Path → Path → Option Str
  | [], n :: _ => some n
  | m :: p, n :: q => if m = n then nextName p q else none
  | _, [] => none

/-- One string comes before another, character by character. -/
def before : Str → Str → Bool
  | [], [] => false
  | [], _ :: _ => true
  | _ :: _, [] => false
  | a :: s, b :: t => a.toNat < b.toNat || (a = b && before s t)

/-- Sorting a name into a list of names, where each is kept once. -/
def sortIn (n : Str) : List Str → List Str
  | [] => [n]
  | m :: ms => if n = m then m :: ms else if before n m then n :: m :: ms else m :: sortIn n ms

/-- The names of the accounts directly below an account, sorted, each once. -/
def Bookings.names (b : Bookings) (p : Path) : List Str := (b.filterMap (fun x => nextName p x.1)).foldr sortIn []

/-- The total of an account: of what is booked to it, after the totals of the accounts directly below it, by name.  Below
it there are accounts at most so deep. -/
def Bookings.total (b : Bookings) : Nat → Path → List Amount
  | 0, _ => []
  | d + 1, p => tally ((b.names p).flatMap (fun n => total b d (p ++ [n])) ++ tally (b.own p))

/-- The names from the top account down, with colons between them; empty names above the account are left out. -/
def colons (p : Path) : Str := [':'].intercalate (p.dropLast.filter (· ≠ []) ++ p.getLast?.toList)

/-- The lines of a report for an account and the accounts below it. -/
def Bookings.lines (b : Bookings) : Nat → Path → List Str
  | 0, _ => []
  | d + 1, p => lineText (colons p) ⟨b.total (d + 1) p⟩ :: (b.names p).flatMap (fun n => lines b d (p ++ [n]))

/-- How deep the accounts are. -/
def Bookings.depth (b : Bookings) : Nat := (b.map (·.1.length)).foldr max 0

/-- The balance report of a list of bookings. -/
def Bookings.report (b : Bookings) : List Str := b.lines (b.depth + 1) []

end Ledger
