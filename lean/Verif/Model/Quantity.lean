import Verif.Model.Basic
/-
`Quantity` (src/amount.rs:202-307), a newtype over `rust_decimal::Decimal`.

`rust_decimal` is a dependency whose source is not part of `/repo`.  This file is an executable model of
the operations the crate uses: a decimal is a sign, a 96-bit mantissa and a scale of at most 28; results that
do not fit are rounded half to even by dropping decimals, and panic when even the integer part does not fit.
-/
namespace Ledger

/-- `rust_decimal::Decimal`: the number `(-1)^neg * mant / 10^scale`. -/
structure Dec where
  neg : Bool
  mant : Nat
  scale : Nat
deriving DecidableEq, Repr

namespace Dec

/-- Representable by rust_decimal: 96-bit mantissa, at most 28 decimals. -/
def Valid (d : Dec) : Prop := d.mant < 2 ^ 96 ∧ d.scale ≤ 28

instance (d : Dec) : Decidable d.Valid := by unfold Valid; infer_instance

/-- amount.rs:206 -/
def zero : Dec := ⟨false, 0, 0⟩
/-- amount.rs:207 -/
def one : Dec := ⟨false, 1, 0⟩

/-- amount.rs:222-224 -/
def isZero (d : Dec) : Bool := d.mant == 0
/-- amount.rs:218-220.  The sign flag, also for zero. -/
def isSignPositive (d : Dec) : Bool := !d.neg
/-- amount.rs:226-228 -/
def setSignNegative (d : Dec) : Dec := { d with neg := true }
/-- amount.rs:230-232 -/
def setSignPositive (d : Dec) : Dec := { d with neg := false }

/-- Rounded quotient, half to even. -/
def roundDiv (n d : Nat) : Nat :=
  let q := n / d
  let r := n % d
  if d < 2 * r || (2 * r == d && q % 2 == 1) then q + 1 else q

/-- Try dropping `k`, `k+1`, ... decimals until the mantissa fits in 96 bits. -/
def fitGo (neg : Bool) (m s : Nat) : Nat → Nat → Res Dec
  | 0, _ => .error .decimalOverflow
  | f + 1, k =>
    let q := roundDiv m (10 ^ k)
    if q < 2 ^ 96 then .ok ⟨neg, q, s - k⟩ else fitGo neg m s f (k + 1)

/-- Bring an exact result `(-1)^neg * m / 10^s` into the representable range: the scale is limited to 28 and
decimals are dropped as needed; panics if the integer part does not fit. -/
def fit (neg : Bool) (m s : Nat) : Res Dec := fitGo neg m s (min s 28 + 1) (s - 28)

/-- `Decimal + Decimal`, amount.rs:261-273.  A zero operand returns the other operand unchanged (with its
scale); otherwise the scale is the larger one. -/
def add (a b : Dec) : Res Dec :=
  if a.isZero then .ok b
  else if b.isZero then .ok a
  else
    let s := max a.scale b.scale
    let ma := a.mant * 10 ^ (s - a.scale)
    let mb := b.mant * 10 ^ (s - b.scale)
    if a.neg = b.neg then fit a.neg (ma + mb) s
    else if ma < mb then fit b.neg (mb - ma) s
    else if ma = mb then fit false 0 s
    else fit a.neg (ma - mb) s

/-- `Decimal - Decimal`, amount.rs:297-301. -/
def sub (a b : Dec) : Res Dec :=
  if b.isZero then (if a.isZero then .ok b else .ok a)
  else add a { b with neg := !b.neg }

/-- `Decimal * Decimal`, amount.rs:283-295.  A zero operand gives `0` with scale 0. -/
def mul (a b : Dec) : Res Dec :=
  if a.isZero || b.isZero then .ok zero
  else fit (a.neg != b.neg) (a.mant * b.mant) (a.scale + b.scale)

/-- Remove trailing zero decimals. -/
def strip (neg : Bool) : Nat → Nat → Dec
  | m, 0 => ⟨neg, m, 0⟩
  | m, s + 1 => if m % 10 = 0 then strip neg (m / 10) s else ⟨neg, m, s + 1⟩

/-- Quotient with `s` decimals, or fewer if the mantissa does not fit. -/
def divGo (neg : Bool) (n d : Nat) : Nat → Res Dec
  | 0 => let q := roundDiv n d
         if q < 2 ^ 96 then .ok ⟨neg, q, 0⟩ else .error .decimalOverflow
  | s + 1 => let q := roundDiv (n * 10 ^ (s + 1)) d
             if q < 2 ^ 96 then .ok (strip neg q (s + 1)) else divGo neg n d s

/-- `Decimal / Decimal`, amount.rs:275-281: panics on a zero divisor; otherwise the quotient rounded half to
even to the largest number of decimals (at most 28) that fits. -/
def div (a b : Dec) : Res Dec :=
  if b.isZero then .error .divByZero
  else if a.isZero then .ok zero
  else divGo (a.neg != b.neg) (a.mant * 10 ^ b.scale) (b.mant * 10 ^ a.scale) 28

/-- `PartialEq` of `Decimal` (amount.rs:202 derive): numeric equality, `1.0 == 1.00`, `0 == -0`. -/
def numEq (a b : Dec) : Bool :=
  let ma := a.mant * 10 ^ b.scale
  let mb := b.mant * 10 ^ a.scale
  ma == mb && (a.neg == b.neg || ma == 0)

/-- amount.rs:235-239 `From<i32>`. -/
def ofI32 (v : Int) : Dec := ⟨decide (v < 0), v.natAbs, 0⟩

/-- amount.rs:255-259 `Into<i32>`: `to_i32().unwrap()`, truncating decimals. -/
def toI32 (d : Dec) : Res Int :=
  let q : Int := (d.mant / 10 ^ d.scale : Nat)
  let v := if d.neg then -q else q
  if -2147483648 ≤ v ∧ v ≤ 2147483647 then .ok v else .error .notAnI32

/-- Value of a digit character. -/
def digitVal (c : Char) : Nat := c.toNat - 48

/-- Digits, decimal point and separators after an optional sign, as `Decimal::from_str_exact` reads them. -/
def parseGo (neg : Bool) : Str → Bool → Bool → Nat → Nat → Option Dec
  | [], _, has, m, s => if has then some ⟨neg && m != 0, m, s⟩ else none
  | c :: cs, point, has, m, s =>
    if isDig c then
      let m' := m * 10 + digitVal c
      let s' := if point then s + 1 else s
      if m' < 2 ^ 96 ∧ s' ≤ 28 then parseGo neg cs point true m' s' else none
    else if c = '.' ∧ point = false then parseGo neg cs true has m s
    else if c = '_' ∧ has = true then parseGo neg cs point has m s
    else none

/-- amount.rs:209-216 `Quantity::from_str` (`Decimal::from_str_exact`). -/
def fromStr (s : Str) : Option Dec :=
  match s with
  | '-' :: cs => parseGo true cs false false 0 0
  | '+' :: cs => parseGo false cs false false 0 0
  | cs => parseGo false cs false false 0 0

/-- The digit character of a number below 10. -/
def digitChar (n : Nat) : Char := Char.ofNat (48 + n)

/-- Decimal digits of a number, most significant first, with fuel. -/
def digitsAux : Nat → Nat → Str → Str
  | 0, _, acc => acc
  | f + 1, n, acc =>
    if n / 10 = 0 then digitChar (n % 10) :: acc
    else digitsAux f (n / 10) (digitChar (n % 10) :: acc)

/-- Decimal digits of a natural number. -/
def natDigits (n : Nat) : Str := digitsAux (n + 1) n []

/-- amount.rs:303-307 `Display for Quantity`: sign, integer part, and exactly `scale` decimals. -/
def display (d : Dec) : Str :=
  let ds := natDigits d.mant
  let padded := List.replicate (d.scale + 1 - ds.length) '0' ++ ds
  let body :=
    if d.scale = 0 then ds
    else padded.take (padded.length - d.scale) ++ '.' :: padded.drop (padded.length - d.scale)
  if d.neg then '-' :: body else body

end Dec
end Ledger
