/-
Model of sortfloat/float.go. A `float64` is its bit pattern.
-/
namespace RankDB.SortFloat

/-- The bit pattern of a `float64`. -/
abbrev Bits := BitVec 64

/-- Sign bit of an IEEE 754 binary64. -/
def sign (a : Bits) : Bool := decide (2 ^ 63 ≤ a.toNat)
/-- Exponent field. -/
def expo (a : Bits) : Nat := a.toNat / 2 ^ 52 % 2 ^ 11
/-- Fraction field. -/
def frac (a : Bits) : Nat := a.toNat % 2 ^ 52

/-- IEEE 754: not a number (`a != a` in Go). -/
def isNaN (a : Bits) : Bool := decide (expo a = 2047 ∧ frac a ≠ 0)

/-- The value of a number that is not NaN, in units of 2^-1074 (the smallest positive float64).
Infinities get a value beyond all finite ones. -/
def value (a : Bits) : Int :=
  let m : Int := if expo a = 0 then frac a else ((2 ^ 52 + frac a) * 2 ^ (expo a - 1) : Nat)
  if sign a then -m else m

/-- IEEE 754 `a == 0`; both zeros. -/
def isZero (a : Bits) : Bool := !isNaN a && decide (value a = 0)
/-- IEEE 754 `a < 0`. -/
def isNeg (a : Bits) : Bool := !isNaN a && decide (value a < 0)

/-- sortfloat/float.go:12-30 `SortableFloat64`. -/
def sortable (a : Bits) : Bits :=
  if isNaN a then 0
  else if isZero a then 0x8000000000000000
  else if isNeg a then a ^^^ 0xFFFFFFFFFFFFFFFF
  else a ^^^ 0x8000000000000000

/-- `math.NaN()`. -/
def nan : Bits := 0x7FF8000000000001

/-- sortfloat/float.go:33-43 `ReverseFloat64`. -/
def reverse (a : Bits) : Bits :=
  if a = 0 then nan
  else
    let a := if a >>> 63 = 0 then a ^^^ 0x7FFFFFFFFFFFFFFF else a
    a ^^^ 0x8000000000000000

end RankDB.SortFloat
