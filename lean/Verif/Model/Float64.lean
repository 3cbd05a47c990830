/-!
# Python floats

Non-negative IEEE 754 binary64 numbers as rational numbers; `none` is infinity.  Negative numbers and
NaN do not occur in the modelled code.  These definitions are part of the trusted base: they write down
rounding to nearest, ties to even.
-/
namespace Verif.F64

/-- `2 ** k` -/
def pow2 (k : Int) : Rat :=
  if 0 ≤ k then (2 ^ k.toNat : Nat) else 1 / ((2 ^ (-k).toNat : Nat) : Rat)

/-- The greatest `k` with `2 ** k ≤ x`, for positive `x`. -/
def expo (x : Rat) : Int :=
  let k : Int := (Nat.log2 x.num.toNat : Int) - (Nat.log2 x.den : Int)
  if pow2 k ≤ x then k else k - 1

/-- The nearest integer, ties to even. -/
def nearest (x : Rat) : Int :=
  let f := x.floor
  let r := x - f
  if r < 1 / 2 then f else if 1 / 2 < r then f + 1 else if f % 2 = 0 then f else f + 1

/-- The exponent of the last place of a binary64 number of the size of `x`. -/
def place (x : Rat) : Int := max (expo x - 52) (-1074)

/-- The result of an operation with exact result `x ≥ 0`. -/
def round (x : Rat) : Option Rat :=
  let y := nearest (x / pow2 (place x)) * pow2 (place x)
  if y < pow2 1024 then some y else none

end Verif.F64
