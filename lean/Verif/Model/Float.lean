import Mathlib.Data.Int.Log
import Mathlib.Data.Real.Archimedean
import Mathlib.Algebra.Order.Archimedean.Real.Basic

/-!
# Model of `float` and `double`

The result of an operation on floating-point numbers is the exact result rounded to the nearest number with a significand of
`p` bits (24 for `float`, 53 for `double`), ties to even (IEEE 754, the default rounding mode; every source file of the
library relies on it). The range of exponents is not bounded: overflow and subnormal numbers are not modelled, nor are signed
zeros, infinities and NaN.
-/

namespace PathPlanning.Flt

/-- The nearest integer, ties to even. -/
noncomputable def rne (x : ℝ) : ℤ :=
  if x - ⌊x⌋ < 1 / 2 then ⌊x⌋
  else if 1 / 2 < x - ⌊x⌋ then ⌊x⌋ + 1
  else if Even ⌊x⌋ then ⌊x⌋ else ⌊x⌋ + 1

/-- The exponent of the last bit of a number of the size of `x` with a significand of `p` bits. -/
noncomputable def lastBit (p : ℕ) (x : ℝ) : ℤ := Int.log 2 |x| - (p - 1)

/-- Rounding to a significand of `p` bits. -/
noncomputable def fl (p : ℕ) (x : ℝ) : ℝ := rne (x / 2 ^ lastBit p x) * 2 ^ lastBit p x

/-- Rounding to a `float`. -/
noncomputable def fl32 (x : ℝ) : ℝ := fl 24 x

/-- Rounding to a `double`. -/
noncomputable def fl64 (x : ℝ) : ℝ := fl 53 x

/-- The numbers with a significand of `p` bits. -/
def IsFlt (p : ℕ) (x : ℝ) : Prop := fl p x = x

end PathPlanning.Flt
