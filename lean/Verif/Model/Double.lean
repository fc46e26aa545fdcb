import Mathlib.Data.Int.Log
import Mathlib.Data.Rat.Floor

/-!
# Double precision

The numbers that a C++ `double` can hold, with a significand of 53 bits, and rounding to the nearest of them, ties to
even (IEEE 754, as on all platforms the code is compiled for). The exponent is not bounded, so that there is no
overflow to infinity and no loss of bits for very small numbers; infinities and nans are not modelled.
-/

namespace KMC

/-- A number that a `double` can hold. -/
def IsDouble (x : ℚ) : Prop := ∃ m e : ℤ, |m| ≤ 2 ^ 53 ∧ x = m * 2 ^ e

/-- Rounding to the nearest `double`; how ties are broken is left open. -/
structure Rounding (fl : ℚ → ℚ) : Prop where
  isDouble : ∀ x, IsDouble (fl x)
  nearest : ∀ x y, IsDouble y → |fl x - x| ≤ |y - x|

/-- Rounding to an integer, ties to even. -/
def roundEven (q : ℚ) : ℤ :=
  if q - ⌊q⌋ < 1 / 2 then ⌊q⌋
  else if 1 / 2 < q - ⌊q⌋ then ⌊q⌋ + 1
  else if ⌊q⌋ % 2 = 0 then ⌊q⌋ else ⌊q⌋ + 1

/-- The exponent of the last bit of the significand. -/
def lastBit (x : ℚ) : ℤ := Int.log 2 |x| - 52

/-- Rounding to the nearest `double`, ties to even. -/
def toDouble (x : ℚ) : ℚ := roundEven (x / 2 ^ lastBit x) * 2 ^ lastBit x

end KMC
