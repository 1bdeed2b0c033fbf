import Mathlib.Data.Int.Log
import Mathlib.Data.Rat.Floor
import Mathlib.Algebra.Order.Field.Rat
/-
  Finite `float64` arithmetic: a value is the rational number it stands for, and every operation
  rounds its exact result to 53 significant bits, ties to even (IEEE 754, Go specification
  "Numeric types").  Not modelled: overflow to infinity, subnormal numbers, NaN, the sign of zero.
-/
namespace Godeep

/-- nearest integer, ties to the even one -/
def halfEven (q : ℚ) : ℤ :=
  if q - ⌊q⌋ < 1 / 2 then ⌊q⌋
  else if 1 / 2 < q - ⌊q⌋ then ⌊q⌋ + 1
  else if ⌊q⌋ % 2 = 0 then ⌊q⌋ else ⌊q⌋ + 1

/-- rounding to 53 significant bits -/
def fl64 (q : ℚ) : ℚ :=
  if q = 0 then 0
  else halfEven (q / 2 ^ (Int.log 2 |q| - 52)) * 2 ^ (Int.log 2 |q| - 52)

/-- the conversions `uint(x)` and `int(x)` of a float: the fraction is dropped.  `uint` of a negative
number depends on the machine; the code modelled here never does that. -/
def truncNat (q : ℚ) : Nat := ⌊q⌋.toNat

def truncInt (q : ℚ) : ℤ := if 0 ≤ q then ⌊q⌋ else ⌈q⌉

end Godeep
