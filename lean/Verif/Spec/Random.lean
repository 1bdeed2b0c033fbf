import Mathlib.Data.Rat.Floor
import Mathlib.Algebra.Order.Field.Rat
/-
  Numbers with a given number of significant bits.
-/
namespace Godeep.Spec

/-- `q` is a number with at most `bits` significant binary digits: 53 for `float64`, 24 for `float32`
(the range of exponents is not limited here) -/
def IsFloat (bits : Nat) (q : ℚ) : Prop := ∃ m e : ℤ, |m| < 2 ^ bits ∧ q = m * 2 ^ e

/-- what `rand.Float64()` returns: a `float64` in [0, 1) -/
def Draw (u : ℚ) : Prop := IsFloat 53 u ∧ 0 ≤ u ∧ u < 1

end Godeep.Spec
