import Verif.Model.Go
import Mathlib.Algebra.Order.Field.Basic
/-
  Exact arithmetic: the element operations interpreted in an ordered field.  Used where a
  property is about the mathematics (sums, averages, gradients) rather than about which
  machine operations are performed in which order.
-/
namespace Godeep

/-- Exact ordered-field arithmetic.  Division never aborts (as for Go's floats). -/
@[reducible] def fieldNum (K : Type) [Field K] [LinearOrder K] [IsStrictOrderedRing K] : GoNum K where
  zero := 0
  one := 1
  add a b := a + b
  sub a b := a - b
  mul a b := a * b
  div a b := a / b
  neg a := -a
  divPanics _ _ := false
  lt a b := decide (a < b)
  eq a b := decide (a = b)
  ofNat n := n

end Godeep
