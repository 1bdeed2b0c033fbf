import Mathlib.Data.Rat.Defs
import Mathlib.Algebra.Order.Field.Basic
import Mathlib.Algebra.Order.Ring.Rat
/-
  IEEE 754 binary formats as numbers: the value of a bit pattern given as sign, exponent field and
  fraction field, with no reference to how conversions are computed.
-/
namespace Godeep.Spec

/-- sign, exponent field, fraction field of a 16-bit pattern (1, 5 and 10 bits) -/
def half (s e m : Nat) : BitVec 16 := BitVec.ofNat 16 (s * 2 ^ 15 + e * 2 ^ 10 + m)

/-- sign, exponent field, fraction field of a 32-bit pattern (1, 8 and 23 bits) -/
def single (s e m : Nat) : BitVec 32 := BitVec.ofNat 32 (s * 2 ^ 31 + e * 2 ^ 23 + m)

/-- value of a finite number with fraction field of `p` bits, exponent field `e`, bias `bias`:
`±0.m * 2^(1-bias)` for `e = 0`, `±1.m * 2^(e-bias)` otherwise -/
def ieee (p : Nat) (bias : Int) (s e m : Nat) : ℚ :=
  (-1) ^ s * (if e = 0 then (m / 2 ^ p) * (2 : ℚ) ^ (1 - bias)
    else (1 + m / 2 ^ p) * (2 : ℚ) ^ ((e : Int) - bias))

/-- value of a finite half-precision number -/
def halfVal (s e m : Nat) : ℚ := ieee 10 15 s e m

/-- value of a finite single-precision number -/
def singleVal (s e m : Nat) : ℚ := ieee 23 127 s e m

end Godeep.Spec
