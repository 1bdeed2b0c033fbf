import Verif.Spec.Half
/-
  What IEEE 754 asks of arithmetic: the result is the exact result, rounded.
-/
namespace Godeep.Spec

/-- sign, exponent field, fraction field of a 64-bit pattern (1, 11 and 52 bits) -/
def double (s e m : Nat) : BitVec 64 := BitVec.ofNat 64 (s * 2 ^ 63 + e * 2 ^ 52 + m)

/-- value of a finite double-precision number -/
def doubleVal (s e m : Nat) : ℚ := ieee 52 1023 s e m

/-- the fields of finite numbers -/
def FiniteHalf (s e m : Nat) : Prop := s < 2 ∧ e < 31 ∧ m < 1024
def FiniteSingle (s e m : Nat) : Prop := s < 2 ∧ e < 255 ∧ m < 2 ^ 23
def FiniteDouble (s e m : Nat) : Prop := s < 2 ∧ e < 2047 ∧ m < 2 ^ 52

/-- `c` is a finite `float32`, and no other is nearer to `q` -/
def NearestSingle (q : ℚ) (c : BitVec 32) : Prop :=
  ∃ s e m, FiniteSingle s e m ∧ c = single s e m ∧
    ∀ s' e' m', FiniteSingle s' e' m' → |singleVal s e m - q| ≤ |singleVal s' e' m' - q|

/-- `c` is `q` rounded to half precision: to nearest, ties to the number with even fraction, the sign
that of `q`, and infinity from 65520 on, which is halfway between the largest finite half and the next
step -/
def RoundedHalf (q : ℚ) (c : BitVec 16) : Prop :=
  if |q| < 65520 then
    ∃ s e m, FiniteHalf s e m ∧ c = half s e m ∧ (0 < q → s = 0) ∧ (q < 0 → s = 1) ∧
      ∀ s' e' m', FiniteHalf s' e' m' →
        |halfVal s e m - q| ≤ |halfVal s' e' m' - q| ∧
        (|halfVal s e m - q| = |halfVal s' e' m' - q| → halfVal s' e' m' = halfVal s e m ∨ m % 2 = 0)
  else c = half (if q < 0 then 1 else 0) 31 0

end Godeep.Spec
