import Verif.Model.Mat
import Verif.Model.Img
import Verif.Model.Float64
/-
  Constructors that draw from a range, and the constructors of `number/constructors.go`.
  The generator is not modelled: a draw is a parameter `u`, the result of `rand.Float64()`.
  Intermediate `float64` results are rounded one by one (as on amd64; a compiler that fuses `x*y + z`
  would round once).
-/
namespace Godeep
open GoNum

/-- the expression `rand.Float64()*(max-min) + min` of `tensor/constructor.go:41`, in `float64` -/
def randIn (u min max : ℚ) : ℚ := fl64 (fl64 (u * fl64 (max - min)) + min)

namespace Mat
variable {T : Type} [GoNum T] [Conv T]

/-- `tensor/constructor.go:38-46` `NewRand`: `u i` is the draw for element `i` -/
def newRandIn (u : Nat → ℚ) (min max : ℚ) (shape : List Nat) (h : Heap T) : Out (Heap T) Mat :=
  (Heap.allocEach (fun i _ => .ok (Conv.ofF (randIn (u i) min max))) (List.range (dataSize shape)) h).map
    fun ops => ⟨shape, indexMul shape, ops⟩

end Mat

namespace Number
variable {T : Type} [GoNum T]

/-- `number/constructors.go:9-13` `NewScalar` -/
def newScalar (val : T) (h : Heap T) : Ptr × Heap T := h.alloc val

/-- `number/constructors.go:15-17` `ScalarZero` -/
def scalarZero (h : Heap T) : Ptr × Heap T := h.alloc zero

/-- `number/constructors.go:19-23` `ScalarOne` -/
def scalarOne (h : Heap T) : Ptr × Heap T := h.alloc one

/-- the expression of `number/constructors.go:27`: the draw is converted before it is scaled -/
def randBetween [Conv T] (u : ℚ) (min max : T) : T := add (mul (Conv.ofF u) (sub max min)) min

/-- `number/constructors.go:25-29` `ScalarRand` -/
def scalarRand [Conv T] (u : ℚ) (min max : T) (h : Heap T) : Ptr × Heap T := h.alloc (randBetween u min max)

/-- `number/constructors.go:31-35` `ScalarNorm`: `g` is the result of `rand.NormFloat64()` -/
def scalarNorm [Conv T] (g : ℚ) (h : Heap T) : Ptr × Heap T := h.alloc (Conv.ofF g)

end Number

end Godeep
