import Verif.Model.Layer
import Mathlib.Data.Rat.Defs
/-
  Package `activation`.  `F` plays the role of `float64`; `Cast.toF` and `Cast.ofF` are the conversions
  `float64(n)` and `T(x)`.  `Linear` is in `Model/Layer.lean`.
-/
namespace Godeep
open GoNum

/-- `float64` with the functions of package `math` the code calls; `lit q` is a constant `q` of the source -/
class GoFloat (F : Type) extends GoNum F where
  exp : F → F
  tanh : F → F
  sin : F → F
  cos : F → F
  cosh : F → F
  sqrt : F → F
  pow : F → F → F
  pi : F
  lit : ℚ → F

/-- conversions between the element type and `float64` -/
class Cast (T F : Type) where
  toF : T → F
  ofF : F → T

namespace Activation
open GoFloat Cast
variable {T F : Type} [GoNum T] [GoFloat F] [Cast T F]

/-- Go's `a >= b` on numbers that are not NaN -/
def ge (a b : T) : Bool := !lt a b

/-- `activation/elu.go:13-18` `ELU.Activate` -/
def eluActivate (F : Type) [GoFloat F] [Cast T F] (alpha n : T) : T :=
  if ge n zero then n
  else mul alpha (ofF (F := F) (sub (exp (toF n)) one))

/-- `activation/elu.go:9-11,20-25` `ELU` -/
def elu (F : Type) [GoFloat F] [Cast T F] (alpha : T) : Activation T where
  activate := eluActivate F alpha
  derive n := if ge n zero then n else add (eluActivate F alpha n) alpha

/-- `activation/selu.go:7-18` `SELU` -/
def selu (F : Type) [GoFloat F] [Cast T F] (alpha lambda : T) : Activation T where
  activate n := mul lambda ((elu F alpha).activate n)
  derive n := mul lambda ((elu F alpha).derive n)

/-- `activation/gelu.go:11-14` `GELU.Activate` -/
def geluActivate (F : Type) [GoFloat F] [Cast T F] (n : T) : T :=
  let x : F := toF n
  ofF (mul (mul (lit (1 / 2)) x) (add one (tanh (mul (sqrt (div (lit 2) pi))
    (add x (mul (lit (44715 / 1000000)) (pow x (lit 3))))))))

/-- `activation/gelu.go:9,16-23` `GELU` -/
def gelu (F : Type) [GoFloat F] [Cast T F] : Activation T where
  activate := geluActivate F
  derive x :=
    let h : T := ofF (lit (1 / 1000000) : F)
    let h := if eq h zero then add h one else h
    div (sub (geluActivate F (add x h)) (geluActivate F (sub x h))) (mul (ofNat 2) h)

/-- `activation/relu.go:7-23` `Relu` -/
def relu (alpha : T) : Activation T where
  activate t := if lt t zero then mul t alpha else t
  derive t := if lt t zero then alpha else one

/-- `activation/sigmoid.go:11-13` `Sigmoid.Activate` -/
def sigmoidActivate (F : Type) [GoFloat F] [Cast T F] (t : T) : T :=
  div one (add one (ofF (F := F) (exp (toF (neg t)))))

/-- `activation/sigmoid.go:9-18` `Sigmoid` -/
def sigmoid (F : Type) [GoFloat F] [Cast T F] : Activation T where
  activate := sigmoidActivate F
  derive t := mul (sigmoidActivate F t) (sub one (sigmoidActivate F t))

/-- `activation/sin.go:9-17` `Sin` -/
def sine (F : Type) [GoFloat F] [Cast T F] : Activation T where
  activate t := ofF (F := F) (sin (toF t))
  derive t := ofF (F := F) (cos (toF t))

/-- `activation/swish.go:11-13` `Swish.Activate` -/
def swishActivate (F : Type) [GoFloat F] [Cast T F] (t : T) : T := mul t (sigmoidActivate F t)

/-- `activation/swish.go:7-17` `Swish` -/
def swish (F : Type) [GoFloat F] [Cast T F] : Activation T where
  activate := swishActivate F
  derive t := add (swishActivate F t) (mul (sigmoidActivate F t) (sub one (swishActivate F t)))

/-- `activation/tanh.go:9-17` `Tanh` -/
def hyperTan (F : Type) [GoFloat F] [Cast T F] : Activation T where
  activate t := ofF (F := F) (tanh (toF t))
  derive t := ofF (F := F) (div one (pow (cosh (toF t)) (lit 2)))

end Activation
end Godeep
