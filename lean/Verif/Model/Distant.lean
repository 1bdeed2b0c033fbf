import Verif.Model.Go
/-
  `tools.Distant`
-/
namespace Godeep
open GoNum
variable {T : Type} [GoNum T]

/-- loop of `tools/tools.go:139-143`; `d` is the sum so far -/
def sumSquares : List T → List T → T → T
  | x :: l, y :: l', d => sumSquares l l' (add d (mul (sub x y) (sub x y)))
  | _, _, d => d

/-- `tools/tools.go:131-145` `Distant`; `root` is `T(math.Sqrt(float64(d)))`, from the Go standard library -/
def distant (root : T → T) (t1 t2 : List T) : Res T :=
  if t1.length ≠ t2.length then .err (.size t1.length t2.length)
  else .ok (root (sumSquares t1 t2 zero))

end Godeep
