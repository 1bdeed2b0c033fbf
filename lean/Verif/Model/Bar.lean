import Verif.Model.Go
import Verif.Model.Float64
/-
  The progress bar of package `tools`.
-/
namespace Godeep

/-- `strings.Repeat` panics on a negative count -/
def repeatStr (c : Char) (n : ℤ) : Res (List Char) :=
  if n < 0 then .panic else .ok (List.replicate n.toNat c)

/-- `tools/bar.go:5-25` `Bar`; the string as its list of characters -/
def bar (pro : ℚ) (size : ℤ) : Res (List Char) :=
  if size ≤ 0 then .ok []
  else if size < 4 then repeatStr '.' size
  else
    let size := size - 2
    let prog := truncInt (fl64 (fl64 size * pro))
    let left := size - prog
    let left := if left < 0 then 0 else left
    (repeatStr '#' prog).bind fun a =>
      (repeatStr ' ' left).map fun b => ['['] ++ a ++ b ++ [']']

end Godeep
