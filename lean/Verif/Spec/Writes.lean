import Verif.Spec.Tensor
/-
  Histories of element writes through the API.
-/
namespace Godeep.Spec
open Godeep
variable {T : Type} [GoNum T]

/-- the heap after a sequence of `Set(value, index)` calls on `m`; a call returning an
error leaves the heap it reports, an aborting call ends the program (no further effect) -/
def afterSets (m : Mat) : List (T × List Nat) → Heap T → Heap T
  | [], h => h
  | (v, idx) :: ws, h =>
    match m.set v idx h with
    | .ok _ h' => afterSets m ws h'
    | .err _ h' => afterSets m ws h'
    | .panic => h

end Godeep.Spec
