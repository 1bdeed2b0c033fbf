import Verif.Spec.Net
/-
  What `FromModels` is expected to do.
-/
namespace Godeep.Spec
open Godeep GoNum

variable {T : Type} [GoNum T]

/-- The program that makes sequential models, with the given input shapes and layers, and joins them by `FromModels`.
The result: the models, and the joined model. -/
def joined (nets : List (List Nat × List (LSpec T))) : Run T (List Nat × Nat) := do
  let ms ← Run.collect nets fun p => sequential p.1 p.2
  let m ← NetM.fromModels ms
  return (ms, m)

/-- the weights and biases of the layers after `f`, to layer `l` -/
inductive ParamsFrom (w : World T) (f : Nat) : Nat → List (List Mat) → Prop where
  | first : ParamsFrom w f f []
  | layer {l p : Nat} {ps : List (List Mat)} : l ≠ f → (w.layers l).pre = some p → ParamsFrom w f p ps →
      ParamsFrom w f l (ps ++ [layerParams w l])

/-- The weights and biases of the layers of model `m`, without those of the models before it, have the values `pv` in state `w`.
`w1`: the state in which its first and its last layer are looked up. -/
def PartParams (w1 w : World T) (m : Nat) (pv : List (List (STensor T))) : Prop :=
  ∃ f l ps, (w1.nets m).first = some f ∧ (w1.nets m).last = some l ∧ ParamsFrom w f l ps ∧
    List.Forall₂ (List.Forall₂ (Holds w.store.heap)) ps pv

/-- the composition of the functions of models, the first model first -/
def composed : List (List (LSpec T)) → List (List (List (STensor T))) → STensor T → STensor T
  | ls :: lss, pv :: pvs, x => composed lss pvs (netFn ls pv x)
  | _, _, x => x

end Godeep.Spec
