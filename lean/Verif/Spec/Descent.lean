import Verif.Spec.Learn
import Verif.Props.Gradient
import Mathlib.Analysis.SpecialFunctions.Log.Basic
/-
  What it means that training is gradient descent, for networks with layers of any kind, over the real numbers.
-/
namespace Godeep.Spec
open Godeep Godeep.Props

/-- minus the sum of `y log o + (1 - y) log (1 - o)` -/
noncomputable def crossEntropy (y o : STensor ℝ) : ℝ :=
  -((allIdx o.shape).map fun idx => y.get idx * Real.log (o.get idx) + (1 - y.get idx) * Real.log (1 - o.get idx)).sum

/-- `pv` has the shapes of weights and biases of the layers `ls`, on an input of shape `s` -/
def ParamsFit : List (LSpec ℝ) → List Nat → List (List (STensor ℝ)) → Prop
  | [], _, [] => True
  | l :: ls, s, p :: ps => p.map STensor.shape = l.paramShapes s ∧ ParamsFit ls (l.outShape s) ps
  | _, _, _ => False

/-- the activation of a layer with weights -/
def LSpec.actOf : LSpec ℝ → Option (Activation ℝ)
  | .dense _ a => some a
  | .conv _ _ _ _ _ a => some a
  | .deconv _ _ _ _ _ a => some a
  | _ => none

/-- The layer has a derivative at input `x`, and its code for back-propagation follows it.  Activations must be differentiable, with the derivative
that the code has, at the values that occur; where a maximum is taken it must not occur twice.  `Norm`, `ENorm` and `SoftMax` are left out. -/
def LSpec.SmoothAt : LSpec ℝ → List (STensor ℝ) → STensor ℝ → Prop
  | .dense n a, p, x => ∀ idx, InRange [n] idx →
      HasDerivAt a.activate (a.derive (((LSpec.dense n a).neta p x).get idx)) (((LSpec.dense n a).neta p x).get idx)
  | .conv nf kw kh sx sy a, p, x => ∀ idx, InRange ((LSpec.conv nf kw kh sx sy a).outShape x.shape) idx →
      HasDerivAt a.activate (a.derive (((LSpec.conv nf kw kh sx sy a).neta p x).get idx)) (((LSpec.conv nf kw kh sx sy a).neta p x).get idx)
  | .deconv nf kw kh sx sy a, p, x => ∀ idx, InRange ((LSpec.deconv nf kw kh sx sy a).outShape x.shape) idx →
      HasDerivAt a.activate (a.derive (((LSpec.deconv nf kw kh sx sy a).neta p x).get idx)) (((LSpec.deconv nf kw kh sx sy a).neta p x).get idx)
  | .maxPool sx sy, _, x => ∀ idx, InRange (maxPoolFn sx sy x).shape idx →
      ∀ p ∈ window sx sy (x.shape.getD 1 0) (x.shape.getD 2 0) (idx.getD 1 0) (idx.getD 2 0),
      ∀ q ∈ window sx sy (x.shape.getD 1 0) (x.shape.getD 2 0) (idx.getD 1 0) (idx.getD 2 0),
        x.get [idx.getD 0 0, p.1, p.2] = (maxPoolFn sx sy x).get idx → x.get [idx.getD 0 0, q.1, q.2] = (maxPoolFn sx sy x).get idx → p = q
  | .flatten, _, _ => True
  | .sub _ _ _, _, _ => True
  | .upSampling _, _, _ => True
  | _, _, _ => False

/-- all layers have derivatives at the values that they get -/
def Smooth : List (LSpec ℝ) → List (List (STensor ℝ)) → STensor ℝ → Prop
  | l :: ls, p :: ps, x => l.SmoothAt p x ∧ Smooth ls ps (l.fn p x)
  | _, _, _ => True

/-- the activation of the last layer with weights -/
def lastAct (ls : List (LSpec ℝ)) : Option (Activation ℝ) := (ls.filterMap LSpec.actOf).getLast?

/-- the number of `Flatten` layers at the beginning, plus one -/
def behind (ls : List (LSpec ℝ)) : Nat := (ls.takeWhile LSpec.isFlatten).length + 1

/-- How much smaller than they should be the errors are that `ls` pass back: the product, over the layers other than `Flatten`, of one plus the
number of `Flatten` layers directly behind. -/
def smaller : List (LSpec ℝ) → Nat
  | [] => 1
  | l :: ls => smaller ls * (if l.isFlatten then 1 else behind ls)

/-- the same for the weights of layer `k`; those of convolutions are not affected by `Flatten` layers directly behind -/
def slowdown (ls : List (LSpec ℝ)) (k : Nat) : Nat :=
  smaller (ls.drop (k + 1)) * (match ls[k]? with
    | some (.dense _ _) => behind (ls.drop (k + 1))
    | _ => 1)

/-- the last change `mv` of element `idx` of tensor `c` (0 the weights, 1 the biases) of layer `k`; it is remembered only for the
biases of convolutions -/
def lastChange (mv : List (List (STensor ℝ))) (k c : Nat) (idx : List Nat) : ℝ :=
  if c = 1 then match mv[k]? with
    | some [M] => M.get idx
    | _ => 0
  else 0

/-- the weights `pv` and `pv'` have the same elements -/
def SameWeights (pv pv' : List (List (STensor ℝ))) : Prop :=
  List.Forall₂ (List.Forall₂ fun A B => B.shape = A.shape ∧ ∀ idx, InRange A.shape idx → B.get idx = A.get idx) pv pv'

end Godeep.Spec
