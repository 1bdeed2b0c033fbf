import Verif.Spec.Expr
/-
  Vocabulary for statements about graphs: what may happen between building and executing, where
  the elements of a view live, and the immediate counterpart of each graph operation.
-/
namespace Godeep.Spec
open Godeep GoNum

variable {T : Type} [GoNum T]

/-- What a program may do between building a graph (heap `h`) and a later moment (heap `h'`):
allocate, and write anything to any scalar, except to the scalars that the build created in
`lo ..< hi` and the graph's operations do not assign (the zero padding of `Reshape` and
`SubTensor`). -/
def PadKept (lo hi : Nat) (ops : List (Op T)) (h h' : Heap T) : Prop :=
  h.next ≤ h'.next ∧ ∀ q, lo ≤ q → q < hi → (∀ r, Op.asg q r ∉ ops) → h'.val q = h.val q

/-- every tensor of the expression has a well-defined shape -/
def WellShaped (s : Store T) (n : Nat) : Prop := (shapeOf s (n + 1) n).isSome

/-- that shape -/
def shp (s : Store T) (n : Nat) : List Nat := (shapeOf s (n + 1) n).getD []

/-- For the operations that do not compute (`Reshape`, `Transpose`, `SubTensor`, `Concat`): the
tensor and index where the element at `idx` of the result comes from; `none` if it is padding. -/
def _root_.Godeep.Kind.source (own : List Nat) (shape : Nat → List Nat) (idx : List Nat) :
    Kind T → Option (Nat × List Nat)
  | .reshape t =>
    if offset own idx < size (shape t) then some (t, unflat (shape t) (offset own idx)) else none
  | .transpose t => some (t, idx.reverse)
  | .sub d s _ _ t =>
    if idx.getD d 0 + s < (shape t).getD d 0 then some (t, idx.modify d (· + s)) else none
  | .concat d a b =>
    if idx.getD d 0 < (shape a).getD d 0 then some (a, idx)
    else some (b, idx.modify d (· - (shape a).getD d 0))
  | _ => none

/-- The cases in which the graph version and the immediate version of an operation are meant to
agree: `Reshape` to the same number of elements, padded sub-tensors inside or entirely past the end
of the source; everything else. -/
def _root_.Godeep.Kind.agrees (own : List Nat) (shape : Nat → List Nat) : Kind T → Prop
  | .leaf => False
  | .fill _ _ => False
  | .copy _ _ => False
  | .reshape t => size own = size (shape t)
  | .sub d s e true t => e ≤ (shape t).getD d 0 ∨ (shape t).getD d 0 < s
  | _ => True

/-- the immediate method with the same name as the graph operation, on the operands' `TensorMat`s;
`own` is the shape asked of `Reshape` -/
def _root_.Godeep.Kind.eager (get : Nat → Mat) (own : List Nat) :
    Kind T → Heap T → Out (Heap T) Mat
  | .op2 .add a b => (get a).add (get b)
  | .op2 .sub a b => (get a).sub (get b)
  | .op2 .mul a b => (get a).mulM (get b)
  | .op2 .div a b => (get a).div (get b)
  | .opScalar .add t p => (get t).addScalar p
  | .opScalar .sub t p => (get t).subScalar p
  | .opScalar .mul t p => (get t).mulScalar p
  | .opScalar .div t p => (get t).divScalar p
  | .neg t => (get t).neg
  | .abs t => (get t).abs
  | .act f t => (get t).activate f
  | .softMax t => (get t).softMax
  | .math .sum t => (get t).sum
  | .math .avg t => (get t).avg
  | .math .min t => (get t).min
  | .math .max t => (get t).max
  | .dimMath .sum d t => (get t).dsum d
  | .dimMath .avg d t => (get t).davg d
  | .dimMath .min d t => (get t).dmin d
  | .dimMath .max d t => (get t).dmax d
  | .dot none a b => (get a).dot (get b)
  | .dot (some (da, db)) a b => (get a).dotAt (get b) da db
  | .concat d a b => fun h => Out.ofRes h ((get a).concat (get b) d)
  | .sub d s e false t => (get t).subTensor d s e
  | .sub d s e true t => (get t).foSubTensor d s e zero
  | .reshape t => (get t).reshape own
  | .transpose t => (get t).transpose
  | .leaf => fun _ => .panic
  | .fill _ _ => fun _ => .panic
  | .copy _ _ => fun _ => .panic

end Godeep.Spec
