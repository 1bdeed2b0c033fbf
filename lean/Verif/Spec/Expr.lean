import Verif.Model.Lazy
import Verif.Spec.Tensor
/-
  The meaning of a tensor expression: each graph tensor is the mathematical operation applied
  to the values of the tensors it was made from.
-/
namespace Godeep
open Spec GoNum

variable {T : Type} [GoNum T]

/-- the arithmetic operation named by `Oper2` / `OperScalar` -/
def Arith.fn : Arith → T → T → T
  | .add => GoNum.add
  | .sub => GoNum.sub
  | .mul => GoNum.mul
  | .div => GoNum.div

/-- the reduction named by `OperTensor` / `OperDim`; sums run from the first element -/
def Red.fn : Red → List T → T
  | .sum => sum1
  | .avg => fun vs => GoNum.div (sum1 vs) (GoNum.ofNat vs.length)
  | .min => min1
  | .max => max1

namespace Spec

/-- the tensor a `TensorMat` holds when the scalars have the values `val` -/
def ofMat (val : Ptr → T) (m : Mat) : STensor T := STensor.ofValues (m.ops.map val) m.shape

/-- the same tensor, as a table of its elements -/
def STensor.tab (t : STensor T) : STensor T := STensor.ofValues t.flat t.shape

/-- `(x - min) / Σ (x - min)` with the sum running from the first element -/
def shiftNorm1 (A : STensor T) : STensor T :=
  let mn := min1 A.flat
  A.map fun v => GoNum.div (GoNum.sub v mn) (sum1 (A.flat.map fun w => GoNum.sub w mn))

/-- the dimensions `Dot` contracts: those given, or the last and the last but one -/
def dotDims (dims : Option (Nat × Nat)) (sa sb : List Nat) : Nat × Nat :=
  match dims with
  | some d => d
  | none => (sa.length - 1, sb.length - 2)

/-- The result of an operation on tensors `env`, or `none` if their shapes do not fit.
`val` gives the values of scalars, `shape` is the shape asked of `Reshape`.  Sources have no
value here: leaves are given, and `FillWith` / `CopyTo` are assignments, not expressions. -/
def _root_.Godeep.Kind.den (val : Ptr → T) (shape : List Nat) (env : Nat → STensor T) :
    Kind T → Option (STensor T)
  | .leaf => none
  | .op2 o a b =>
    if (env a).shape = (env b).shape then some ((env a).zip o.fn (env b)) else none
  | .opScalar o t p => some ((env t).map fun x => o.fn x (val p))
  | .neg t => some ((env t).map GoNum.neg)
  | .abs t => some ((env t).map fun x => if lt x zero then GoNum.neg x else x)
  | .act f t => some ((env t).map f)
  | .softMax t => some (shiftNorm1 (env t))
  | .math r t => some ((env t).reduce r.fn)
  | .dimMath r d t =>
    if d < (env t).shape.length then some ((env t).dimReduce r.fn d) else none
  | .dot dims a b =>
    let d := dotDims dims (env a).shape (env b).shape
    if d.1 < (env a).shape.length ∧ d.2 < (env b).shape.length ∧
        (env a).shape.getD d.1 0 = (env b).shape.getD d.2 0 then
      some (if (env a).shape.length = 1 ∧ (env b).shape.length = 1
        then (env a).dotVec sum1 (env b) else (env a).dot sum1 (env b) d.1 d.2)
    else none
  | .concat d a b =>
    if d < (env a).shape.length ∧ (env b).shape = (env a).shape.set d ((env b).shape.getD d 0) then
      some ((env a).concat (env b) d)
    else none
  | .sub d s e goOut t =>
    if d < (env t).shape.length ∧ s < e ∧ (goOut = true ∨ e ≤ (env t).shape.getD d 0) then
      some (if goOut then (env t).slabFill d s e zero else (env t).slab d s e)
    else none
  | .reshape t => some ((env t).reshape shape)
  | .transpose t => some (env t).transpose
  | .fill _ _ => none
  | .copy _ _ => none

/-- the operands' shapes fit the operation -/
def _root_.Godeep.Kind.fits (shape : Nat → List Nat) : Kind T → Prop
  | .op2 _ a b => shape a = shape b
  | .dimMath _ d t => d < (shape t).length
  | .dot dims a b =>
    let d := dotDims dims (shape a) (shape b)
    d.1 < (shape a).length ∧ d.2 < (shape b).length ∧ (shape a).getD d.1 0 = (shape b).getD d.2 0
  | .concat d a b => d < (shape a).length ∧ shape b = (shape a).set d ((shape b).getD d 0)
  | .sub d s e goOut t => d < (shape t).length ∧ s < e ∧ (goOut = true ∨ e ≤ (shape t).getD d 0)
  | .copy f t => size (shape f) = size (shape t)
  | _ => True

instance (shape : Nat → List Nat) (k : Kind T) : Decidable (k.fits shape) := by
  cases k <;> simp only [Kind.fits] <;> infer_instance

/-- the shape of the result; `own` is the shape asked of `Reshape` -/
def _root_.Godeep.Kind.outShape (own : List Nat) (shape : Nat → List Nat) : Kind T → List Nat
  | .leaf => own
  | .op2 _ a _ => shape a
  | .opScalar _ t _ => shape t
  | .neg t => shape t
  | .abs t => shape t
  | .act _ t => shape t
  | .softMax t => shape t
  | .math _ _ => [1]
  | .dimMath _ d t => (shape t).take (d + 1)
  | .dot dims a b =>
    let d := dotDims dims (shape a) (shape b)
    if (shape a).length = 1 ∧ (shape b).length = 1 then [1]
    else (shape a).eraseIdx d.1 ++ (shape b).eraseIdx d.2
  | .concat d a b => (shape a).modify d (· + (shape b).getD d 0)
  | .sub d s e _ t => (shape t).set d (e - s)
  | .reshape _ => own
  | .transpose t => (shape t).reverse
  | .fill t _ => shape t
  | .copy _ t => shape t

/-- a tensor that is read as it is: a leaf, or one built by an earlier graph -/
def frozen (s : Store T) (n : Nat) : Prop :=
  (s.nodes n).built = true ∨ (match (s.nodes n).kind with | .leaf => True | _ => False)

instance (s : Store T) (n : Nat) : Decidable (frozen s n) := by
  unfold frozen; cases (s.nodes n).kind <;> infer_instance

/-- The value of tensor `n` of store `s` when the scalars have the values `val`: read directly if
`n` is a leaf or was built before, otherwise the operation applied to the values of the tensors
`n` was made from.  `none` if some operation on the way does not fit its operands. -/
def value (s : Store T) (val : Ptr → T) : Nat → Nat → Option (STensor T)
  | 0, _ => none
  | fuel + 1, n =>
    if frozen s n then some (ofMat val (s.nodes n).mat)
    else if (s.nodes n).kind.kids.all fun c => (value s val fuel c).isSome then
      (s.nodes n).kind.den val (s.nodes n).mat.shape
        fun c => ((value s val fuel c).getD ⟨[], fun _ => zero⟩).tab
    else none

/-- The shape of tensor `n`, worked out from the shapes of the tensors that are read directly;
`none` if some operation on the way does not fit its operands. -/
def shapeOf (s : Store T) : Nat → Nat → Option (List Nat)
  | 0, _ => none
  | fuel + 1, n =>
    if frozen s n then some (s.nodes n).mat.shape
    else if ((s.nodes n).kind.kids.all fun c => (shapeOf s fuel c).isSome) ∧
        (s.nodes n).kind.fits (fun c => (shapeOf s fuel c).getD []) then
      some ((s.nodes n).kind.outShape (s.nodes n).mat.shape fun c => (shapeOf s fuel c).getD [])
    else none

/-- the range of an extended sub-tensor begins inside the source (or right at its end) and ends
outside it -/
def _root_.Godeep.Kind.straddles (shape : Nat → List Nat) : Kind T → Prop
  | .sub d s e goOut t => goOut = true ∧ s ≤ (shape t).getD d 0 ∧ (shape t).getD d 0 < e ∧
      size ((shape t).set d (e - s)) ≠ 0
  | _ => False

/-- what a successful build says about the shapes: they fit, except that `Concat` only compares
the ranks and the extents before its dimension -/
def _root_.Godeep.Kind.passes (shape : Nat → List Nat) : Kind T → Prop
  | .concat d a b => (shape a).length = (shape b).length ∧ d < (shape a).length ∧
      (shape a).take d = (shape b).take d
  | k => k.fits shape ∧ ¬ k.straddles shape

/-- the operation names a dimension its operands do not have -/
def _root_.Godeep.Kind.badDim (shape : Nat → List Nat) : Kind T → Prop
  | .concat d a b => (shape a).length ≤ d ∨ (shape b).length ≤ d
  | .dot (some (da, db)) a b => (shape a).length ≤ da ∨ (shape b).length ≤ db
  | _ => False

/-- no reduction of the operation ranges over no elements -/
def _root_.Godeep.Kind.redOK (shape : Nat → List Nat) : Kind T → Prop
  | .softMax t => size (shape t) ≠ 0
  | .math _ t => size (shape t) ≠ 0
  | .dimMath _ d t => size ((shape t).drop (d + 1)) ≠ 0 ∨ size ((shape t).take (d + 1)) = 0
  | .dot dims a b =>
    let d := dotDims dims (shape a) (shape b)
    (shape a).getD d.1 0 ≠ 0 ∨ size ((shape a).eraseIdx d.1 ++ (shape b).eraseIdx d.2) = 0
  | _ => True

/-- reductions have something to reduce -/
def ArgsNonempty : Op T → Prop
  | .asg _ (.sum args) => args ≠ []
  | .asg _ (.avg args) => args ≠ []
  | .asg _ (.max args) => args ≠ []
  | .asg _ (.min args) => args ≠ []
  | _ => True

/-- the division an operation performs aborts in heap `h` -/
def DivAborts (h : Heap T) : Op T → Prop
  | .asg _ (.div a b) => divPanics (h.val a) (h.val b) = true
  | .asg _ (.avg args) => divPanics (sum1 (args.map h.val)) (GoNum.ofNat args.length) = true
  | _ => False

/-- `TensorMat` fields agree with each other and all its cells exist -/
structure GoodMat (h : Heap T) (m : Mat) : Prop where
  mul : m.mul = indexMul m.shape
  len : m.ops.length = size m.shape
  valid : ∀ p ∈ m.ops, Valid h p

/-- `m` is `n` or one of the tensors `n` was, directly or indirectly, made from, without looking
behind tensors that are already built -/
inductive Reach (s : Store T) : Nat → Nat → Prop where
  | refl (n) : Reach s n n
  | step {n c m} : (s.nodes n).built = false → c ∈ (s.nodes n).kind.kids → Reach s c m → Reach s n m

/-- the scalar a tensor-scalar operation refers to exists -/
def ScalarOK (h : Heap T) : Kind T → Prop
  | .opScalar _ _ p => Valid h p
  | _ => True

/-- every struct except `TensorFill` and `TensorCopy` -/
def _root_.Godeep.Kind.isExpr : Kind T → Prop
  | .fill _ _ => False
  | .copy _ _ => False
  | _ => True

/-- Tensor `n` was made by the constructors: the tensors it refers to existed before it, and those
that are read directly (leaves, results of earlier successful builds) are intact.
`FillWith` and `CopyTo` are excluded (they are treated separately). -/
def Expr (s : Store T) (n : Nat) : Prop :=
  ∀ m, Reach s n m →
    (∀ c ∈ (s.nodes m).kind.kids, c < m) ∧
    (frozen s m → GoodMat s.heap (s.nodes m).mat) ∧
    ScalarOK s.heap (s.nodes m).kind ∧
    (s.nodes m).kind.isExpr

end Spec
end Godeep
