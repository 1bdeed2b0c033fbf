import Verif.Model.Layer
/-
  The functions of package `tensor` that make lazily evaluated tensors.  Each returns a new tensor
  (its number); nothing is computed yet.
-/
namespace Godeep.Tensor
open Godeep

variable {T : Type} [GoNum T]

/-- `tensor/oper2.go:27-33` `NewOp2` -/
def newOp2 (a b : Nat) (o : Arith) : Run T Nat := Run.lazy (.op2 o a b)

/-- `tensor/math.go:8` `Add` -/
def add (a b : Nat) : Run T Nat := newOp2 a b .add
/-- `tensor/math.go:9` `Sub` -/
def sub (a b : Nat) : Run T Nat := newOp2 a b .sub
/-- `tensor/math.go:10` `Mul` -/
def mul (a b : Nat) : Run T Nat := newOp2 a b .mul
/-- `tensor/math.go:11` `Div` -/
def div (a b : Nat) : Run T Nat := newOp2 a b .div

/-- `tensor/oper_scalar.go:26-32` `NewOpScalar` -/
def newOpScalar (t : Nat) (s : Ptr) (o : Arith) : Run T Nat := Run.lazy (.opScalar o t s)

/-- `tensor/math.go:13-15` `AddScalar` -/
def addScalar (t : Nat) (s : Ptr) : Run T Nat := newOpScalar t s .add
/-- `tensor/math.go:17-19` `SubScalar` -/
def subScalar (t : Nat) (s : Ptr) : Run T Nat := newOpScalar t s .sub
/-- `tensor/math.go:21-23` `MulScalar` -/
def mulScalar (t : Nat) (s : Ptr) : Run T Nat := newOpScalar t s .mul
/-- `tensor/math.go:25-27` `DivScalar` -/
def divScalar (t : Nat) (s : Ptr) : Run T Nat := newOpScalar t s .div

/-- `tensor/neg.go:15-19` `Neg` -/
def neg (t : Nat) : Run T Nat := Run.lazy (.neg t)
/-- `tensor/abs.go:15-19` `Abs` -/
def abs (t : Nat) : Run T Nat := Run.lazy (.abs t)
/-- `tensor/activate.go:16-21` `Activate` -/
def activate (t : Nat) (f : T → T) : Run T Nat := Run.lazy (.act f t)
/-- `tensor/softmax.go:16-20` `SoftMax` -/
def softMax (t : Nat) : Run T Nat := Run.lazy (.softMax t)

/-- `tensor/tensor_math.go:26-31` `TensorMath` -/
def tensorMath (t : Nat) (r : Red) : Run T Nat := Run.lazy (.math r t)

/-- `tensor/math.go:29` `Sum` -/
def sum (t : Nat) : Run T Nat := tensorMath t .sum
/-- `tensor/math.go:30` `Avg` -/
def avg (t : Nat) : Run T Nat := tensorMath t .avg
/-- `tensor/math.go:31` `Max` -/
def max (t : Nat) : Run T Nat := tensorMath t .max
/-- `tensor/math.go:32` `Min` -/
def min (t : Nat) : Run T Nat := tensorMath t .min

/-- `tensor/dim_math.go:28-34` `DimMath` -/
def dimMath (t d : Nat) (r : Red) : Run T Nat := Run.lazy (.dimMath r d t)

/-- `tensor/math.go:34` `DSum` -/
def dSum (t d : Nat) : Run T Nat := dimMath t d .sum
/-- `tensor/math.go:35` `DAvg` -/
def dAvg (t d : Nat) : Run T Nat := dimMath t d .avg
/-- `tensor/math.go:36` `DMax` -/
def dMax (t d : Nat) : Run T Nat := dimMath t d .max
/-- `tensor/math.go:37` `DMin` -/
def dMin (t d : Nat) : Run T Nat := dimMath t d .min

/-- `tensor/dot_product.go:23-29` `Dot` -/
def dot (a b : Nat) : Run T Nat := Run.lazy (.dot none a b)
/-- `tensor/dot_product.go:31-38` `DotAt` -/
def dotAt (a b dimA dimB : Nat) : Run T Nat := Run.lazy (.dot (some (dimA, dimB)) a b)
/-- `tensor/concat.go:18-24` `Concat` -/
def concat (a b dim : Nat) : Run T Nat := Run.lazy (.concat dim a b)
/-- `tensor/sub_tensor.go:21-28` `SubTensor` -/
def subTensor (t dim from_ to_ : Nat) : Run T Nat := Run.lazy (.sub dim from_ to_ false t)
/-- `tensor/sub_tensor.go:30-38` `SubExtendedTensor` -/
def subExtended (t dim from_ to_ : Nat) : Run T Nat := Run.lazy (.sub dim from_ to_ true t)
/-- `tensor/reshape.go:15-22` `Reshape` -/
def reshape (t : Nat) (shape : List Nat) : Run T Nat := Run.reshape t shape
/-- `tensor/reshape.go:24-26` `Flatten` -/
def flatten (t : Nat) : Run T Nat := Run.flatten t
/-- `tensor/fill.go:16-21` `FillWith` -/
def fillWith (t : Nat) (v : Ptr) : Run T Nat := Run.lazy (.fill t v)
/-- `tensor/copy.go:16-21` `CopyTo` -/
def copyTo (from_ to_ : Nat) : Run T Nat := Run.lazy (.copy from_ to_)
/-- `tensor/transpose.go:15-19` `Transpose` -/
def transpose (t : Nat) : Run T Nat := Run.lazy (.transpose t)

end Godeep.Tensor
