import Verif.Model.Ctors
import Verif.Spec.Expr
/-
  A program that makes tensors with the functions of package `tensor`, and what it means: the shapes
  and the values of the tensors it makes, worked out call by call from those of the tensors it starts from.
-/
namespace Godeep.Spec
open Godeep GoNum

variable {T : Type} [GoNum T]

/-- one call; tensors are given by their numbers, scalars by their addresses -/
inductive Call (T : Type) where
  | add (a b : Nat) | sub (a b : Nat) | mul (a b : Nat) | div (a b : Nat)
  | addScalar (t : Nat) (p : Ptr) | subScalar (t : Nat) (p : Ptr) | mulScalar (t : Nat) (p : Ptr) | divScalar (t : Nat) (p : Ptr)
  | neg (t : Nat) | abs (t : Nat) | activate (t : Nat) (f : T → T) | softMax (t : Nat)
  | sum (t : Nat) | avg (t : Nat) | max (t : Nat) | min (t : Nat)
  | dSum (t d : Nat) | dAvg (t d : Nat) | dMax (t d : Nat) | dMin (t d : Nat)
  | dot (a b : Nat) | dotAt (a b dimA dimB : Nat) | concat (a b dim : Nat)
  | subTensor (t dim lo hi : Nat) | subExtended (t dim lo hi : Nat)
  | reshape (t : Nat) (shape : List Nat) | transpose (t : Nat)

namespace Call

/-- make the call -/
def run : Call T → Run T Nat
  | add a b => Tensor.add a b
  | sub a b => Tensor.sub a b
  | mul a b => Tensor.mul a b
  | div a b => Tensor.div a b
  | addScalar t p => Tensor.addScalar t p
  | subScalar t p => Tensor.subScalar t p
  | mulScalar t p => Tensor.mulScalar t p
  | divScalar t p => Tensor.divScalar t p
  | neg t => Tensor.neg t
  | abs t => Tensor.abs t
  | activate t f => Tensor.activate t f
  | softMax t => Tensor.softMax t
  | sum t => Tensor.sum t
  | avg t => Tensor.avg t
  | max t => Tensor.max t
  | min t => Tensor.min t
  | dSum t d => Tensor.dSum t d
  | dAvg t d => Tensor.dAvg t d
  | dMax t d => Tensor.dMax t d
  | dMin t d => Tensor.dMin t d
  | dot a b => Tensor.dot a b
  | dotAt a b da db => Tensor.dotAt a b da db
  | concat a b d => Tensor.concat a b d
  | subTensor t d lo hi => Tensor.subTensor t d lo hi
  | subExtended t d lo hi => Tensor.subExtended t d lo hi
  | reshape t shape => Tensor.reshape t shape
  | transpose t => Tensor.transpose t

/-- `s` if the condition holds -/
def only (p : Prop) [Decidable p] (s : List Nat) : Option (List Nat) := if p then some s else none

/-- the shape of a contraction, if dimension `da` of the first and `db` of the second have the same extent -/
def dotShape (sa sb : List Nat) (da db : Nat) : Option (List Nat) :=
  only (da < sa.length ∧ db < sb.length ∧ sa.getD da 0 = sb.getD db 0 ∧ sa.getD da 0 ≠ 0)
    (if sa.length = 1 ∧ sb.length = 1 then [1] else sa.eraseIdx da ++ sb.eraseIdx db)

/-- The shape of the result, from the shapes of the arguments; `none` if the operation is not defined for them.
Reductions need at least one element; a range that leaves the tensor must begin past its end. -/
def shape (sh : Nat → Option (List Nat)) : Call T → Option (List Nat)
  | add a b | sub a b | mul a b | div a b => (sh a).bind fun s => (sh b).bind fun s' => only (s = s') s
  | addScalar t _ | subScalar t _ | mulScalar t _ | divScalar t _ | neg t | abs t | activate t _ => sh t
  | softMax t => (sh t).bind fun s => only (size s ≠ 0) s
  | sum t | avg t | max t | min t => (sh t).bind fun s => only (size s ≠ 0) [1]
  | dSum t d | dAvg t d | dMax t d | dMin t d => (sh t).bind fun s => only (d < s.length ∧ size (s.drop (d + 1)) ≠ 0) (s.take (d + 1))
  | dot a b => (sh a).bind fun s => (sh b).bind fun s' => dotShape s s' (s.length - 1) (s'.length - 2)
  | dotAt a b da db => (sh a).bind fun s => (sh b).bind fun s' => dotShape s s' da db
  | concat a b d => (sh a).bind fun s => (sh b).bind fun s' =>
      only (d < s.length ∧ s' = s.set d (s'.getD d 0)) (s.modify d (· + s'.getD d 0))
  | subTensor t d lo hi => (sh t).bind fun s => only (d < s.length ∧ lo < hi ∧ hi ≤ s.getD d 0) (s.set d (hi - lo))
  | subExtended t d lo hi => (sh t).bind fun s => only (d < s.length ∧ lo < hi ∧ (hi ≤ s.getD d 0 ∨ s.getD d 0 < lo)) (s.set d (hi - lo))
  | reshape t s' => (sh t).map fun _ => s'
  | transpose t => (sh t).map List.reverse

/-- contraction of the dimensions `da` and `db`; of two vectors it is a vector with one element -/
def dotValue (x y : STensor T) (da db : Nat) : STensor T :=
  if x.shape.length = 1 ∧ y.shape.length = 1 then x.dotVec sum1 y else x.dot sum1 y da db

/-- the value of the result, from the values `x` of the tensors and `scal` of the scalars -/
def value (scal : Ptr → T) (x : Nat → STensor T) : Call T → STensor T
  | add a b => (x a).zip GoNum.add (x b)
  | sub a b => (x a).zip GoNum.sub (x b)
  | mul a b => (x a).zip GoNum.mul (x b)
  | div a b => (x a).zip GoNum.div (x b)
  | addScalar t p => (x t).map fun v => GoNum.add v (scal p)
  | subScalar t p => (x t).map fun v => GoNum.sub v (scal p)
  | mulScalar t p => (x t).map fun v => GoNum.mul v (scal p)
  | divScalar t p => (x t).map fun v => GoNum.div v (scal p)
  | neg t => (x t).map GoNum.neg
  | abs t => (x t).map fun v => if lt v zero then GoNum.neg v else v
  | activate t f => (x t).map f
  | softMax t => shiftNorm1 (x t)
  | sum t => (x t).reduce sum1
  | avg t => (x t).reduce fun vs => GoNum.div (sum1 vs) (GoNum.ofNat vs.length)
  | max t => (x t).reduce max1
  | min t => (x t).reduce min1
  | dSum t d => (x t).dimReduce sum1 d
  | dAvg t d => (x t).dimReduce (fun vs => GoNum.div (sum1 vs) (GoNum.ofNat vs.length)) d
  | dMax t d => (x t).dimReduce max1 d
  | dMin t d => (x t).dimReduce min1 d
  | dot a b => dotValue (x a) (x b) ((x a).shape.length - 1) ((x b).shape.length - 2)
  | dotAt a b da db => dotValue (x a) (x b) da db
  | concat a b d => (x a).concat (x b) d
  | subTensor t d lo hi => (x t).slab d lo hi
  | subExtended t d lo hi => (x t).slabFill d lo hi zero
  | reshape t s => (x t).reshape s
  | transpose t => (x t).transpose

/-- the scalar the call refers to exists -/
def scalarOK (h : Heap T) : Call T → Prop
  | addScalar _ p | subScalar _ p | mulScalar _ p | divScalar _ p => Valid h p
  | _ => True

end Call

/-- make the calls one after the other -/
def runCalls : List (Call T) → Run T Unit
  | [] => pure ()
  | c :: cs => do
    let _ ← c.run
    runCalls cs

/-- `f` with another value at `n` -/
def upd {α : Type} (f : Nat → α) (n : Nat) (v : α) : Nat → α := fun m => if m = n then v else f m

/-- the shapes after the calls; the first one makes tensor `n` -/
def shapesAfter : List (Call T) → Nat → (Nat → Option (List Nat)) → Nat → Option (List Nat)
  | [], _, sh => sh
  | c :: cs, n, sh => shapesAfter cs (n + 1) (upd sh n (c.shape sh))

/-- the values after the calls -/
def valuesAfter (scal : Ptr → T) : List (Call T) → Nat → (Nat → STensor T) → Nat → STensor T
  | [], _, x => x
  | c :: cs, n, x => valuesAfter scal cs (n + 1) (upd x n (c.value scal x))

/-- tensor `m` is a data tensor of shape `s`: made by `NewZeros`, `NewFromValues`, … -/
structure DataTensor (w : World T) (m : Nat) (s : List Nat) : Prop where
  exists_ : m < w.nodeNext
  leaf : (w.store.nodes m).kind = .leaf
  good : GoodMat w.store.heap (w.store.nodes m).mat
  shape : (w.store.nodes m).mat.shape = s

end Godeep.Spec
