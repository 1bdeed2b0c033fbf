import Verif.Model.Net
import Verif.Spec.Tensor
import Verif.Spec.Net
/-
  What is needed to say what `Save` and `Load` of a model do.
-/
set_option linter.unusedSectionVars false

namespace Godeep.Spec
open GoNum

variable {T : Type} [GoNum T]

/-- the layers whose outputs layer `l` reads -/
def parents (w : World T) (l : Nat) : List Nat :=
  match (w.layers l).kind with
  | .concat l1 l2 _ => [l1, l2]
  | _ => (w.layers l).pre.toList

/-- layer `k` is layer `l` or one whose output is read, directly or not, by layer `l` -/
inductive Feeds (w : World T) : Nat → Nat → Prop where
  | refl (l : Nat) : Feeds w l l
  | step {l p k : Nat} : p ∈ parents w l → Feeds w p k → Feeds w l k

/-- no layer feeding `l` feeds itself -/
def Acyclic (w : World T) (l : Nat) : Prop :=
  ∃ rank : Nat → Nat, rank l ≤ w.layerNext ∧ ∀ k, Feeds w l k → ∀ p ∈ parents w k, rank p < rank k

/-- the tensors of weights and biases a layer has; `Concat` has none -/
def ownTensors (w : World T) (l : Nat) : List Mat :=
  match (w.layers l).kind with
  | .concat _ _ _ => []
  | _ => ((w.layers l).weights.toList ++ (w.layers l).bias.toList).map fun n => (w.store.nodes n).mat

/-- `bytes` is the tensor written out: for each element in row-major order its bit pattern, least
significant byte first, and nothing else -/
def Encodes [Bin T] (t : STensor T) (bytes : List Byte) : Prop :=
  bytes.length = Bin.width T * size t.shape ∧
  ∀ idx, InRange t.shape idx → ∀ j, j < Bin.width T →
    bytes[Bin.width T * offset t.shape idx + j]?
      = some (BitVec.ofNat 8 ((Bin.bits (t.get idx)).toNat / 256 ^ j))

/-- `bytes` are the tensors written out one after the other -/
def EncodesAll [Bin T] (ts : List (STensor T)) (bytes : List Byte) : Prop :=
  ∃ parts, List.Forall₂ Encodes ts parts ∧ bytes = parts.flatten

/-- all `saved` marks of the layers that feed `l` are `b` -/
def SavedIs (b : Bool) (w : World T) (l : Nat) : Prop := ∀ k, Feeds w l k → (w.layers k).saved = b

/-- all `loaded` marks of the layers that feed `l` are `b` -/
def LoadedIs (b : Bool) (w : World T) (l : Nat) : Prop := ∀ k, Feeds w l k → (w.layers k).loaded = b

/-- The layers feeding `l` in `w` and those feeding `l'` in `w'` are connected in the same way, `f`
giving the corresponding layer. -/
structure SameNet (f : Nat → Nat) (w : World T) (l : Nat) (w' : World T) (l' : Nat) : Prop where
  last : f l = l'
  inj : ∀ j k, Feeds w l j → Feeds w l k → f j = f k → j = k
  parents : ∀ k, Feeds w l k → parents w' (f k) = (Spec.parents w k).map f

/-- no two weights or biases of the layers feeding `l` are the same scalar -/
structure Distinct (w : World T) (l : Nat) : Prop where
  own : ∀ k, Feeds w l k → ((ownTensors w k).flatMap Mat.ops).Nodup
  other : ∀ j k, Feeds w l j → Feeds w l k → j ≠ k → ∀ a ∈ ownTensors w j, ∀ b ∈ ownTensors w k, ∀ q ∈ a.ops, q ∉ b.ops

end Godeep.Spec
