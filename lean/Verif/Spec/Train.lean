import Verif.Spec.Net
/-
  One training step of a network of dense layers, as a function of weights, sample and rates.
-/
namespace Godeep.Spec
open Godeep GoNum

variable {T : Type} [GoNum T]

/-- dense layers, given by their widths and activations -/
abbrev denses (ds : List (Nat × Activation T)) : List (LSpec T) := ds.map fun d => .dense d.1 d.2

/-- the weights of a layer with inputs `x` and errors `d`: `w_ij + 0 * momentum + d_i * alpha * x_j`; `x` is
read in row-major order -/
def newWeights (alpha momentum : T) (d x w : STensor T) : STensor T :=
  ⟨w.shape, fun idx => sum1 [w.get idx, GoNum.mul zero momentum,
    GoNum.mul (GoNum.mul (d.get [idx.getD 0 0]) alpha) (x.get (unflat x.shape (idx.getD 1 0)))]⟩

/-- the biases: `b_i + 0 * momentum + d_i * alpha` -/
def newBias (alpha momentum : T) (d b : STensor T) : STensor T :=
  ⟨b.shape, fun idx => sum1 [b.get idx, GoNum.mul zero momentum, GoNum.mul (d.get idx) alpha]⟩

/-- the errors of a layer with pre-activations `z` and derivative `f'`, when the next layer has weights `w` and
errors `d`: `0 + (d_0 w_0i + d_1 w_1i + ...) * f'(z_i)` -/
def backError (f' : T → T) (w d z : STensor T) : STensor T :=
  ⟨z.shape, fun idx => GoNum.add zero (GoNum.mul
    (sum1 ((List.range (d.shape.getD 0 0)).map fun j => GoNum.mul (d.get [j]) (w.get [j, offset z.shape idx])))
    (f' (z.get idx)))⟩

/-- Dense layers with activations `as` and weights `ps`, on input `x` which is the output of a layer with
pre-activations `z` and derivative `f'`.  The result is the new weights of the layers, where only those marked
in `ts` learn, and the errors of the layer before them: at the end of the network `y - x`, elsewhere
`backError` with the weights before the step. -/
def trainNet (alpha momentum : T) (y : STensor T) : List (Activation T) → List Bool → List (List (STensor T)) →
    STensor T → STensor T → (T → T) → List (List (STensor T)) × STensor T
  | a :: as, t :: ts, [w, b] :: ps, x, z, f' =>
    let z1 := denseFn id w b x
    let r := trainNet alpha momentum y as ts ps (z1.map a.activate) z1 a.derive
    ((if t then [newWeights alpha momentum r.2 x w, newBias alpha momentum r.2 b] else [w, b]) :: r.1, backError f' w r.2 z)
  | _, _, _, x, _, _ => ([], ⟨x.shape, fun idx => GoNum.sub (y.get idx) (x.get idx)⟩)

/-- the weights after one training step with sample `x`, `y` -/
def trainStep (alpha momentum : T) (as : List (Activation T)) (ts : List Bool) (ps : List (List (STensor T)))
    (x y : STensor T) : List (List (STensor T)) :=
  (trainNet alpha momentum y as ts ps x x (Activation.linear : Activation T).derive).1

/-- the weights after training with the samples `picks`, one after the other -/
def trainAll (alpha momentum : T) (as : List (Activation T)) (ts : List Bool) (xs ys : Nat → STensor T) (picks : List Nat)
    (pv : List (List (STensor T))) : List (List (STensor T)) :=
  picks.foldl (fun pv k => trainStep alpha momentum as ts pv (xs k) (ys k)) pv

/-- the samples that `Train` uses: `batch` of `n` samples, by default `n`, in each epoch; `draw k` is the `k`-th random number -/
def drawn (n epochs batch : Nat) (draw : Nat → Nat) : List Nat :=
  (List.range (epochs * if batch = 0 then n else batch)).map fun k => draw k % n

/-- the sum of the distances between `y` and `o` -/
def absLoss (y o : STensor T) : T :=
  sum1 (o.flat.zip y.flat |>.map fun p => let e := GoNum.sub p.2 p.1; if lt e zero then GoNum.neg e else e)

/-- which of the layers after the input layer, up to layer `l`, learn -/
inductive TrainableOf (w : World T) : Nat → List Bool → Prop where
  | input {l : Nat} : (w.layers l).pre = none → TrainableOf w l []
  | layer {l p : Nat} {ts : List Bool} : (w.layers l).pre = some p → TrainableOf w p ts →
      TrainableOf w l (ts ++ [(w.layers l).trainable])

/-- which of the layers of model `m` learn -/
def Trainable (w : World T) (m : Nat) (ts : List Bool) : Prop := ∃ l, (w.nets m).last = some l ∧ TrainableOf w l ts

/-- layer `k` is reached from layer `l` by going to the previous layer; a `Concat` layer has no previous layer -/
inductive OnPath (w : World T) (l : Nat) : Nat → Prop where
  | here : OnPath w l l
  | pre {k p : Nat} : OnPath w l k → (w.layers k).pre = some p → OnPath w l p

/-- `q` is an element of the weights or biases of a trainable layer on the path from the last layer of model `m` -/
def FitCell (w : World T) (m : Nat) (q : Ptr) : Prop :=
  ∃ l k n, (w.nets m).last = some l ∧ OnPath w l k ∧ (w.layers k).trainable = true ∧
    ((w.layers k).weights = some n ∨ (w.layers k).bias = some n) ∧ q ∈ (w.store.nodes n).mat.ops

/-- `q` is an element of the input or of the target tensor of model `m`, or one of its rates, or a graph of `m` assigns to it -/
def WorkCell (w : World T) (m : Nat) (q : Ptr) : Prop :=
  (∃ n, ((w.nets m).input = some n ∨ (w.nets m).target = some n) ∧ q ∈ (w.store.nodes n).mat.ops) ∨
  q = (w.nets m).alpha ∨ q = (w.nets m).momentum ∨
  ∃ g r, ((w.nets m).resetFit = some g ∨ (w.nets m).ff = some g ∨ (w.nets m).calDif = some g ∨ (w.nets m).bp = some g) ∧ Op.asg q r ∈ g

/-- a call of `TrainOne` or `Train`, with whatever arguments -/
inductive AnyTrain (m : Nat) (a b : World T) : Prop where
  | one {tx ty : Nat} {alpha momentum : T} : Ends (NetM.trainOne m tx ty alpha momentum a) b → AnyTrain m a b
  | many {inputs targets : List Nat} {epochs batch : Nat} {alpha momentum : T} {draw : Nat → Nat} :
      Ends (NetM.train m inputs targets epochs batch alpha momentum draw a) b → AnyTrain m a b

/-- any number of such calls -/
inductive AnyTrains (m : Nat) : World T → World T → Prop where
  | none {a : World T} : AnyTrains m a a
  | more {a b c : World T} : AnyTrains m a b → AnyTrain m b c → AnyTrains m a c

/-- scalar `q` was made neither by making and compiling the model, from `w0` to `w1`, nor by
`CompileBackPropagation`, from `wa` to `wb` -/
def Outside2 (w0 w1 wa wb : World T) (q : Ptr) : Prop := Outside w0 w1 q ∧ Outside wa wb q

/-- `t` is a tensor with value `x` that shares no element with the model and its training graphs -/
def Sample (w0 w1 wa wb w : World T) (t : Nat) (x : STensor T) : Prop :=
  t < w.nodeNext ∧ Holds w.store.heap (w.store.nodes t).mat x ∧ ∀ q ∈ (w.store.nodes t).mat.ops, Outside2 w0 w1 wa wb q

/-- Calls that train model `m`, also with samples that are rejected. -/
inductive Train (w0 w1 wa wb : World T) (m : Nat) : World T → World T → Prop where
  | one {a b : World T} {tx ty : Nat} {x y : STensor T} {alpha momentum : T} : Sample w0 w1 wa wb a tx x → Sample w0 w1 wa wb a ty y →
      Ends (NetM.trainOne m tx ty alpha momentum a) b → Train w0 w1 wa wb m a b
  | many {a b : World T} {inputs targets : List Nat} {epochs batch : Nat} {alpha momentum : T} {draw : Nat → Nat} :
      (∀ t ∈ inputs, ∃ x, Sample w0 w1 wa wb a t x) → (∀ t ∈ targets, ∃ y, Sample w0 w1 wa wb a t y) →
      Ends (NetM.train m inputs targets epochs batch alpha momentum draw a) b → Train w0 w1 wa wb m a b

/-- any number of calls that train -/
inductive Trains (w0 w1 wa wb : World T) (m : Nat) : World T → World T → Prop where
  | none {a : World T} : Trains w0 w1 wa wb m a a
  | more {a b c : World T} : Trains w0 w1 wa wb m a b → Train w0 w1 wa wb m b c → Trains w0 w1 wa wb m a c

/-- What a program may do with a model `m` that was made in state `w0`, compiled in state `w1` and prepared for
training by `CompileBackPropagation` from state `wa` to state `wb`, other than training it: use it, and do anything with tensors,
layers and models that are not part of `m`. -/
inductive Other (w0 w1 wa wb : World T) (m : Nat) : World T → World T → Prop where
  | use {a b : World T} : Use w0 w1 m a b → Other w0 w1 wa wb m a b
  | elsewhere {a b : World T} : a.store.heap.next ≤ b.store.heap.next → a.nodeNext ≤ b.nodeNext →
      a.layerNext ≤ b.layerNext →
      (∀ n, n < wb.nodeNext → (b.store.nodes n).kind = (a.store.nodes n).kind) →
      (∀ n, n < wb.nodeNext → frozen a.store n → frozen b.store n ∧ (b.store.nodes n).mat = (a.store.nodes n).mat) →
      (∀ l, w0.layerNext ≤ l → l < w1.layerNext → b.layers l = a.layers l) → b.nets m = a.nets m →
      (∀ q, ¬ Outside2 w0 w1 wa wb q → b.store.heap.val q = a.store.heap.val q) →
      Other w0 w1 wa wb m a b

/-- What a program may do with such a model: train it, use it, and do anything elsewhere. -/
inductive TStep (w0 w1 wa wb : World T) (m : Nat) : World T → World T → Prop where
  | train {a b : World T} : Train w0 w1 wa wb m a b → TStep w0 w1 wa wb m a b
  | other {a b : World T} : Other w0 w1 wa wb m a b → TStep w0 w1 wa wb m a b

/-- any number of such steps -/
inductive TSteps (w0 w1 wa wb : World T) (m : Nat) : World T → World T → Prop where
  | none {a : World T} : TSteps w0 w1 wa wb m a a
  | more {a b c : World T} : TSteps w0 w1 wa wb m a b → TStep w0 w1 wa wb m b c → TSteps w0 w1 wa wb m a c

end Godeep.Spec
