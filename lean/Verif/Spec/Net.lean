import Verif.Spec.Expr
import Verif.Model.Net
/-
  What each kind of layer computes, and sequential models as a user writes them.
-/
namespace Godeep.Spec
open Godeep GoNum

variable {T : Type} [GoNum T]

/-- output neuron `i` is `act (x₀ w_{i0} + x₁ w_{i1} + ... + b_i)`, added up from the left; `x` is
read in row-major order -/
def denseFn (act : T → T) (w b x : STensor T) : STensor T :=
  ⟨b.shape, fun idx =>
    act (sum1 (((List.range (size x.shape)).map fun j =>
      GoNum.mul (x.get (unflat x.shape j)) (w.get [idx.getD 0 0, j])) ++ [b.get idx]))⟩

/-- `x / max |x| * (max - min) + min` -/
def normFn (min max : T) (x : STensor T) : STensor T :=
  let s := max1 (x.flat.map fun v => if lt v zero then GoNum.neg v else v)
  x.map fun v => GoNum.add (GoNum.mul (GoNum.div v s) (GoNum.sub max min)) min

/-- bias plus the sum, over channels `c` and kernel positions `(i, j)`, of input times weight -/
def convFn (act : T → T) (kw kh sx sy : Nat) (w b x : STensor T) : STensor T :=
  ⟨b.shape, fun idx =>
    act (GoNum.add (b.get idx) (sum1 ((allIdx [x.shape.getD 0 0, kw, kh]).map fun k =>
      GoNum.mul (x.get [k.getD 0 0, idx.getD 1 0 * sx + k.getD 1 0, idx.getD 2 0 * sy + k.getD 2 0])
        (w.get (idx.getD 0 0 :: k)))))⟩

/-- bias plus, over all input positions `(c, x, y)` and kernel positions `(i, j)` with
`x * sx + i` and `y * sy + j` the output position, input times weight -/
def deconvFn (act : T → T) (kw kh sx sy : Nat) (w b x : STensor T) : STensor T :=
  ⟨b.shape, fun idx =>
    act (((allIdx (x.shape ++ [kw, kh])).filter fun k =>
        k.getD 1 0 * sx + k.getD 3 0 = idx.getD 1 0 ∧ k.getD 2 0 * sy + k.getD 4 0 = idx.getD 2 0).foldl
      (fun s k => GoNum.add s (GoNum.mul (x.get (k.take 3))
        (w.get [idx.getD 0 0, k.getD 0 0, k.getD 3 0, k.getD 4 0])))
      (b.get idx))⟩

/-- the positions of the window `(px, py)` that exist in the input, row by row -/
def window (sx sy h w px py : Nat) : List (Nat × Nat) :=
  ((List.range sx).filter fun i => px * sx + i < h).flatMap fun i =>
    ((List.range sy).filter fun j => py * sy + j < w).map fun j => (px * sx + i, py * sy + j)

/-- maximum over the window, clipped to the input -/
def maxPoolFn (sx sy : Nat) (x : STensor T) : STensor T :=
  ⟨[x.shape.getD 0 0, (x.shape.getD 1 0 + 1) / sx, (x.shape.getD 2 0 + 1) / sy], fun idx =>
    max1 ((window sx sy (x.shape.getD 1 0) (x.shape.getD 2 0) (idx.getD 1 0) (idx.getD 2 0)).map
      fun p => x.get [idx.getD 0 0, p.1, p.2])⟩

/-- each element repeated `sx` by `sy` times -/
def upSamplingFn (sx sy : Nat) (x : STensor T) : STensor T :=
  ⟨[x.shape.getD 0 0, x.shape.getD 1 0 * sx, x.shape.getD 2 0 * sy], fun idx =>
    x.get [idx.getD 0 0, idx.getD 1 0 / sx, idx.getD 2 0 / sy]⟩

/-- A layer as the user asks for it (the layer constructors of package `layer`). -/
inductive LSpec (T : Type) where
  | dense (n : Nat) (act : Activation T)
  | flatten
  | softMax
  | norm
  | eNorm
  | sub (dim lo hi : Nat)
  | conv (nf kw kh sx sy : Nat) (act : Activation T)
  | deconv (nf kw kh sx sy : Nat) (act : Activation T)
  | maxPool (sx sy : Nat)
  | upSampling (s : Nat)

namespace LSpec

/-- the constructor call -/
def create : LSpec T → Run T Nat
  | dense n act => LayerM.newDense n act
  | flatten => LayerM.newFlatten
  | softMax => LayerM.newSoftMax
  | norm => LayerM.newNorm
  | eNorm => LayerM.newENorm
  | sub d f t => LayerM.newSubTensor d f t
  | conv nf kw kh sx sy act => LayerM.newConv2D nf kw kh sx sy act
  | deconv nf kw kh sx sy act => LayerM.newDeconv2D nf kw kh sx sy act
  | maxPool sx sy => LayerM.newMaxPool2D sx sy
  | upSampling s => LayerM.newUpSampling2D s

/-- The function a layer computes on its input `x`; `ps` are its weights and biases, if it has any. -/
def fn : LSpec T → List (STensor T) → STensor T → STensor T
  | dense _ act, [w, b], x => denseFn act.activate w b x
  | flatten, _, x => x.reshape [size x.shape]
  | softMax, _, x => shiftNorm1 x
  | norm, _, x => normFn zero one x
  | eNorm, _, x => normFn (GoNum.neg one) one x
  | sub d f t, _, x => x.slab d f t
  | conv _ kw kh sx sy act, [w, b], x => convFn act.activate kw kh sx sy w b x
  | deconv _ kw kh sx sy act, [w, b], x => deconvFn act.activate kw kh sx sy w b x
  | maxPool sx sy, _, x => maxPoolFn sx sy x
  | upSampling s, _, x => upSamplingFn s s x
  | _, _, x => x

/-- the shape of the output for inputs of shape `s` -/
def outShape : LSpec T → List Nat → List Nat
  | dense n _, _ => [n]
  | flatten, s => [size s]
  | softMax, s => s
  | norm, s => s
  | eNorm, s => s
  | sub d f t, s => s.set d (t - f)
  | conv nf kw kh sx sy _, s => [nf, (s.getD 1 0 - kw) / sx + 1, (s.getD 2 0 - kh) / sy + 1]
  | deconv nf kw kh sx sy _, s => [nf, (s.getD 1 0 - 1) * sx + kw, (s.getD 2 0 - 1) * sy + kh]
  | maxPool sx sy, s => [s.getD 0 0, (s.getD 1 0 + 1) / sx, (s.getD 2 0 + 1) / sy]
  | upSampling k, s => [s.getD 0 0, s.getD 1 0 * k, s.getD 2 0 * k]

/-- the layer accepts inputs of shape `s` -/
def fits : LSpec T → List Nat → Prop
  | sub d f t, s => d < s.length ∧ f < t ∧ t ≤ s.getD d 0
  | conv _ kw kh sx sy _, s => s.length = 3 ∧ 0 < sx ∧ 0 < sy ∧ 0 < kw ∧ 0 < kh ∧
      kw ≤ s.getD 1 0 ∧ kh ≤ s.getD 2 0 ∧ s.getD 1 0 < 2 ^ 64 ∧ s.getD 2 0 < 2 ^ 64
  | deconv _ _ _ _ _ _, s => s.length = 3 ∧ 0 < s.getD 1 0 ∧ 0 < s.getD 2 0 ∧
      s.getD 1 0 < 2 ^ 64 ∧ s.getD 2 0 < 2 ^ 64
  | maxPool sx sy, s => s.length = 3 ∧ 0 < sx ∧ 0 < sy
  | upSampling _, s => s.length = 3
  | _, _ => True

/-- Evaluating the layer on inputs of shape `s` cannot abort.  Divisions abort only for integer types. -/
def safe : LSpec T → List Nat → Prop
  | softMax, s => size s ≠ 0 ∧ ∀ x y : T, divPanics x y = false
  | norm, s => size s ≠ 0 ∧ ∀ x y : T, divPanics x y = false
  | eNorm, s => size s ≠ 0 ∧ ∀ x y : T, divPanics x y = false
  | conv nf _ _ _ _ _, s => 0 < s.getD 0 0 ∨ nf = 0
  | maxPool sx sy, s => 1 < sx ∧ 1 < sy ∨ s.getD 0 0 = 0
  | _, _ => True

/-- shapes of the weights and the biases, for inputs of shape `s` -/
def paramShapes : LSpec T → List Nat → List (List Nat)
  | dense n _, s => [[n, size s], [n]]
  | conv nf kw kh sx sy _, s => [[nf, s.getD 0 0, kw, kh],
      [nf, (s.getD 1 0 - kw) / sx + 1, (s.getD 2 0 - kh) / sy + 1]]
  | deconv nf kw kh sx sy _, s => [[nf, s.getD 0 0, kw, kh],
      [nf, (s.getD 1 0 - 1) * sx + kw, (s.getD 2 0 - 1) * sy + kh]]
  | _, _ => []

end LSpec

/-- all layers accept their inputs, the first one getting shape `s` -/
def Fits : List (LSpec T) → List Nat → Prop
  | [], _ => True
  | l :: ls, s => l.fits s ∧ Fits ls (l.outShape s)

/-- no layer can abort -/
def Safe : List (LSpec T) → List Nat → Prop
  | [], _ => True
  | l :: ls, s => l.safe s ∧ Safe ls (l.outShape s)

/-- the shape of the output for inputs of shape `s` -/
def outShapes : List (LSpec T) → List Nat → List Nat
  | [], s => s
  | l :: ls, s => outShapes ls (l.outShape s)

/-- the composition of the layers, each with its weights and biases -/
def netFn : List (LSpec T) → List (List (STensor T)) → STensor T → STensor T
  | l :: ls, p :: ps, x => netFn ls ps (l.fn p x)
  | _, _, x => x

/-- the tensors of weights and biases of a layer -/
def layerParams (w : World T) (l : Nat) : List Mat :=
  match (w.layers l).weights, (w.layers l).bias with
  | some a, some b => [(w.store.nodes a).mat, (w.store.nodes b).mat]
  | _, _ => []

/-- the weights and biases of the layers from the input layer to layer `l`; `ParamsOf w l ps`: there is
one entry for each layer after the input layer -/
inductive ParamsOf (w : World T) : Nat → List (List Mat) → Prop where
  | input {l : Nat} : (w.layers l).pre = none → ParamsOf w l []
  | layer {l p : Nat} {ps : List (List Mat)} : (w.layers l).pre = some p → ParamsOf w p ps →
      ParamsOf w l (ps ++ [layerParams w l])

/-- the weights and biases of model `m` have the values `pv` -/
def HasParams (w : World T) (m : Nat) (pv : List (List (STensor T))) : Prop :=
  ∃ l ps, (w.nets m).last = some l ∧ ParamsOf w l ps ∧ List.Forall₂ (List.Forall₂ (Holds w.store.heap)) ps pv

/-- The program that makes a sequential model: `NewModel`, `Push(NewInput(shape))` and `Push` of a
new layer for each of `ls`. -/
def sequential (shape : List Nat) (ls : List (LSpec T)) : Run T Nat := do
  let m ← NetM.newModel
  let i ← LayerM.newInput shape
  NetM.pushLayer m i
  Run.each ls fun s => do
    let l ← s.create
    NetM.pushLayer m l
  return m

/-- ... and compiles it -/
def compiled (shape : List Nat) (ls : List (LSpec T)) : Run T Nat := do
  let m ← sequential shape ls
  NetM.compile m
  return m

/-- scalar `q` existed before the program made its model, in state `w0`, or was made after the model
was compiled, in state `w1`: it is not one of the model's -/
def Outside (w0 w1 : World T) (q : Ptr) : Prop :=
  q < w0.store.heap.next ∨ w1.store.heap.next ≤ q

/-- `t` is a tensor with value `x` that shares no element with the model -/
def UserTensor (w0 w1 w : World T) (t : Nat) (x : STensor T) : Prop :=
  t < w.nodeNext ∧ Holds w.store.heap (w.store.nodes t).mat x ∧ ∀ q ∈ (w.store.nodes t).mat.ops, Outside w0 w1 q

/-- the call `o` returned, with or without an error, and left state `s` -/
def Ends {σ α : Type} (o : Out σ α) (s : σ) : Prop := (∃ r, o = .ok r s) ∨ ∃ e, o = .err e s

/-- Uses of a model `m` that was made in state `w0` and compiled in state `w1`: predict (also with inputs that
are rejected), save and load the model (with any writer and reader, also failing ones), make its layers
trainable or not, give the weights and biases new values by whatever means. -/
inductive Use (w0 w1 : World T) (m : Nat) : World T → World T → Prop where
  | predict {a b : World T} {t : Nat} {x : STensor T} : UserTensor w0 w1 a t x → Ends (NetM.predict m t a) b →
      Use w0 w1 m a b
  | save [Bin T] {a b : World T} {k k' : Sink} : Ends (NetM.save m (a, k)) (b, k') → Use w0 w1 m a b
  | load [Bin T] {a b : World T} {r r' : List Byte} : Ends (NetM.load m (a, r)) (b, r') → Use w0 w1 m a b
  | resetSave {a b : World T} : NetM.resetSave m a = .ok () b → Use w0 w1 m a b
  | resetLoad {a b : World T} : NetM.resetLoad m a = .ok () b → Use w0 w1 m a b
  | setTrainable {a b : World T} {t : Bool} : NetM.setTrainable m t a = .ok () b → Use w0 w1 m a b
  | weights {a : World T} {h : Heap T} {l : Nat} {ps : List (List Mat)} : (a.nets m).last = some l → ParamsOf a l ps →
      h.next = a.store.heap.next →
      (∀ q, h.val q ≠ a.store.heap.val q → ∃ p ∈ ps, ∃ x ∈ p, q ∈ x.ops) →
      Use w0 w1 m a { a with store := { a.store with heap := h } }

/-- What a program may do between two uses of a model `m` that was made in state `w0` and compiled in
state `w1`: use it, and do anything with tensors, layers and models that are not part of `m`. -/
inductive Step (w0 w1 : World T) (m : Nat) : World T → World T → Prop where
  | use {a b : World T} : Use w0 w1 m a b → Step w0 w1 m a b
  | elsewhere {a b : World T} : a.store.heap.next ≤ b.store.heap.next → a.nodeNext ≤ b.nodeNext →
      a.layerNext ≤ b.layerNext →
      (∀ n, n < w1.nodeNext → (b.store.nodes n).kind = (a.store.nodes n).kind) →
      (∀ n, n < w1.nodeNext → frozen a.store n → frozen b.store n ∧ (b.store.nodes n).mat = (a.store.nodes n).mat) →
      (∀ l, w0.layerNext ≤ l → l < w1.layerNext → b.layers l = a.layers l) → b.nets m = a.nets m →
      (∀ q, ¬ Outside w0 w1 q → b.store.heap.val q = a.store.heap.val q) →
      Step w0 w1 m a b

/-- any number of such steps -/
inductive Steps (w0 w1 : World T) (m : Nat) : World T → World T → Prop where
  | none {a : World T} : Steps w0 w1 m a a
  | more {a b c : World T} : Steps w0 w1 m a b → Step w0 w1 m b c → Steps w0 w1 m a c

end Godeep.Spec
