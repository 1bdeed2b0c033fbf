import Verif.Model.Net
import Verif.Spec.Calls
import Verif.Spec.Save
/-
  Programs that use the library: calls of the packages `tensor`, `graph`, `layer` and `model`, in any order, each with
  tensors, layers, models and scalars that earlier calls returned.  What a program can see of the weights of a layer, and
  which layers a call is allowed to change.
-/
namespace Godeep.Spec
open Godeep GoNum

variable {T : Type} [GoNum T]

/-- what a call returns -/
inductive Ret where
  | nothing
  | tensor (n : Nat)
  | layer (l : Nat)
  | model (m : Nat)
  | scalar (p : Ptr)

/-- one call -/
inductive Act (T : Type) where
  /-- a number on its own, and assignment to it -/
  | scalar (v : T) | setScalar (p : Ptr) (v : T)
  /-- new tensors -/
  | zeros (shape : List Nat) | ones (shape : List Nat) | fromValues (values : List T) (shape : List Nat) | rand (shape : List Nat) | copy (t : Nat)
  /-- tensors computed from others, and their evaluation with a graph -/
  | tensor (c : Call T) | flatten (t : Nat) | eval (t : Nat)
  /-- tensors that assign to the elements of another tensor when they are evaluated: `FillWith` and `CopyTo` -/
  | fillWith (t : Nat) (p : Ptr) | copyTo (t u : Nat)
  /-- the methods that compute at once; `fill` is the last argument of `FOSubTensor` -/
  | now (fill : T) (c : Call T)
  /-- an element of a tensor, as a number on its own -/
  | element (t : Nat) (index : List Nat)
  /-- assignment to elements -/
  | set (t : Nat) (value : T) (index : List Nat) | loadData (t : Nat) (values : List T) | loadTensor (t u : Nat)
  | fill (t : Nat) (p : Ptr) | fillData (t : Nat) (value : T) | readTensor (t : Nat) (bytes : List Byte)
  /-- new layers -/
  | input (shape : List Nat) | dense (outs : Nat) (act : Activation T) | inDense (ins outs : Nat) (act : Activation T)
  | flattenLayer | softMaxLayer | normLayer | eNormLayer | subLayer (dim from_ upto : Nat) | concatLayer (l k dim : Nat)
  | conv (nf kw kh sx sy : Nat) (act : Activation T) | deconv (nf kw kh sx sy : Nat) (act : Activation T)
  | maxPool (sx sy : Nat) | upSampling (s : Nat) | upSamplingXY (sx sy : Nat)
  /-- methods of layers -/
  | connect (l k : Nat) | setLayerTrainable (l : Nat) (t : Bool)
  /-- new models -/
  | newModel | fromInOut (i o : Nat) | fromModels (ms : List Nat)
  /-- methods of models -/
  | push (m l : Nat) | compile (m : Nat) | compileBP (m : Nat) | resetIS (m : Nat) | predict (m t : Nat)
  | trainOne (m x y : Nat) (alpha momentum : T)
  | train (m : Nat) (xs ys : List Nat) (epochs batch : Nat) (alpha momentum : T) (draw : Nat → Nat)
  | setTrainable (m : Nat) (t : Bool) | resetSave (m : Nat) | resetLoad (m : Nat) | save (m : Nat) (sink : Sink) | load (m : Nat) (bytes : List Byte)

/-- The method of the tensor that computes at once what the function of the same name computes in a graph: `get n` is tensor
`n`.  The one for `SubExtendedTensor` is `FOSubTensor`. -/
def Call.mat (fill : T) (get : Nat → Mat) : Call T → Heap T → Out (Heap T) Mat
  | add a b => (get a).add (get b)
  | sub a b => (get a).sub (get b)
  | mul a b => (get a).mulM (get b)
  | div a b => (get a).div (get b)
  | addScalar t p => (get t).addScalar p
  | subScalar t p => (get t).subScalar p
  | mulScalar t p => (get t).mulScalar p
  | divScalar t p => (get t).divScalar p
  | neg t => (get t).neg
  | abs t => (get t).abs
  | activate t f => (get t).activate f
  | softMax t => (get t).softMax
  | sum t => (get t).sum
  | avg t => (get t).avg
  | max t => (get t).max
  | min t => (get t).min
  | dSum t d => (get t).dsum d
  | dAvg t d => (get t).davg d
  | dMax t d => (get t).dmax d
  | dMin t d => (get t).dmin d
  | dot a b => (get a).dot (get b)
  | dotAt a b da db => (get a).dotAt (get b) da db
  | concat a b d => fun h => Out.ofRes h ((get a).concat (get b) d)
  | subTensor t d lo hi => (get t).subTensor d lo hi
  | subExtended t d lo hi => (get t).foSubTensor d lo hi fill
  | reshape t shape => (get t).reshape shape
  | transpose t => (get t).transpose

/-- call it -/
def Call.now (fill : T) (c : Call T) : Run T Nat := fun w => Run.leaf (c.mat fill fun n => (w.store.nodes n).mat) w

namespace Act

/-- a call that returns a tensor -/
def tensorOf (a : Run T Nat) : Run T Ret := do return .tensor (← a)

/-- a call that returns a layer -/
def layerOf (a : Run T Nat) : Run T Ret := do return .layer (← a)

/-- a call that returns a model -/
def modelOf (a : Run T Nat) : Run T Ret := do return .model (← a)

/-- a call that returns nothing, or numbers -/
def nothingOf {α : Type} (a : Run T α) : Run T Ret := do
  let _ ← a
  return .nothing

/-- `graph.NewGraph(t)` and `Exec` -/
def evalRun (t : Nat) : Run T Unit := do
  Run.newCtx
  Run.buildGraph t
  let ops ← Run.ops
  NetM.run (some ops)

/-- a method that also reads or writes a stream -/
def streamRun {σ : Type} (f : World T × σ → Out (World T × σ) Unit) (s : σ) : Run T Unit := fun w =>
  match f (w, s) with
  | .ok _ x => .ok () x.1
  | .err e x => .err e x.1
  | .panic => .panic

/-- make the call -/
def run [Bin T] : Act T → Run T Ret
  | scalar v => do return .scalar (← Run.scalar v)
  | setScalar p v => nothingOf (Run.setValue p v)
  | zeros s => tensorOf (Run.zeros s)
  | ones s => tensorOf (Run.leaf (Mat.newOnes s))
  | fromValues vs s => tensorOf (Run.leaf (Mat.newFromValues vs s))
  | rand s => tensorOf (Run.normRand s)
  | copy t => tensorOf (NetM.copyTensor t)
  | tensor c => tensorOf c.run
  | flatten t => tensorOf (Tensor.flatten t)
  | eval t => nothingOf (evalRun t)
  | fillWith t p => tensorOf (Tensor.fillWith t p)
  | copyTo t u => tensorOf (Tensor.copyTo t u)
  | now v c => tensorOf (c.now v)
  | element t i => do return .scalar (← Run.operand t i)
  | set t v i => nothingOf (do Run.heap ((← Run.mat t).set v i))
  | loadData t vs => nothingOf (do Run.heap ((← Run.mat t).loadData vs))
  | loadTensor t u => nothingOf (LayerM.loadFrom t u)
  | fill t p => nothingOf (do Run.heap ((← Run.mat t).fill p))
  | fillData t v => nothingOf (do Run.heap ((← Run.mat t).fillData v))
  | readTensor t bs => nothingOf (streamRun (LayerM.loadTensor (some t)) bs)
  | input s => layerOf (LayerM.newInput s)
  | dense n a => layerOf (LayerM.newDense n a)
  | inDense i n a => layerOf (LayerM.newInDense i n a)
  | flattenLayer => layerOf LayerM.newFlatten
  | softMaxLayer => layerOf LayerM.newSoftMax
  | normLayer => layerOf LayerM.newNorm
  | eNormLayer => layerOf LayerM.newENorm
  | subLayer d f t => layerOf (LayerM.newSubTensor d f t)
  | concatLayer l k d => layerOf (LayerM.newConcat l k d)
  | conv n kw kh sx sy a => layerOf (LayerM.newConv2D n kw kh sx sy a)
  | deconv n kw kh sx sy a => layerOf (LayerM.newDeconv2D n kw kh sx sy a)
  | maxPool sx sy => layerOf (LayerM.newMaxPool2D sx sy)
  | upSampling s => layerOf (LayerM.newUpSampling2D s)
  | upSamplingXY sx sy => layerOf (LayerM.newUpSampling2Dxy sx sy)
  | connect l k => nothingOf (LayerM.connect l k)
  | setLayerTrainable l t => nothingOf (LayerM.setTrainable l t)
  | newModel => modelOf NetM.newModel
  | fromInOut i o => modelOf (NetM.fromInOut i o)
  | fromModels ms => modelOf (NetM.fromModels ms)
  | push m l => nothingOf (NetM.pushLayer m l)
  | compile m => nothingOf (NetM.compile m)
  | compileBP m => nothingOf (NetM.compileBP m)
  | resetIS m => nothingOf (NetM.resetIS m)
  | predict m t => tensorOf (NetM.predict m t)
  | trainOne m x y a mo => nothingOf (NetM.trainOne m x y a mo)
  | train m xs ys e b a mo d => nothingOf (NetM.train m xs ys e b a mo d)
  | setTrainable m t => nothingOf (NetM.setTrainable m t)
  | resetSave m => nothingOf (NetM.resetSave m)
  | resetLoad m => nothingOf (NetM.resetLoad m)
  | save m s => nothingOf (streamRun (NetM.save m) s)
  | load m bs => nothingOf (streamRun (NetM.load m) bs)

end Act

/-- the tensors a tensor call uses -/
def Call.args : Call T → List Nat
  | .add a b | .sub a b | .mul a b | .div a b | .dot a b | .dotAt a b _ _ | .concat a b _ => [a, b]
  | .addScalar t _ | .subScalar t _ | .mulScalar t _ | .divScalar t _ | .neg t | .abs t | .activate t _ | .softMax t
  | .sum t | .avg t | .max t | .min t | .dSum t _ | .dAvg t _ | .dMax t _ | .dMin t _
  | .subTensor t _ _ _ | .subExtended t _ _ _ | .reshape t _ | .transpose t => [t]

/-- what a program has got from its calls so far -/
structure Env where
  tensors : List Nat := []
  layers : List Nat := []
  models : List Nat := []
  scalars : List Ptr := []

/-- … after one more call -/
def Env.add (e : Env) : Ret → Env
  | .nothing => e
  | .tensor n => { e with tensors := n :: e.tensors }
  | .layer l => { e with layers := l :: e.layers }
  | .model m => { e with models := m :: e.models }
  | .scalar p => { e with scalars := p :: e.scalars }

/-- the call uses only what the program has got from its calls -/
def Act.uses (e : Env) : Act T → Prop
  | scalar _ | zeros _ | ones _ | fromValues _ _ | rand _ | input _ | dense _ _ | inDense _ _ _ | flattenLayer | softMaxLayer | normLayer
  | eNormLayer | subLayer _ _ _ | conv _ _ _ _ _ _ | deconv _ _ _ _ _ _ | maxPool _ _ | upSampling _ | upSamplingXY _ _ | newModel => True
  | setScalar p _ => p ∈ e.scalars
  | copy t | flatten t | eval t | set t _ _ | loadData t _ | element t _ | fillData t _ | readTensor t _ => t ∈ e.tensors
  | fill t p | fillWith t p => t ∈ e.tensors ∧ p ∈ e.scalars
  | tensor c | now _ c => ∀ t ∈ c.args, t ∈ e.tensors
  | loadTensor t u | copyTo t u => t ∈ e.tensors ∧ u ∈ e.tensors
  | concatLayer l k _ | connect l k | fromInOut l k => l ∈ e.layers ∧ k ∈ e.layers
  | setLayerTrainable l _ => l ∈ e.layers
  | fromModels ms => ∀ m ∈ ms, m ∈ e.models
  | push m l => m ∈ e.models ∧ l ∈ e.layers
  | compile m | compileBP m | resetIS m | setTrainable m _ | resetSave m | resetLoad m | save m _ | load m _ => m ∈ e.models
  | predict m t => m ∈ e.models ∧ t ∈ e.tensors
  | trainOne m x y _ _ => m ∈ e.models ∧ x ∈ e.tensors ∧ y ∈ e.tensors
  | train m xs ys _ _ _ _ _ => m ∈ e.models ∧ (∀ x ∈ xs, x ∈ e.tensors) ∧ ∀ y ∈ ys, y ∈ e.tensors

/-- before the first call: nothing has been made; `rnd` are the numbers that the random number generator will give -/
def start (rnd : Nat → Nat → T) : World T where
  store := ⟨fun _ => ⟨.leaf, ⟨[], [], []⟩, false⟩, Heap.empty zero, []⟩
  nodeNext := 0
  layers := fun _ => LayerM.blank .input
  layerNext := 0
  nets := fun _ => NetM.blankNet
  netNext := 0
  rnd := rnd
  draws := 0

/-- Calls that satisfy `P` lead from one state to another.  A call that panics ends the program; a call that returns an
error does not. -/
inductive Calls [Bin T] (P : World T → Act T → Prop) : Env → World T → Env → World T → Prop
  | refl (e : Env) (w : World T) : Calls P e w e w
  | ok {e0 e : Env} {w0 w w' : World T} {c : Act T} {r : Ret} : Calls P e0 w0 e w → c.uses e → P w c → c.run w = .ok r w' → Calls P e0 w0 (e.add r) w'
  | err {e0 e : Env} {w0 w w' : World T} {c : Act T} {x : Err} : Calls P e0 w0 e w → c.uses e → P w c → c.run w = .err x w' → Calls P e0 w0 e w'

/-- the states that programs reach -/
def Reached [Bin T] (e : Env) (w : World T) : Prop := ∃ rnd, Calls (fun _ _ => True) {} (start rnd) e w

/-- shape and values of a tensor that may be nil -/
def numbers (w : World T) (o : Option Nat) : Option (List Nat × List T) :=
  o.map fun n => ((w.store.nodes n).mat.shape, (w.store.nodes n).mat.ops.map w.store.heap.val)

/-- the weights (`true`) or the bias (`false`) of a layer -/
def part (x : Layer T) : Bool → Option Nat
  | true => x.weights
  | false => x.bias

/-- shape and values of each tensor of weights that a layer has -/
def weightsOf (w : World T) (k : Nat) : List (List Nat × List T) := (ownTensors w k).map fun a => (a.shape, a.ops.map w.store.heap.val)

/-- `k` is `l`, or in front of it -/
inductive InFront (w : World T) : Nat → Nat → Prop
  | self (l : Nat) : InFront w l l
  | pre {l p k : Nat} : (w.layers l).pre = some p → InFront w p k → InFront w l k

/-- the call may change the weights and the bias of layer `l`: it trains a model and the layer is one of its trainable
layers, or it loads a model and the layer is one of its layers -/
def Act.mayChange (w : World T) (l : Nat) : Act T → Prop
  | trainOne m _ _ _ _ | train m _ _ _ _ _ _ _ => (w.layers l).trainable = true ∧ ∃ k, (w.nets m).last = some k ∧ InFront w k l
  | load m _ => ∃ k, (w.nets m).last = some k ∧ Feeds w k l
  | _ => False

/-- The call returns a tensor with elements of its own.  `Concat` is left out, its result has the elements of its arguments;
and `Reshape`, its result has nil elements when it is larger than its argument. -/
def Act.makes : Act T → Prop
  | zeros _ | ones _ | fromValues _ _ | rand _ | copy _ | predict _ _ => True
  | now _ c => ∀ a b d s, c ≠ .concat a b d ∧ c ≠ .reshape a s
  | _ => False

/-- The call assigns to elements of tensor `t`: directly, or because it assigns to a tensor that has one of them, or to a number
that is one of them; or it makes a tensor that will assign to a tensor that has one of them, or to one that is computed from others
(and may get one of them). -/
def Act.assigns (w : World T) (t : Nat) : Act T → Prop
  | setScalar p _ => p ∈ (w.store.nodes t).mat.ops
  | set u _ _ | loadData u _ | loadTensor u _ | fill u _ | fillData u _ | readTensor u _ => ∃ p ∈ (w.store.nodes u).mat.ops, p ∈ (w.store.nodes t).mat.ops
  | fillWith u _ | copyTo _ u => (w.store.nodes u).kind ≠ .leaf ∨ ∃ p ∈ (w.store.nodes u).mat.ops, p ∈ (w.store.nodes t).mat.ops
  | _ => False

end Godeep.Spec
