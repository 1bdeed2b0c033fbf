import Verif.Model.Lazy
import Verif.Model.Bytes
/-
  Package `layer`.  A layer variable of the Go program is a layer number of a `World`; the tensors
  it refers to are node numbers of the tensor store.  `store.ctx` is the context that is being
  filled.
-/
namespace Godeep
open GoNum

/-- `activation/activation.go:5-8` `Activation` -/
structure Activation (T : Type) where
  activate : T → T
  derive : T → T

/-- `activation/linear.go:5-13` `Linear` -/
def Activation.linear {T : Type} [GoNum T] : Activation T := ⟨fun n => n, fun _ => one⟩

/-- Which struct a layer is, with the fields that are not in `Base`. -/
inductive LKind (T : Type) where
  /-- `layer/input.go:11-13` -/
  | input
  /-- `layer/dense.go:12-14` -/
  | dense
  /-- `layer/flatten.go:10-12` -/
  | flatten
  /-- `layer/softmax.go:10-14` (`Min` and `Sum` are never used) -/
  | softMax
  /-- `layer/norm.go:11-16` -/
  | norm (min max : T)
  /-- `layer/sub_tensor.go:10-15` -/
  | sub (dim from_ to : Nat)
  /-- `layer/concat.go:15-20` -/
  | concat (l1 l2 : Nat) (dim : Nat)
  /-- `layer/conv2d.go:15-22` -/
  | conv (nf kw kh sx sy : Nat)
  /-- `layer/deconv2d.go:15-22` -/
  | deconv (nf kw kh sx sy : Nat)
  /-- `layer/max_pool_2d.go:14-18` -/
  | maxPool (sx sy : Nat)
  /-- `layer/up_sampling_2d.go:14-18` -/
  | upSampling (sx sy : Nat)

/-- `layer/base.go:17-52` `Base`.  `none` and pointer 0 are Go's nil.  `Type`, `printed` (used only for
printing), `Alpha` and `Momentum` (never used) are left out.  `maxScalar` belongs to `Norm`. -/
structure Layer (T : Type) where
  kind : LKind T
  pre : Option Nat
  index : Nat
  weights : Option Nat
  bias : Option Nat
  nWeights : Option Nat
  mWeights : Option Nat
  nBias : Option Nat
  mBias : Option Nat
  input : Option Nat
  neta : Option Nat
  output : Option Nat
  dif : Option Nat
  der : Option Nat
  ref : Ptr
  act : Activation T
  trainable : Bool
  build : Bool
  ff : Bool
  bp : Bool
  saved : Bool
  loaded : Bool
  maxScalar : Ptr

/-- `model/model.go:23-39` `Model`.  A graph is its list of operations (`Model/GraphOps.lean` has the
slices behind it). -/
structure Net (T : Type) where
  first : Option Nat
  last : Option Nat
  input : Option Nat
  output : Option Nat
  target : Option Nat
  alpha : Ptr
  momentum : Ptr
  loss : Ptr
  ff : Option (List (Op T))
  bp : Option (List (Op T))
  calDif : Option (List (Op T))
  resetFit : Option (List (Op T))
  reset : Option (List (Op T))

/-- The tensors, scalars, layers and models of the program.  Nodes from `nodeNext` on, layers from
`layerNext` on and models from `netNext` on are not in use.  `rnd k i` is the `i`-th number of the
`k`-th random tensor made. -/
structure World (T : Type) where
  store : Store T
  nodeNext : Nat
  layers : Nat → Layer T
  layerNext : Nat
  nets : Nat → Net T
  netNext : Nat
  rnd : Nat → Nat → T
  draws : Nat

/-- a Go function body: changes the world and returns a value, an error, or panics -/
def Run (T α : Type) := World T → Out (World T) α

namespace Run
variable {T : Type} {α β : Type}

protected def pure (a : α) : Run T α := fun w => .ok a w

protected def bind (x : Run T α) (f : α → Run T β) : Run T β := fun w => (x w).bind f

instance : Monad (Run T) where
  pure := Run.pure
  bind := Run.bind

/-- a result that does not touch the world -/
def lift (r : Res α) : Run T α := fun w => Out.ofRes w r

/-- return an error -/
def fail (e : Err) : Run T α := fun w => .err e w

/-- run-time panic -/
def abort : Run T α := fun _ => .panic

/-- use of a value that may be nil -/
def deref (o : Option α) : Run T α :=
  match o with
  | some a => pure a
  | none => abort

/-- work on the scalars only -/
def heap (f : Heap T → Out (Heap T) α) : Run T α := fun w =>
  match f w.store.heap with
  | .ok a h => .ok a { w with store := { w.store with heap := h } }
  | .err e h => .err e { w with store := { w.store with heap := h } }
  | .panic => .panic

/-- work on the tensor store only -/
def store (f : Store T → Out (Store T) α) : Run T α := fun w =>
  match f w.store with
  | .ok a s => .ok a { w with store := s }
  | .err e s => .err e { w with store := s }
  | .panic => .panic

/-- `for x in l { ... }` -/
def each {ι : Type} (l : List ι) (f : ι → Run T Unit) : Run T Unit :=
  match l with
  | [] => pure ()
  | i :: l => bind (f i) fun _ => each l f

/-- `for x in l { ... ; ops = append(ops, ...) }` -/
def collect {ι : Type} (l : List ι) (f : ι → Run T α) : Run T (List α) :=
  match l with
  | [] => pure []
  | i :: l => bind (f i) fun a => bind (collect l f) fun as => pure (a :: as)

/-- read a layer object -/
def layer (l : Nat) : Run T (Layer T) := fun w => .ok (w.layers l) w

/-- assign to fields of a layer object -/
def modify (l : Nat) (f : Layer T → Layer T) : Run T Unit := fun w =>
  .ok () { w with layers := fun k => if k = l then f (w.layers k) else w.layers k }

/-- a new layer object -/
def newLayer (x : Layer T) : Run T Nat := fun w =>
  .ok w.layerNext { w with
    layers := fun k => if k = w.layerNext then x else w.layers k
    layerNext := w.layerNext + 1 }

/-- read a model object -/
def net (m : Nat) : Run T (Net T) := fun w => .ok (w.nets m) w

/-- assign to fields of a model object -/
def modifyNet (m : Nat) (f : Net T → Net T) : Run T Unit := fun w =>
  .ok () { w with nets := fun k => if k = m then f (w.nets k) else w.nets k }

/-- A bound for following previous layers: no chain of distinct layers is longer than the number of
layers there are.  (On a cycle of layers the Go code does not terminate; here it panics.) -/
def fuel : Run T Nat := fun w => .ok (w.layerNext + 1) w

/-- a new tensor object -/
def newNode (x : Node T) : Run T Nat := fun w =>
  .ok w.nodeNext { w with store := w.store.setNode w.nodeNext x, nodeNext := w.nodeNext + 1 }

/-- the `TensorMat` of a tensor -/
def mat (n : Nat) : Run T Mat := fun w => .ok (w.store.nodes n).mat w

/-- `ctx.Push` -/
def push (o : Op T) : Run T Unit := fun w =>
  .ok () { w with store := { w.store with ctx := w.store.ctx ++ [o] } }

/-- `p.Value` -/
def value (p : Ptr) : Run T T := fun w => Out.ofRes w (w.store.heap.load p)

/-- `p.Value = v` -/
def setValue (p : Ptr) (v : T) : Run T Unit := heap fun h => h.store p v

/-- start a new context -/
def newCtx : Run T Unit := fun w => .ok () { w with store := { w.store with ctx := [] } }

/-- the operations pushed so far (`graph/graph.go:14-16` `NewGraphFrom`) -/
def ops : Run T (List (Op T)) := fun w => .ok w.store.ctx w

variable [GoNum T]

/-- `&number.Scalar[T]{Value: v}` -/
def scalar (v : T) : Run T Ptr := heap fun h => .ok h.next (h.alloc v).2

/-- a tensor constructor that allocates its elements -/
def leaf (f : Heap T → Out (Heap T) Mat) : Run T Nat :=
  bind (heap f) fun m => newNode ⟨.leaf, m, false⟩

/-- `tensor.NewZeros` -/
def zeros (shape : List Nat) : Run T Nat := leaf (Mat.newZeros shape)

/-- `tensor.NewNormRand` -/
def normRand (shape : List Nat) : Run T Nat := fun w =>
  leaf (Mat.newRand (w.rnd w.draws) shape) { w with draws := w.draws + 1 }

/-- a lazily evaluated tensor -/
def lazy (k : Kind T) : Run T Nat := newNode (Store.lazyNode k [])

/-- `tensor/reshape.go:15-22` `Reshape` -/
def reshape (t : Nat) (shape : List Nat) : Run T Nat := newNode (Store.lazyNode (.reshape t) shape)

/-- `tensor/reshape.go:24-26` `Flatten`: the size of `t` at this moment -/
def flatten (t : Nat) : Run T Nat := bind (mat t) fun m => reshape t [m.getSize]

/-- `BuildGraph` -/
def buildGraph (n : Nat) : Run T Unit := store (Store.build (n + 1) n)

/-- `tensor/copy.go:23-26` `Transfer` -/
def transfer (f t : Nat) : Run T Unit := bind (lazy (.copy f t)) buildGraph

/-- `tensor/fill.go:23-26` `Fill` -/
def fill (t : Nat) (v : Ptr) : Run T Unit := bind (lazy (.fill t v)) buildGraph

/-- `GetOperand` -/
def operand (n : Nat) (idx : List Nat) : Run T Ptr := bind (mat n) fun m => lift (m.getOperand idx)

/-- `GetOperands()[i]` -/
def operandAt (n i : Nat) : Run T Ptr := bind (mat n) fun m => lift (Res.index m.ops i)

/-- `o := &number.Scalar[T]{}` and `ctx.Push(r into o)` -/
def emit (r : Rhs T) : Run T Ptr := bind (scalar zero) fun o => bind (push (.asg o r)) fun _ => pure o

end Run

/-- Go's `a - b` on `uint` -/
def subU (a b : Nat) : Nat := (a + 2 ^ 64 - b) % 2 ^ 64

/-- Go's `a / b` on `uint` -/
def divU (a b : Nat) : Res Nat := if b = 0 then .panic else .ok (a / b)

namespace LayerM
open Run
variable {T : Type} [GoNum T]

/-! ### constructors -/

/-- all fields zero -/
def blank (k : LKind T) : Layer T where
  kind := k
  pre := none
  index := 0
  weights := none
  bias := none
  nWeights := none
  mWeights := none
  nBias := none
  mBias := none
  input := none
  neta := none
  output := none
  dif := none
  der := none
  ref := 0
  act := .linear
  trainable := false
  build := false
  ff := false
  bp := false
  saved := false
  loaded := false
  maxScalar := 0

/-- `layer/input.go:15-24` `NewInput` -/
def newInput (shape : List Nat) : Run T Nat := do
  let i ← zeros shape
  let d ← zeros shape
  newLayer { blank .input with input := some i, dif := some d, act := .linear }

/-- `layer/dense.go:16-26` `NewDense` -/
def newDense (outs : Nat) (act : Activation T) : Run T Nat := do
  let o ← zeros [outs]
  newLayer { blank .dense with output := some o, act := act, trainable := true }

/-- `layer/dense.go:28-40` `NewInDense` -/
def newInDense (ins outs : Nat) (act : Activation T) : Run T Nat := do
  let i ← zeros [ins]
  let o ← zeros [outs]
  newLayer { blank .dense with input := some i, output := some o, act := act, trainable := true }

/-- `layer/flatten.go:14-19` `NewFlatten` -/
def newFlatten : Run T Nat := newLayer (blank .flatten)

/-- `layer/softmax.go:16-20` `NewSoftMax` -/
def newSoftMax : Run T Nat := newLayer (blank .softMax)

/-- `layer/norm.go:18-25` `NewNorm` -/
def newNorm : Run T Nat := newLayer (blank (.norm zero one))

/-- `layer/norm.go:27-34` `NewENorm` -/
def newENorm : Run T Nat := newLayer (blank (.norm (neg one) one))

/-- `layer/sub_tensor.go:17-25` `NewSubTensor` -/
def newSubTensor (dim from_ to : Nat) : Run T Nat := newLayer (blank (.sub dim from_ to))

/-- `layer/concat.go:22-31` `NewConcat` (nil layers are not modelled) -/
def newConcat (l1 l2 dim : Nat) : Run T Nat := newLayer (blank (.concat l1 l2 dim))

/-- `layer/conv2d.go:24-39` `NewConv2D` and `layer/conv2d.go:41-56` `NewConv2Dwh` -/
def newConv2D (nf kw kh sx sy : Nat) (act : Activation T) : Run T Nat :=
  newLayer { blank (.conv nf kw kh sx sy) with act := act, trainable := true }

/-- `layer/deconv2d.go:24-39` `NewDeconv2D` and `layer/deconv2d.go:41-56` `NewDeconv2Dwh` -/
def newDeconv2D (nf kw kh sx sy : Nat) (act : Activation T) : Run T Nat :=
  newLayer { blank (.deconv nf kw kh sx sy) with act := act, trainable := true }

/-- `layer/max_pool_2d.go:20-27` `NewMaxPool2D` and `layer/max_pool_2d.go:29-36` `NewMaxPool2Dxy` -/
def newMaxPool2D (sx sy : Nat) : Run T Nat := newLayer (blank (.maxPool sx sy))

/-- `layer/up_sampling_2d.go:20-27` `NewUpSampling2D` -/
def newUpSampling2D (s : Nat) : Run T Nat := newLayer (blank (.upSampling s s))

/-- `layer/up_sampling_2d.go:29-36` `NewUpSampling2Dxy`: makes a `MaxPool2D` -/
def newUpSampling2Dxy (sx sy : Nat) : Run T Nat := newLayer (blank (.maxPool sx sy))

/-- `layer/base.go:185-187` `Connect` -/
def connect (l to : Nat) : Run T Unit := modify l fun x => { x with pre := some to }

/-! ### access.  The first argument bounds the length of the chain of layers followed. -/

/-- `layer/base.go:170-175` `GetRef` -/
def getRef (l : Nat) : Run T Ptr := do
  let x ← layer l
  if x.ref = 0 then do
    let r ← scalar zero
    modify l fun x => { x with ref := r }
    return r
  else return x.ref

/-- a method that `Input` delegates to its previous layer (`layer/input.go:90-109`), otherwise a
field -/
def delegated (field : Layer T → Option Nat) : Nat → Nat → Run T (Option Nat)
  | 0, _ => abort
  | fuel + 1, l => do
    let x ← layer l
    match x.kind, x.pre with
    | .input, some p => delegated field fuel p
    | _, _ => return field x

/-- `layer/base.go:147-149` and `layer/input.go:97-102` `GetOutputs`.  (`GetNetas` and `GetActivation`, `layer/base.go:151-153` and
`layer/base.go:177-179`, read the fields `neta` and `act`.) -/
def getOutputs : Nat → Nat → Run T (Option Nat) := delegated Layer.output

/-- `layer/base.go:155-157` and `layer/input.go:104-109` `GetDif` -/
def getDif : Nat → Nat → Run T (Option Nat) := delegated Layer.dif

/-- `layer/base.go:143-145` and `layer/input.go:90-95` `GetInputs` -/
def getInputs (fuel l : Nat) : Run T (Option Nat) := do
  let x ← layer l
  match x.kind, x.pre with
  | .input, some p => getOutputs fuel p
  | _, _ => return x.input

/-! ### Build -/

/-- `p.GetRef().Value += v` -/
def addRef (l : Nat) (v : T) : Run T Unit := do
  let r ← getRef l
  let x ← value r
  setValue r (add x v)

/-- `layer/base.go:81-97` `PreBuild`; `rec` is `Build` of the previous layer -/
def preBuild (rec : Nat → Run T Nat) (l : Nat) : Run T Unit := do
  let _ ← getRef l
  let x ← layer l
  match x.pre with
  | none => pure ()
  | some p =>
    addRef p one
    let count ← rec p
    modify l fun x => { x with index := count + 1 }
  let x ← layer l
  let v ← value x.ref
  if eq v zero then fail (.other "Unconnected layer") else return ()

/-- `Build` of every layer, with `CheckB` (`layer/base.go:73-79`): `layer/input.go:26-43`, `layer/dense.go:42-48`, `layer/flatten.go:21-36`,
`layer/softmax.go:22-37`, `layer/norm.go:36-51`, `layer/sub_tensor.go:27-41`, `layer/concat.go:33-57`,
`layer/conv2d.go:58-64`, `layer/deconv2d.go:58-64`, `layer/max_pool_2d.go:38-53`,
`layer/up_sampling_2d.go:38-53`.  Go does not fix whether `return p.Index, p.PreBuild()` returns the
old or the new index; it is used only in messages. -/
def build : Nat → Nat → Run T Nat
  | 0, _ => abort
  | fuel + 1, l => do
    let x ← layer l
    if x.build then return x.index
    else
      modify l fun x => { x with build := true }
      match x.kind with
      | .concat l1 l2 _ => do
        addRef l1 one
        addRef l2 one
        let c1 ← build fuel l1
        let c2 ← build fuel l2
        let i := if c1 > c2 then c1 + 1 else c2 + 1
        modify l fun x => { x with index := i }
        return i
      | .dense | .conv .. | .deconv .. => do
        preBuild (build fuel) l
        let x ← layer l
        return x.index
      | .input => do
        preBuild (build fuel) l
        match x.pre with
        | none => pure ()
        | some p =>
          let x ← layer l
          let v ← value x.ref
          addRef p v
          let r ← getRef p
          modify l fun x => { x with ref := r }
        let x ← layer l
        return x.index
      | _ => do
        preBuild (build fuel) l
        match x.pre with
        | none => fail (.other "This layer can not be input layer")
        | some _ =>
          let x ← layer l
          return x.index

/-! ### Feed-forward -/

/-- `layer/dense.go:72-113`: the operations of output neuron `i` -/
def denseNeuron (x : Layer T) (w b neta out inp : Nat) (inputs i : Nat) : Run T Unit := do
  let bias ← operand b [i]
  let muls ← collect (List.range inputs) fun j => do
    let mul ← scalar zero
    let weight ← operand w [i, j]
    let input ← operandAt inp j
    push (.asg mul (.mul input weight))
    return mul
  let n ← operand neta [i]
  push (.asg n (.sum (muls ++ [bias])))
  let o ← operand out [i]
  push (.asg o (.func x.act.activate n))

/-- `layer/dense.go:59-115`, after the previous layer -/
def denseFF (l : Nat) : Run T Unit := do
  let x ← layer l
  match x.input with
  | none => fail (.other "Invalid input => nil")
  | some inp =>
    let inputs := (← mat inp).getSize
    let out ← deref x.output
    let outputs := (← mat out).getSize
    let neta ← zeros [outputs]
    modify l fun x => { x with neta := some neta }
    let dif ← zeros [outputs]
    modify l fun x => { x with dif := some dif }
    let b ← normRand [outputs]
    modify l fun x => { x with bias := some b }
    let w ← normRand [outputs, inputs]
    modify l fun x => { x with weights := some w }
    each (List.range outputs) fun i => denseNeuron x w b neta out inp inputs i

/-- the last lines of several layers: `p.Dif = tensor.NewZeros[T](p.Output.GetShape()...)` -/
def zeroDif (l out : Nat) : Run T Unit := do
  let m ← mat out
  let d ← zeros m.shape
  modify l fun x => { x with dif := some d }

/-- `layer/flatten.go:46-64` -/
def flattenFF (fuel l p : Nat) : Run T Unit := do
  let po ← deref (← getOutputs fuel p)
  let o ← flatten po
  modify l fun x => { x with output := some o }
  let x ← layer l
  let v ← value x.ref
  addRef p v
  let r ← getRef p
  modify l fun x => { x with ref := r }
  buildGraph o
  zeroDif l o

/-- `layer/softmax.go:48-74` -/
def softMaxFF (fuel l p : Nat) : Run T Unit := do
  let x ← layer l
  let inp ← deref x.input
  let o ← lazy (.softMax inp)
  modify l fun x => { x with output := some o }
  buildGraph o
  let d ← getDif fuel p
  modify l fun x => { x with dif := d }

/-- `layer/norm.go:61-86` -/
def normFF (min max : T) (l : Nat) : Run T Unit := do
  let x ← layer l
  let inp ← deref x.input
  let a ← lazy (.abs inp)
  buildGraph a
  let s ← scalar zero
  modify l fun x => { x with maxScalar := s }
  let am ← mat a
  push (.asg s (.max am.ops))
  let n1 ← lazy (.opScalar .div inp s)
  let k ← scalar (GoNum.sub max min)
  let n2 ← lazy (.opScalar .mul n1 k)
  let c ← scalar min
  let o ← lazy (.opScalar .add n2 c)
  modify l fun x => { x with output := some o }
  buildGraph o
  zeroDif l o

/-- `layer/sub_tensor.go:52-66` -/
def subFF (dim from_ to fuel l p : Nat) : Run T Unit := do
  let po ← deref (← getOutputs fuel p)
  let o ← lazy (.sub dim from_ to false po)
  modify l fun x => { x with output := some o }
  buildGraph o
  zeroDif l o

/-- `layer/concat.go:72-89` -/
def concatFF (l1 l2 dim fuel l : Nat) : Run T Unit := do
  let o1 ← deref (← getOutputs fuel l1)
  let o2 ← deref (← getOutputs fuel l2)
  let o ← lazy (.concat dim o1 o2)
  modify l fun x => { x with output := some o, input := some o }
  buildGraph o
  let d1 ← deref (← getDif fuel l1)
  let d2 ← deref (← getDif fuel l2)
  let d ← lazy (.concat dim d1 d2)
  modify l fun x => { x with dif := some d }

/-- `layer/conv2d.go:107-128`, output position `(f, x, y)`; `row` was made for `x` -/
def convCell (w neta row kw kh sy : Nat) (inCh f x y : Nat) : Run T Unit := do
  let oy := y * sy
  let cell ← lazy (.sub 2 oy (oy + kh) true row)
  let w1 ← lazy (.sub 0 f (f + 1) false w)
  let w2 ← reshape w1 [inCh, kw, kh]
  let p ← lazy (.op2 .mul cell w2)
  let sum ← lazy (.math .sum p)
  buildGraph sum
  let n ← operand neta [f, x, y]
  let s ← operandAt sum 0
  push (.asg n (.add n s))

/-- `layer/conv2d.go:75-132` -/
def convFF (nf kw kh sx sy : Nat) (l : Nat) : Run T Unit := do
  let x ← layer l
  match x.input with
  | none => fail (.other "Not input defined, please use an input layer first")
  | some inp =>
    let inShape := (← mat inp).shape
    if inShape.length ≠ 3 then fail (.other "Invalid input shape")
    else
      let a ← lift (divU (subU (inShape.getD 1 0) kw) sx)
      let b ← lift (divU (subU (inShape.getD 2 0) kh) sy)
      let outShape := [nf, a + 1, b + 1]
      let neta ← zeros outShape
      let out0 ← zeros outShape
      let dif ← zeros outShape
      let bias ← normRand outShape
      let w ← normRand [nf, inShape.getD 0 0, kw, kh]
      modify l fun x => { x with
        neta := some neta, output := some out0, dif := some dif, bias := some bias, weights := some w }
      transfer bias neta
      each (List.range nf) fun f =>
        each (List.range (a + 1)) fun px => do
          let ox := px * sx
          let row ← lazy (.sub 1 ox (ox + kw) true inp)
          each (List.range (b + 1)) fun py => convCell w neta row kw kh sy (inShape.getD 0 0) f px py
      let o ← lazy (.act x.act.activate neta)
      modify l fun x => { x with output := some o }
      buildGraph o

/-- `layer/deconv2d.go:75-155` -/
def deconvFF (nf kw kh sx sy : Nat) (l : Nat) : Run T Unit := do
  let x ← layer l
  match x.input with
  | none => fail (.other "Not input defined, please use an input layer first")
  | some inp =>
    let inShape := (← mat inp).shape
    if inShape.length ≠ 3 then fail (.other "Invalid input shape")
    else
      let outShape := [nf, subU (inShape.getD 1 0) 1 * sx + kw, subU (inShape.getD 2 0) 1 * sy + kh]
      let neta ← zeros outShape
      let out0 ← zeros outShape
      let dif ← zeros outShape
      let bias ← normRand outShape
      let w ← normRand [nf, inShape.getD 0 0, kw, kh]
      modify l fun x => { x with
        neta := some neta, output := some out0, dif := some dif, bias := some bias, weights := some w }
      transfer bias neta
      transfer bias neta
      each (List.range nf) fun outF =>
        each (List.range (inShape.getD 0 0)) fun inF =>
          each (List.range (inShape.getD 1 0)) fun px =>
            each (List.range (inShape.getD 2 0)) fun py =>
              each (List.range kw) fun kx =>
                each (List.range kh) fun ky => do
                  let out ← operand neta [outF, px * sx + kx, py * sy + ky]
                  let i ← operand inp [inF, px, py]
                  let wt ← operand w [outF, inF, kx, ky]
                  let iw ← emit (.mul i wt)
                  push (.asg out (.add out iw))
      let o ← lazy (.act x.act.activate neta)
      modify l fun x => { x with output := some o }
      buildGraph o

/-- the cells of the window of output position `(f, x, y)`, inside the input
(`layer/max_pool_2d.go:80-100`) -/
def poolWindow (inp sx sy h w f x y : Nat) : Run T (List Ptr) := do
  let rows ← collect ((List.range sx).filter fun i => x * sx + i < h) fun i =>
    collect ((List.range sy).filter fun j => y * sy + j < w) fun j =>
      operand inp [f, x * sx + i, y * sy + j]
  return rows.flatten

/-- `layer/max_pool_2d.go:62-112`; the two divisions panic if the pool size is 0 -/
def maxPoolFF (sx sy : Nat) (l : Nat) : Run T Unit := do
  let x ← layer l
  let inp ← deref x.input
  let inShape := (← mat inp).shape
  if inShape.length ≠ 3 then fail (.other "Invalid input shape")
  else
    let a ← lift (divU (inShape.getD 1 0 + 1) sx)
    let b ← lift (divU (inShape.getD 2 0 + 1) sy)
    let out ← zeros [inShape.getD 0 0, a, b]
    modify l fun x => { x with output := some out }
    each (List.range (inShape.getD 0 0)) fun f =>
      each (List.range a) fun px =>
        each (List.range b) fun py => do
          let n ← operand out [f, px, py]
          let ops ← poolWindow inp sx sy (inShape.getD 1 0) (inShape.getD 2 0) f px py
          push (.asg n (.max ops))
    zeroDif l out

/-- `layer/up_sampling_2d.go:62-102` -/
def upSamplingFF (sx sy : Nat) (l : Nat) : Run T Unit := do
  let x ← layer l
  let inp ← deref x.input
  let inShape := (← mat inp).shape
  if inShape.length ≠ 3 then fail (.other "Invalid input shape")
  else
    let outShape := [inShape.getD 0 0, inShape.getD 1 0 * sx, inShape.getD 2 0 * sy]
    let out ← zeros outShape
    modify l fun x => { x with output := some out }
    each (List.range (inShape.getD 0 0)) fun f =>
      each (List.range (inShape.getD 1 0 * sx)) fun px =>
        each (List.range (inShape.getD 2 0 * sy)) fun py => do
          let o ← operand out [f, px, py]
          let i ← operand inp [f, px / sx, py / sy]
          push (.asg o (.set i))
    zeroDif l out

/-- `layer/input.go:63-66` -/
def inputFF (l : Nat) : Run T Unit := do
  let x ← layer l
  let i ← deref x.input
  modify l fun x => { x with neta := some i, output := some i }
  zeroDif l i

/-- what a layer adds to the graph once the previous layers have been built -/
def ffBody (fuel l : Nat) (k : LKind T) (pre : Option Nat) : Run T Unit :=
  match k with
  | .input => inputFF l
  | .dense => denseFF l
  | .flatten => bind (deref pre) fun p => flattenFF fuel l p
  | .softMax => bind (deref pre) fun p => softMaxFF fuel l p
  | .norm min max => normFF min max l
  | .sub d f t => bind (deref pre) fun p => subFF d f t fuel l p
  | .concat l1 l2 dim => concatFF l1 l2 dim fuel l
  | .conv nf kw kh sx sy => convFF nf kw kh sx sy l
  | .deconv nf kw kh sx sy => deconvFF nf kw kh sx sy l
  | .maxPool sx sy => maxPoolFF sx sy l
  | .upSampling sx sy => upSamplingFF sx sy l

/-- `BuildFeedforward` of every layer, with `CheckFF` (`layer/base.go:99-105`) and
`PreBuildFeedforward` (`layer/base.go:107-116`): `layer/input.go:45-67`, `layer/dense.go:50-116`,
`layer/flatten.go:38-65`, `layer/softmax.go:39-75`, `layer/norm.go:53-87`,
`layer/sub_tensor.go:43-67`, `layer/concat.go:59-90`, `layer/conv2d.go:66-133`,
`layer/deconv2d.go:66-156`, `layer/max_pool_2d.go:55-113`, `layer/up_sampling_2d.go:55-103` -/
def feedForward : Nat → Nat → Run T Unit
  | 0, _ => abort
  | fuel + 1, l => do
    let x ← layer l
    if x.ff then return ()
    else
      let v ← value x.ref
      if eq v zero then return ()
      else
        modify l fun x => { x with ff := true }
        match x.kind with
        | .input =>
          match x.pre with
          | some p => feedForward fuel p
          | none => ffBody fuel l x.kind x.pre
        | .concat l1 l2 _ => do
          feedForward fuel l1
          feedForward fuel l2
          ffBody fuel l x.kind x.pre
        | _ => do
          match x.pre with
          | some p =>
            feedForward fuel p
            let o ← getOutputs fuel p
            modify l fun x => { x with input := o }
          | none => pure ()
          ffBody fuel l x.kind x.pre

/-! ### Derivatives -/

/-- `layer/base.go:159-168` `BuildDer` -/
def baseDer (l : Nat) : Run T Nat := do
  let x ← layer l
  let n ← deref x.neta
  let d ← lazy (.act x.act.derive n)
  modify l fun x => { x with der := some d }
  buildGraph d
  return d

/-- `layer/max_pool_2d.go:190-257`; a `Sum` is pushed after every row of the window -/
def maxPoolDer (rec : Nat → Run T Nat) (sx sy : Nat) (l : Nat) : Run T Nat := do
  let x ← layer l
  let inp ← deref x.input
  let out ← deref x.output
  let inShape := (← mat inp).shape
  let outShape := (← mat out).shape
  let d ← zeros outShape
  modify l fun x => { x with der := some d }
  let p ← deref x.pre
  let pd ← rec p
  each (List.range (outShape.getD 0 0)) fun f =>
    each (List.range (outShape.getD 1 0)) fun px =>
      each (List.range (outShape.getD 2 0)) fun py => do
        let my ← operand d [f, px, py]
        let o ← operand out [f, px, py]
        let rows := (List.range sx).filter fun i => px * sx + i < inShape.getD 1 0
        let _ ← rows.foldlM (fun (acc : List Ptr) i => do
          let row ← collect ((List.range sy).filter fun j => py * sy + j < inShape.getD 2 0) fun j => do
            let pder ← operand pd [f, px * sx + i, py * sy + j]
            let i' ← operand inp [f, px * sx + i, py * sy + j]
            let e ← emit (.equals i' o)
            emit (.mul pder e)
          push (.asg my (.sum (acc ++ row)))
          return acc ++ row) ([] : List Ptr)
  return d

/-- `layer/up_sampling_2d.go:157-190` -/
def upSamplingDer (rec : Nat → Run T Nat) (sx sy : Nat) (l : Nat) : Run T Nat := do
  let x ← layer l
  let out ← deref x.output
  let outShape := (← mat out).shape
  let d ← zeros outShape
  modify l fun x => { x with der := some d }
  let p ← deref x.pre
  let pd ← rec p
  each (List.range (outShape.getD 0 0)) fun f =>
    each (List.range (outShape.getD 1 0)) fun px =>
      each (List.range (outShape.getD 2 0)) fun py => do
        let o ← operand d [f, px, py]
        let ix ← lift (divU px sx)
        let iy ← lift (divU py sy)
        let i ← operand pd [f, ix, iy]
        push (.asg o (.set i))
  return d

/-- `BuildDer` of every layer: `layer/base.go:159-168`, `layer/input.go:111-123`,
`layer/flatten.go:83-96`, `layer/softmax.go:94-103`, `layer/norm.go:115-124`,
`layer/sub_tensor.go:98-111`, `layer/concat.go:206-223`, `layer/max_pool_2d.go:189-258`,
`layer/up_sampling_2d.go:156-191` -/
def buildDer : Nat → Nat → Run T Nat
  | 0, _ => abort
  | fuel + 1, l => do
    let x ← layer l
    match x.kind, x.pre with
    | .input, some p => buildDer fuel p
    | k, pre =>
      match x.der with
      | some d => return d
      | none =>
        match k with
        | .flatten => do
          let p ← deref pre
          let pd ← buildDer fuel p
          let d ← flatten pd
          modify l fun x => { x with der := some d }
          buildGraph d
          return d
        | .softMax | .norm .. => do
          let p ← deref pre
          let pd ← buildDer fuel p
          modify l fun x => { x with der := some pd }
          return pd
        | .sub dim from_ to => do
          let p ← deref pre
          let pd ← buildDer fuel p
          let d ← lazy (.sub dim from_ to false pd)
          modify l fun x => { x with der := some d }
          buildGraph d
          return d
        | .concat l1 l2 dim => do
          let d1 ← buildDer fuel l1
          let d2 ← buildDer fuel l2
          let d ← lazy (.concat dim d1 d2)
          modify l fun x => { x with der := some d }
          buildGraph d
          return d
        | .maxPool sx sy => maxPoolDer (buildDer fuel) sx sy l
        | .upSampling sx sy => upSamplingDer (buildDer fuel) sx sy l
        | .input | .dense | .conv .. | .deconv .. => baseDer l

/-! ### Back-propagation -/

/-- `Dif := p.Dif; if p.Ref.Value > 1 { Dif = tensor.DivScalar(Dif, p.Ref) }` -/
def scaledDif (x : Layer T) : Run T Nat := do
  let d ← deref x.dif
  let v ← value x.ref
  if lt one v then lazy (.opScalar .div d x.ref) else return d

/-- `layer/dense.go:157-198`: error term of input `i`, added to the previous layer's -/
def densePre (dif w der pdif outputs i : Nat) : Run T Unit := do
  let ops ← collect (List.range outputs) fun j => do
    let d ← operand dif [j]
    let wt ← operand w [j, i]
    emit (.mul d wt)
  let sum ← emit (.sum ops)
  let d ← operandAt der i
  let nd ← scalar zero
  let pd ← operandAt pdif i
  push (.asg nd (.mul sum d))
  push (.asg pd (.add pd nd))

/-- `layer/dense.go:210-275`: new bias and weights of output neuron `i` -/
def denseUpdate (dif w b nw mw nb mb inp : Nat) (alpha momentum : Ptr) (inputs i : Nat) :
    Run T Unit := do
  let d ← operand dif [i]
  let da ← emit (.mul d alpha)
  let m ← operand mb [i]
  let moment ← emit (.mul m momentum)
  let bias ← operand b [i]
  let newBias ← operand nb [i]
  push (.asg newBias (.sum [bias, moment, da]))
  each (List.range inputs) fun j => do
    let input ← operandAt inp j
    let m ← operand mw [i, j]
    let delta ← emit (.mul da input)
    let moment ← emit (.mul m momentum)
    let weight ← operand w [i, j]
    let newWeight ← operand nw [i, j]
    push (.asg newWeight (.sum [weight, moment, delta]))

/-- `layer/dense.go:126-275` -/
def denseBP (fuel l : Nat) (alpha momentum : Ptr) : Run T Unit := do
  let x ← layer l
  let inp ← deref x.input
  let inputs := (← mat inp).getSize
  let out ← deref x.output
  let outputs := (← mat out).getSize
  let w ← deref x.weights
  let wShape := (← mat w).shape
  let nw ← zeros wShape
  modify l fun x => { x with nWeights := some nw }
  let mw ← zeros wShape
  modify l fun x => { x with mWeights := some mw }
  let b ← deref x.bias
  let bShape := (← mat b).shape
  let nb ← zeros bShape
  modify l fun x => { x with nBias := some nb }
  let mb ← zeros bShape
  modify l fun x => { x with mBias := some mb }
  let dif ← scaledDif x
  buildGraph dif
  match x.pre with
  | none => pure ()
  | some p =>
    let der ← buildDer fuel p
    let pdif ← deref (← getDif fuel p)
    buildGraph pdif
    each (List.range inputs) fun i => densePre dif w der pdif outputs i
  each (List.range outputs) fun i => denseUpdate dif w b nw mw nb mb inp alpha momentum inputs i

/-- `layer/flatten.go:71-79` -/
def flattenBP (fuel l : Nat) : Run T Unit := do
  let x ← layer l
  let d ← deref x.dif
  buildGraph d
  let p ← deref x.pre
  let pd ← deref (← getDif fuel p)
  transfer d pd

/-- `layer/softmax.go:82-90` -/
def softMaxBP (l : Nat) : Run T Unit := do
  let x ← layer l
  let d ← scaledDif x
  buildGraph d

/-- `layer/norm.go:94-110` -/
def normBP (min max : T) (fuel l : Nat) : Run T Unit := do
  let x ← layer l
  let d ← scaledDif x
  let k ← scalar (GoNum.sub max min)
  let d1 ← lazy (.opScalar .mul d k)
  let d2 ← lazy (.opScalar .div d1 x.maxScalar)
  let p ← deref x.pre
  let pd ← deref (← getDif fuel p)
  transfer d2 pd

/-- `layer/sub_tensor.go:77-94` -/
def subBP (dim from_ to fuel l : Nat) : Run T Unit := do
  let x ← layer l
  let d ← deref x.dif
  buildGraph d
  let d1 ← scaledDif x
  let p ← deref x.pre
  let pd ← deref (← getDif fuel p)
  let ps ← lazy (.sub dim from_ to false pd)
  let d2 ← lazy (.op2 .add d1 ps)
  transfer d2 ps

/-- `layer/concat.go:100-134` -/
def concatBP (l : Nat) : Run T Unit := do
  let x ← layer l
  let d ← scaledDif x
  buildGraph d

/-- `layer/conv2d.go:161-218`: error terms of the previous layer.  The bound of the innermost loop is
`KW`, as in the code. -/
def convPre (kw sx sy : Nat) (inShape outShape : List Nat) (dif w der pdif : Nat) : Run T Unit :=
  each (List.range (outShape.getD 0 0)) fun f =>
    each (List.range (outShape.getD 1 0)) fun px =>
      each (List.range (outShape.getD 2 0)) fun py => do
        let d ← operand dif [f, px, py]
        each (List.range (inShape.getD 0 0)) fun i =>
          each (List.range kw) fun kx =>
            each (List.range kw) fun ky => do
              let ix := px * sx + kx
              let iy := py * sy + ky
              if ix ≥ inShape.getD 1 0 ∨ iy ≥ inShape.getD 2 0 then pure ()
              else
                let wt ← operand w [f, i, kx, ky]
                let dw ← emit (.mul d wt)
                let pder ← operand der [i, ix, iy]
                push (.asg dw (.mul dw pder))
                let pd ← operand pdif [i, ix, iy]
                push (.asg pd (.add pd dw))

/-- `layer/conv2d.go:221-241` and `layer/deconv2d.go:256-276`: bias update and momentum tensors;
returns `dif` (scaled by alpha) and `weightsMom` -/
def convBias (l : Nat) (x : Layer T) (b mb mw : Nat) (alpha momentum : Ptr) : Run T (Nat × Nat) := do
  let d0 ← deref x.dif
  let dif ← lazy (.opScalar .mul d0 alpha)
  let biasMom ← lazy (.opScalar .mul mb momentum)
  let delta ← lazy (.op2 .add dif biasMom)
  let nb ← lazy (.op2 .add b delta)
  modify l fun x => { x with nBias := some nb }
  buildGraph nb
  transfer delta mb
  let wm ← lazy (.opScalar .mul mw momentum)
  buildGraph wm
  return (dif, wm)

/-- `layer/conv2d.go:243-302`: new weights.  The first index uses `SY` and the bounds test is `||`, as
in the code. -/
def convUpdate (kw kh sy : Nat) (inShape outShape : List Nat) (inp dif w wm nw : Nat) : Run T Unit :=
  each (List.range (outShape.getD 0 0)) fun f =>
    each (List.range (inShape.getD 0 0)) fun i =>
      each (List.range kw) fun kx =>
        each (List.range kh) fun ky => do
          let wt ← operand w [f, i, kx, ky]
          let m ← operand wm [f, i, kx, ky]
          let n ← operand nw [f, i, kx, ky]
          let rows ← collect (List.range (outShape.getD 1 0)) fun ox =>
            collect (List.range (outShape.getD 2 0)) fun oy => do
              let ix := ox * sy + kx
              let iy := oy * sy + ky
              let input ← if ix < inShape.getD 1 0 ∨ iy < inShape.getD 2 0
                then operand inp [i, ix, iy] else scalar zero
              let d ← operand dif [f, ox, oy]
              emit (.mul d input)
          let dw ← emit (.sum rows.flatten)
          push (.asg n (.sum [wt, dw, m]))
          push (.asg m (.set dw))

/-- `layer/conv2d.go:139-302` -/
def convBP (kw kh sx sy : Nat) (fuel l : Nat) (alpha momentum : Ptr) : Run T Unit := do
  let x ← layer l
  let inp ← deref x.input
  let inShape := (← mat inp).shape
  let out ← deref x.output
  let outShape := (← mat out).shape
  let w ← deref x.weights
  let wShape := (← mat w).shape
  let nw ← zeros wShape
  modify l fun x => { x with nWeights := some nw }
  let mw ← zeros wShape
  modify l fun x => { x with mWeights := some mw }
  let b ← deref x.bias
  let mb ← zeros (← mat b).shape
  modify l fun x => { x with mBias := some mb }
  let dif ← scaledDif x
  buildGraph dif
  match x.pre with
  | none => pure ()
  | some p =>
    let der ← buildDer fuel p
    let pdif ← deref (← getDif fuel p)
    convPre kw sx sy inShape outShape dif w der pdif
  let (da, wm) ← convBias l x b mb mw alpha momentum
  convUpdate kw kh sy inShape outShape inp da w wm nw

/-- `layer/deconv2d.go:184-254` -/
def deconvPre (kw kh sx sy : Nat) (inShape outShape : List Nat) (dif w der pdif : Nat) : Run T Unit :=
  each (List.range (inShape.getD 0 0)) fun inF =>
    each (List.range (inShape.getD 1 0)) fun px =>
      each (List.range (inShape.getD 2 0)) fun py => do
        let pder ← operand der [inF, px, py]
        let pd ← operand pdif [inF, px, py]
        let rows ← collect (List.range (outShape.getD 0 0)) fun outF =>
          collect (List.range kw) fun kx =>
            collect (List.range kh) fun ky => do
              let d ← operand dif [outF, px * sx + kx, py * sy + ky]
              let wt ← operand w [outF, inF, kx, ky]
              emit (.mul d wt)
        let nd ← emit (.sum rows.flatten.flatten)
        push (.asg nd (.mul nd pder))
        push (.asg pd (.add pd nd))

/-- `layer/deconv2d.go:277-338` -/
def deconvUpdate (kw kh sx sy : Nat) (inShape outShape : List Nat) (inp dif w wm nw : Nat) :
    Run T Unit :=
  each (List.range (outShape.getD 0 0)) fun outF =>
    each (List.range kw) fun kx =>
      each (List.range kh) fun ky =>
        each (List.range (inShape.getD 0 0)) fun inF => do
          let wt ← operand w [outF, inF, kx, ky]
          let m ← operand wm [outF, inF, kx, ky]
          let n ← operand nw [outF, inF, kx, ky]
          let rows ← collect (List.range (inShape.getD 1 0)) fun px =>
            collect (List.range (inShape.getD 2 0)) fun py => do
              let i ← operand inp [inF, px, py]
              let d ← operand dif [outF, px * sx + kx, py * sy + ky]
              emit (.mul d i)
          let dw ← emit (.sum rows.flatten)
          push (.asg n (.sum [wt, dw, m]))
          push (.asg m (.set dw))

/-- `layer/deconv2d.go:162-338` -/
def deconvBP (kw kh sx sy : Nat) (fuel l : Nat) (alpha momentum : Ptr) : Run T Unit := do
  let x ← layer l
  let inp ← deref x.input
  let inShape := (← mat inp).shape
  let out ← deref x.output
  let outShape := (← mat out).shape
  let w ← deref x.weights
  let wShape := (← mat w).shape
  let nw ← zeros wShape
  modify l fun x => { x with nWeights := some nw }
  let mw ← zeros wShape
  modify l fun x => { x with mWeights := some mw }
  let b ← deref x.bias
  let mb ← zeros (← mat b).shape
  modify l fun x => { x with mBias := some mb }
  let dif ← scaledDif x
  buildGraph dif
  match x.pre with
  | none => pure ()
  | some p =>
    let der ← buildDer fuel p
    let pdif ← deref (← getDif fuel p)
    deconvPre kw kh sx sy inShape outShape dif w der pdif
  let (da, wm) ← convBias l x b mb mw alpha momentum
  deconvUpdate kw kh sx sy inShape outShape inp da w wm nw

/-- `layer/max_pool_2d.go:120-184` -/
def maxPoolBP (sx sy : Nat) (fuel l : Nat) : Run T Unit := do
  let x ← layer l
  let dif ← scaledDif x
  buildGraph dif
  let inp ← deref x.input
  let inShape := (← mat inp).shape
  let out ← deref x.output
  let outShape := (← mat out).shape
  each (List.range (outShape.getD 0 0)) fun f =>
    each (List.range (outShape.getD 1 0)) fun px =>
      each (List.range (outShape.getD 2 0)) fun py => do
        let d0 ← operand dif [f, px, py]
        let n ← operand out [f, px, py]
        each ((List.range sx).filter fun i => px * sx + i < inShape.getD 1 0) fun i =>
          each ((List.range sy).filter fun j => py * sy + j < inShape.getD 2 0) fun j => do
            let p ← deref x.pre
            let pdt ← deref (← getDif fuel p)
            let pd ← operand pdt [f, px * sx + i, py * sy + j]
            let i' ← operand inp [f, px * sx + i, py * sy + j]
            let e ← emit (.equals i' n)
            let d ← emit (.mul d0 e)
            push (.asg pd (.add pd d))

/-- `layer/up_sampling_2d.go:110-151` -/
def upSamplingBP (sx sy : Nat) (fuel l : Nat) : Run T Unit := do
  let x ← layer l
  let dif ← scaledDif x
  buildGraph dif
  let inp ← deref x.input
  let inShape := (← mat inp).shape
  let p ← deref x.pre
  let pdt ← getDif fuel p
  each (List.range (inShape.getD 0 0)) fun f =>
    each (List.range (inShape.getD 1 0)) fun px =>
      each (List.range (inShape.getD 2 0)) fun py => do
        let pdn ← deref pdt
        let pd ← operand pdn [f, px, py]
        let rows ← collect (List.range sx) fun i =>
          collect (List.range sy) fun j => operand dif [f, px * sx + i, py * sy + j]
        push (.asg pd (.sum rows.flatten))

/-- `BuildBackpropagation` of every layer, with `CheckBP` (`layer/base.go:118-124`) and
`PostBuildBackpropagation` (`layer/base.go:126-137`): `layer/input.go:69-88`,
`layer/dense.go:118-278`, `layer/flatten.go:67-81`, `layer/softmax.go:77-92`,
`layer/norm.go:89-113`, `layer/sub_tensor.go:69-96`, `layer/concat.go:92-136`,
`layer/conv2d.go:135-304`, `layer/deconv2d.go:158-340`, `layer/max_pool_2d.go:115-187`,
`layer/up_sampling_2d.go:105-154` -/
def backProp (alpha momentum : Ptr) : Nat → Nat → Run T Unit
  | 0, _ => abort
  | fuel + 1, l => do
    let x ← layer l
    if x.bp then return ()
    else
      let v ← value x.ref
      if eq v zero then return ()
      else
        modify l fun x => { x with bp := true }
        match x.kind with
        | .input => pure ()
        | .dense => denseBP fuel l alpha momentum
        | .flatten => flattenBP fuel l
        | .softMax => softMaxBP l
        | .norm min max => normBP min max fuel l
        | .sub d f t => subBP d f t fuel l
        | .concat l1 l2 _ => do
          concatBP l
          backProp alpha momentum fuel l1
          backProp alpha momentum fuel l2
        | .conv _ kw kh sx sy => convBP kw kh sx sy fuel l alpha momentum
        | .deconv _ kw kh sx sy => deconvBP kw kh sx sy fuel l alpha momentum
        | .maxPool sx sy => maxPoolBP sx sy fuel l
        | .upSampling sx sy => upSamplingBP sx sy fuel l
        match x.pre with
        | some p => backProp alpha momentum fuel p
        | none => return ()

/-! ### Fit, resets -/

/-- `p.LoadFromTensor(t)` -/
def loadFrom (p t : Nat) : Run T Unit := do
  let a ← mat p
  let b ← mat t
  heap (a.loadFromTensor b)

/-- run `x`, ignoring a returned error (but not a panic) -/
def ignoreErr (x : Run T Unit) : Run T Unit := fun w =>
  match x w with
  | .ok _ w => .ok () w
  | .err _ w => .ok () w
  | .panic => .panic

/-- `layer/base.go:194-206`, the layer's own part of `Fit` -/
def fitOwn (l : Nat) : Run T Unit := do
  let x ← layer l
  if !x.trainable then return ()
  else
    match x.weights, x.nWeights with
    | some w, some nw => loadFrom w nw
    | _, _ => pure ()
    match x.bias, x.nBias with
    | none, none => return ()
    | some b, some nb => loadFrom b nb
    | _, _ => abort

/-- `layer/base.go:189-207` `Fit` -/
def fit : Nat → Nat → Run T Unit
  | 0, _ => abort
  | fuel + 1, l => do
    let x ← layer l
    match x.pre with
    | some p => ignoreErr (fit fuel p)
    | none => pure ()
    fitOwn l

/-- `layer/base.go:209-211` `SetTrainable` -/
def setTrainable (l : Nat) (t : Bool) : Run T Unit := modify l fun x => { x with trainable := t }

/-- `layer/base.go:213-221` `ResetFit` -/
def resetFit : Nat → Nat → Run T Unit
  | 0, _ => abort
  | fuel + 1, l => do
    let x ← layer l
    match x.pre with
    | some p => resetFit fuel p
    | none => pure ()
    let z ← scalar zero
    let d ← deref x.dif
    fill d z

/-- `layer/base.go:223-231` `Reset` -/
def reset : Nat → Nat → Run T Unit
  | 0, _ => abort
  | fuel + 1, l => do
    let x ← layer l
    match x.pre with
    | some p => reset fuel p
    | none => return ()

/-! ### Saving and loading.  The state is the world and the stream. -/

/-- `layer/base.go:284-289` `ResetSave` (`Concat` inherits it) -/
def resetSave : Nat → Nat → Run T Unit
  | 0, _ => abort
  | fuel + 1, l => do
    modify l fun x => { x with saved := false }
    let x ← layer l
    match x.pre with
    | some p => resetSave fuel p
    | none => return ()

/-- `layer/base.go:277-282` `ResetLoad` -/
def resetLoad : Nat → Nat → Run T Unit
  | 0, _ => abort
  | fuel + 1, l => do
    modify l fun x => { x with loaded := false }
    let x ← layer l
    match x.pre with
    | some p => resetLoad fuel p
    | none => return ()

variable [Bin T]

/-- `t.Save(w)` for a tensor that may be nil -/
def saveTensor (t : Option Nat) (s : World T × Sink) : Out (World T × Sink) Unit :=
  match t with
  | none => .ok () s
  | some n =>
    match (s.1.store.nodes n).mat.save s.1.store.heap s.2 with
    | .ok _ w => .ok () (s.1, w)
    | .err e w => .err e (s.1, w)
    | .panic => .panic

/-- `t.Load(r)` for a tensor that may be nil -/
def loadTensor (t : Option Nat) (s : World T × List Byte) : Out (World T × List Byte) Unit :=
  match t with
  | none => .ok () s
  | some n =>
    let put (x : Heap T × List Byte) : World T × List Byte :=
      ({ s.1 with store := { s.1.store with heap := x.1 } }, x.2)
    match (s.1.store.nodes n).mat.load s.1.store.heap s.2 with
    | .ok _ x => .ok () (put x)
    | .err e x => .err e (put x)
    | .panic => .panic

/-- assign to fields of a layer object -/
def modW {σ : Type} (l : Nat) (f : Layer T → Layer T) (s : World T × σ) : World T × σ :=
  ({ s.1 with layers := fun k => if k = l then f (s.1.layers k) else s.1.layers k }, s.2)

/-- `layer/base.go:319-345` and `layer/concat.go:184-204` `Save` -/
def save : Nat → Nat → World T × Sink → Out (World T × Sink) Unit
  | 0, _, _ => .panic
  | fuel + 1, l, s =>
    let x := s.1.layers l
    if x.saved then .ok () s
    else
      let s := modW l (fun x => { x with saved := true }) s
      match x.kind with
      | .concat l1 l2 _ => (save fuel l1 s).bind fun _ s => save fuel l2 s
      | _ =>
        (match x.pre with
          | some p => save fuel p s
          | none => .ok () s).bind fun _ s =>
            (saveTensor x.weights s).bind fun _ s => saveTensor x.bias s

/-- `layer/base.go:291-317` and `layer/concat.go:162-182` `Load` -/
def load : Nat → Nat → World T × List Byte → Out (World T × List Byte) Unit
  | 0, _, _ => .panic
  | fuel + 1, l, s =>
    let x := s.1.layers l
    if x.loaded then .ok () s
    else
      let s := modW l (fun x => { x with loaded := true }) s
      match x.kind with
      | .concat l1 l2 _ => (load fuel l1 s).bind fun _ s => load fuel l2 s
      | _ =>
        (match x.pre with
          | some p => load fuel p s
          | none => .ok () s).bind fun _ s =>
            (loadTensor x.weights s).bind fun _ s => loadTensor x.bias s

end LayerM
end Godeep
