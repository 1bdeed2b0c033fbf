import Verif.Model.Layer
/-
  Package `model`, for models whose layers are layers.  Models used as layers of other models
  (`model/model_layer.go` implements the `Layer` interface) are in `Model/Nested.lean`.
-/
namespace Godeep
open GoNum

namespace NetM
open Run LayerM
variable {T : Type} [GoNum T]

/-- all fields nil -/
def blankNet : Net T :=
  ⟨none, none, none, none, none, 0, 0, 0, none, none, none, none, none⟩

/-- `&Model[T]{...}` -/
def newNet (x : Net T) : Run T Nat := fun w =>
  .ok w.netNext { w with
    nets := fun k => if k = w.netNext then x else w.nets k
    netNext := w.netNext + 1 }

/-- `model/model.go:41-43` `NewModel` -/
def newModel : Run T Nat := newNet blankNet

/-- `model/model.go:45-50` `FromInOut` -/
def fromInOut (i o : Nat) : Run T Nat := newNet { blankNet with first := some i, last := some o }

/-- `model/model.go:141-150` `Push` -/
def pushLayer (m l : Nat) : Run T Unit := do
  let x ← net m
  match x.first with
  | none => modifyNet m fun x => { x with first := some l, last := some l }
  | some _ =>
    let last ← deref x.last
    connect l last
    modifyNet m fun x => { x with last := some l }

/-- run a graph (`graph/graph.go:47-54`); a nil graph panics -/
def run (g : Option (List (Op T))) : Run T Unit := do
  let ops ← deref g
  heap (exec ops)

/-- `t.Copy()` (`tensor/tensor_mat.go:145-157`) -/
def copyTensor (n : Nat) : Run T Nat := do
  let m ← mat n
  leaf m.copy

/-- `model/model.go:152-186` `Compile` -/
def compile (m : Nat) : Run T Unit := do
  let x ← net m
  let last ← deref x.last
  addRef last one
  let n ← fuel
  let _ ← build n last
  newCtx
  feedForward n last
  let ff ← ops
  newCtx
  reset n last
  let rs ← ops
  modifyNet m fun x => { x with ff := some ff, reset := some rs }
  let first ← deref x.first
  let i ← getInputs n first
  modifyNet m fun x => { x with input := i }
  let o ← getOutputs n last
  modifyNet m fun x => { x with output := o }
  let on ← deref o
  let t ← copyTensor on
  modifyNet m fun x => { x with target := some t }

/-- `t.SetBuild(b)` (`tensor/tensor_mat.go:159-162`).  It returns the embedded `TensorMat`, so
`BuildGraph` of the result is the one of `TensorMat` whatever the struct of `t`. -/
def setBuild (n : Nat) (b : Bool) : Run T Unit := fun w =>
  .ok () { w with store := w.store.setNode n { w.store.nodes n with built := b } }

/-- `TensorMat.BuildGraph` (`tensor/tensor_mat.go:24-34`) called on the embedded `TensorMat` -/
def buildMat (n : Nat) : Run T Unit := fun w =>
  let x := w.store.nodes n
  if x.built then .ok () w
  else .ok () { w with store :=
    { w.store.setNode n { x with built := true } with ctx := w.store.ctx ++ x.mat.ops.map Op.nop } }

/-- `model/model.go:196-211` -/
def calDif (dif target output : Nat) : Run T Unit := do
  let om ← mat output
  let tm ← mat target
  let dm ← mat dif
  each (List.range tm.ops.length) fun i => do
    let d ← lift (Res.index dm.ops i)
    let t ← lift (Res.index tm.ops i)
    let o ← lift (Res.index om.ops i)
    push (.asg d (.sub t o))

/-- a tensor that refers to the embedded `TensorMat` of `n`: only needed when `n` is not a plain
tensor, so a new node with the same elements -/
def matNode (n : Nat) : Run T Nat := fun w =>
  newNode ⟨.leaf, (w.store.nodes n).mat, (w.store.nodes n).built⟩ w

/-- `model/model.go:188-245` `CompileBackPropagation`.  `dif` (the result of `SetBuild`) is the
embedded `TensorMat` of the last layer's error tensor.  The errors of lines 211 and 214 are dropped,
as in the code. -/
def compileBP (m : Nat) : Run T Unit := do
  newCtx
  let x ← net m
  let last ← deref x.last
  let n ← fuel
  let dif ← deref (← getDif n last)
  setBuild dif false
  buildMat dif
  let out ← deref x.output
  let om ← mat out
  let target ← zeros om.shape
  modifyNet m fun x => { x with target := some target }
  calDif dif target out
  let dm ← matNode dif
  let a ← lazy (.abs dm)
  let s ← lazy (.math .sum a)
  ignoreErr (buildGraph s)
  let loss ← operandAt s 0
  modifyNet m fun x => { x with loss := loss }
  let cd ← ops
  modifyNet m fun x => { x with calDif := some cd }
  newCtx
  let alpha ← scalar zero
  let momentum ← scalar zero
  modifyNet m fun x => { x with alpha := alpha, momentum := momentum }
  setBuild dif false
  backProp alpha momentum n last
  let bp ← ops
  newCtx
  resetFit n last
  let rf ← ops
  modifyNet m fun x => { x with bp := some bp, resetFit := some rf }

/-- `model/model.go:247-256` `ResetIS` -/
def resetIS (m : Nat) : Run T Unit := do
  let x ← net m
  match x.ff with
  | none => compile m
  | some _ => pure ()
  let x ← net m
  run x.reset

/-- `model/model.go:258-271` `Predict`; returns the tensor made by `Copy` -/
def predict (m t : Nat) : Run T Nat := do
  let x ← net m
  match x.ff with
  | none => compile m
  | some _ => pure ()
  let x ← net m
  let i ← deref x.input
  loadFrom i t
  run x.ff
  let o ← deref x.output
  copyTensor o

/-- `model/model.go:273-290` `ExecFit` -/
def execFit (m x y : Nat) : Run T Unit := do
  let p ← net m
  run p.resetFit
  let i ← deref p.input
  loadFrom i x
  let t ← deref p.target
  loadFrom t y
  run p.ff
  run p.calDif
  run p.bp
  let last ← deref p.last
  let n ← fuel
  fit n last

/-- `model/model.go:292-309` `TrainOne` -/
def trainOne (m x y : Nat) (alpha momentum : T) : Run T T := do
  let p ← net m
  match p.bp with
  | none => compileBP m
  | some _ => pure ()
  let p ← net m
  setValue p.alpha alpha
  setValue p.momentum momentum
  execFit m x y
  let p ← net m
  value p.loss

/-- the loop of `model/model.go:345-389`: `picks` are the indices drawn by `rand.Intn`; the progress
output is not modelled -/
def trainLoop (m : Nat) (inputs targets : List Nat) (picks : List Nat) : Run T Unit :=
  each picks fun k => do
    let x ← lift (Res.index inputs k)
    let y ← lift (Res.index targets k)
    execFit m x y

/-- `model/model.go:311-400` `Train`.  `draw k` is the result of the `k`-th `rand.Intn`, below the
number of inputs. -/
def train (m : Nat) (inputs targets : List Nat) (epochs batch : Nat) (alpha momentum : T)
    (draw : Nat → Nat) : Run T Unit := do
  if inputs.length ≠ targets.length then fail (.size inputs.length targets.length)
  else
    let p ← net m
    match p.bp with
    | none => compileBP m
    | some _ => pure ()
    let p ← net m
    setValue p.alpha alpha
    setValue p.momentum momentum
    let batch := if batch = 0 then inputs.length else batch
    if inputs.length = 0 ∧ epochs * batch ≠ 0 then abort
    else
      trainLoop m inputs targets ((List.range (epochs * batch)).map fun k => draw k % inputs.length)
      let _ ← value p.loss
      return ()

/-- `model/model_layer.go:40-46` `SetTrainable`: stops before the first layer, and at a layer
without previous layer -/
def setTrainable (m : Nat) (t : Bool) : Run T Unit := do
  let x ← net m
  let n ← fuel
  let rec go : Nat → Option Nat → Run T Unit
    | 0, _ => abort
    | _ + 1, none => return ()
    | k + 1, some cur =>
      if some cur = x.first then return ()
      else do
        LayerM.setTrainable cur t
        let y ← layer cur
        go k y.pre
  go n x.last

/-- `model/model_layer.go:108-110` `ResetSave` -/
def resetSave (m : Nat) : Run T Unit := do
  let x ← net m
  let last ← deref x.last
  let n ← fuel
  LayerM.resetSave n last

/-- `model/model_layer.go:104-106` `ResetLoad` -/
def resetLoad (m : Nat) : Run T Unit := do
  let x ← net m
  let last ← deref x.last
  let n ← fuel
  LayerM.resetLoad n last

/-- `model/model_layer.go:100-102` `Save` -/
def save [Bin T] (m : Nat) (s : World T × Sink) : Out (World T × Sink) Unit :=
  match (s.1.nets m).last with
  | none => .panic
  | some l => LayerM.save (s.1.layerNext + 1) l s

/-- `model/model_layer.go:96-98` `Load` -/
def load [Bin T] (m : Nat) (s : World T × List Byte) : Out (World T × List Byte) Unit :=
  match (s.1.nets m).last with
  | none => .panic
  | some l => LayerM.load (s.1.layerNext + 1) l s

/-- `model/model.go:52-139` `FromModels`.  The errors of `Compile` and `CompileBackPropagation` are
dropped there too; a nil `GraphCalDif` panics in `NewFromGraph` before it is tested. -/
def fromModels (models : List Nat) : Run T Nat := do
  match models with
  | [] => fail (.other "Can not create a model from 0 models")
  | m0 :: _ =>
    each (List.range' 1 (models.length - 1)) fun i => do
      let a ← lift (Res.index models (i - 1))
      let b ← lift (Res.index models i)
      let xa ← net a
      let xb ← net b
      let fb ← deref xb.first
      let y ← layer fb
      if y.pre = xa.last then pure ()
      else
        modify fb fun y => { y with pre := xa.last }
    each models fun i => do
      let x ← net i
      match x.ff with
      | none => ignoreErr (compile i)
      | some _ => pure ()
    each models.reverse fun i => do
      let x ← net i
      match x.bp with
      | none => ignoreErr (compileBP i)
      | some _ => pure ()
    let mz := models.getLast?.getD m0
    let x0 ← net m0
    let xz ← net mz
    let need (f : Net T → Option (List (Op T))) (i : Nat) : Run T (List (Op T)) := do
      let x ← net i
      match f x with
      | some g => return g
      | none => fail (.other "not compiled")
    let ff ← collect models (need Net.ff)
    let rs ← collect models (need Net.reset)
    let rf ← collect models (need Net.resetFit)
    let cd ← deref xz.calDif
    let bp ← collect models.reverse (need Net.bp)
    newNet { x0 with
      last := xz.last, output := xz.output, target := xz.target
      alpha := xz.alpha, momentum := xz.momentum, loss := xz.loss
      ff := some ff.flatten, reset := some rs.flatten, resetFit := some rf.flatten
      calDif := some cd, bp := some bp.flatten }

end NetM
end Godeep
