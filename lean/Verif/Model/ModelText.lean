import Verif.Model.Net
import Verif.Model.Text
/-
  Text written by `Model.String`.
-/
namespace Godeep
open GoNum Text

variable {T : Type} [GoNum T]

namespace LayerM
open Run

/-- the field `Type` (`layer/base.go:20`), assigned only by the constructors: `layer/dense.go:20` and 33,
`layer/flatten.go:16`, `layer/softmax.go:18`, `layer/norm.go:20` and 29, `layer/concat.go:28`,
`layer/conv2d.go:29` and 46, `layer/deconv2d.go:29` and 46, `layer/max_pool_2d.go:22` and 31,
`layer/up_sampling_2d.go:22` and 31; the constructors of `layer/input.go` and `layer/sub_tensor.go` do not assign it -/
def typeName : LKind T → List Char
  | .input => []
  | .dense => "Dense".toList
  | .flatten => "Flatten".toList
  | .softMax => "SoftMax".toList
  | .norm .. => "Norm".toList
  | .sub .. => []
  | .concat .. => "Concat".toList
  | .conv .. => "Conv2D".toList
  | .deconv .. => "Conv2D".toList
  | .maxPool .. => "MaxPool".toList
  | .upSampling .. => "MaxPool".toList

/-- `tools.ShapeStr(t.GetShape())`; panics if `t` is nil -/
def shapeText (t : Option Nat) : Run T (List Char) := do
  let o ← deref t
  let m ← mat o
  return shapeStr m.shape

/-- `PushToString` of every layer: `layer/base.go:241-267` and `layer/concat.go:145-160`.  The result is what is
written to the string builder.  No code sets `printed` to true, so the test of `layer/base.go:242` never holds and
`ResetPrinted` (`layer/base.go:233-239`, `layer/concat.go:138-143`) changes nothing. `GetIndex` is
`layer/base.go:139-141`. -/
def pushToString : Nat → Nat → Run T (List Char)
  | 0, _ => abort
  | fuel + 1, l => do
    let x ← layer l
    match x.kind with
    | .concat l1 l2 _ => do
      let t1 ← pushToString fuel l1
      let t2 ← pushToString fuel l2
      let x1 ← layer l1
      let x2 ← layer l2
      let i ← shapeText x.input
      let o ← shapeText x.output
      return t1 ++ t2 ++ ("<Layer[".toList ++ dec x.index ++ "] (".toList ++ dec x1.index ++ ", ".toList ++ dec x2.index ++
        ") => ".toList ++ typeName x.kind ++ ": I".toList ++ i ++ " O".toList ++ o ++ ">\n".toList)
    | _ =>
      match x.pre with
      | some p => do
        let t ← pushToString fuel p
        let y ← layer p
        let o ← shapeText x.output
        return t ++ ("<Layer[".toList ++ dec x.index ++ "] (".toList ++ dec y.index ++ ") => ".toList ++ typeName x.kind ++
          ": O".toList ++ o ++ ">\n".toList)
      | none => do
        let o ← shapeText x.output
        return "<Layer[".toList ++ dec x.index ++ "] => ".toList ++ typeName x.kind ++ ": O".toList ++ o ++ ">\n".toList

end LayerM

/-- `model/model.go:402-410` `String`, with `model/model_layer.go:84-90` -/
def NetM.string (m : Nat) : Run T (List Char) := do
  let x ← Run.net m
  let l ← Run.deref x.last
  let fuel ← Run.fuel
  let t ← LayerM.pushToString fuel l
  return "<Model => [\n".toList ++ t ++ "]>\n".toList

end Godeep
