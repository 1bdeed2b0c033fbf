import Verif.Spec.Branched
/-
  The text of a model.
-/
namespace Godeep.Spec
open Godeep GoNum

variable {T : Type} [GoNum T]

/-- a number in decimal notation -/
def num (n : Nat) : List Char := (toString n).toList

/-- a shape in brackets, with commas: `[2, 3]` -/
def shapeText (s : List Nat) : List Char :=
  "[".toList ++ List.intercalate ", ".toList (s.map num) ++ "]".toList

/-- The name of a kind of layer in the text of a model.  (A layer made by `NewDeconv2D` has the name of a convolution,
one made by `NewUpSampling2D` the name of a max pooling layer, and one made by `NewSubTensor` has no name.) -/
def LSpec.name : LSpec T → List Char
  | .dense .. => "Dense".toList
  | .flatten => "Flatten".toList
  | .softMax => "SoftMax".toList
  | .norm => "Norm".toList
  | .eNorm => "Norm".toList
  | .sub .. => []
  | .conv .. => "Conv2D".toList
  | .deconv .. => "Conv2D".toList
  | .maxPool .. => "MaxPool".toList
  | .upSampling .. => "MaxPool".toList

/-- the line of an input layer with index `i` -/
def inputLine (i : Nat) (out : List Nat) : List Char :=
  "<Layer[".toList ++ num i ++ "] => : O".toList ++ shapeText out ++ ">\n".toList

/-- the line of a layer with index `i` that reads the layer with index `p` -/
def layerLine (i p : Nat) (name : List Char) (out : List Nat) : List Char :=
  "<Layer[".toList ++ num i ++ "] (".toList ++ num p ++ ") => ".toList ++ name ++ ": O".toList ++ shapeText out ++ ">\n".toList

/-- the line of a `Concat` layer with index `i` that reads the layers with indices `p` and `q` -/
def concatLine (i p q : Nat) (out : List Nat) : List Char :=
  "<Layer[".toList ++ num i ++ "] (".toList ++ num p ++ ", ".toList ++ num q ++ ") => Concat: I".toList ++ shapeText out ++ " O".toList ++
    shapeText out ++ ">\n".toList

/-- the lines of a sequential model: layer number 0 is the input layer, layer number `k` has index `idx k` -/
def seqLines (idx : Nat → Nat) (shape : List Nat) (ls : List (LSpec T)) : List (List Char) :=
  inputLine (idx 0) shape ::
    (List.range ls.length).map fun k =>
      layerLine (idx (k + 1)) (idx k) (ls.getD k .flatten).name (outShapes (ls.take (k + 1)) shape)

/-- a model with these lines -/
def modelText (lines : List (List Char)) : List Char :=
  "<Model => [\n".toList ++ lines.flatten ++ "]>\n".toList

/-- the lines of layer number `k + 1`, if `ts` are those of the other layers and `s` their shapes -/
def BNode.lines (idx : Nat → Nat) (s : Nat → List Nat) (ts : Nat → List (List Char)) (k : Nat) : BNode T → List (List Char)
  | .layer l p => ts p ++ [layerLine (idx (k + 1)) (idx p) l.name (s (k + 1))]
  | .concat i j _ => ts i ++ ts j ++ [concatLine (idx (k + 1)) (idx i) (idx j) (s (k + 1))]

/-- the lines of every layer of a graph: first the lines of the layers it reads, then its own -/
def graphLines (idx : Nat → Nat) (shape : List Nat) (ns : List (BNode T)) : List (List (List Char)) :=
  ns.foldl (fun ts n => ts ++ [n.lines idx (fun i => (graphShapes ns shape).getD i []) (fun i => ts.getD i []) (ts.length - 1)])
    [[inputLine (idx 0) shape]]

end Godeep.Spec
