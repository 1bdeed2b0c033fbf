import Verif.Model.Mat
/-
  Text written by `tools.ShapeStr` and `TensorMat.String`.  Text is a list of characters; a
  `strings.Builder` is the text written so far.
-/
namespace Godeep.Text
open GoNum

/-- decimal notation of a `uint`, as written by `fmt.Sprint` and the verb `%d` (Go standard library) -/
def dec (n : Nat) : List Char :=
  if n < 10 then [Char.ofNat (48 + n)] else dec (n / 10) ++ [Char.ofNat (48 + n % 10)]
termination_by n
decreasing_by omega

/-- the loops of `tools/tools.go:121-126` and `tensor/tensor_mat.go:135-140`: element, and a comma unless
it is the last one; `size` is the number of elements, `pr` writes one of them, `i` counts -/
def writeAll {α : Type} (pr : α → List Char) (size : Nat) : Nat → List α → List Char
  | _, [] => []
  | i, d :: l => pr d ++ (if i < size - 1 then [',', ' '] else []) ++ writeAll pr size (i + 1) l

/-- `tools/tools.go:118-129` `ShapeStr` -/
def shapeStr (s : List Nat) : List Char :=
  ['['] ++ writeAll dec s.length 0 s ++ [']']

/-- `tensor/tensor_mat.go:123-143` `String`; `pr` is `fmt.Sprint` for the element type (not modelled), the
values are read from the heap -/
def matString {T : Type} (pr : T → List Char) (m : Mat) (h : Heap T) : List Char :=
  "<Mat (dims: ".toList ++ dec m.shape.length ++ ", len: ".toList ++ dec m.ops.length ++ ", shape: ".toList ++ shapeStr m.shape ++
    ") => [".toList ++ writeAll pr m.ops.length 0 (m.ops.map h.val) ++ "]>".toList

end Godeep.Text
