import Verif.Model.Go
/-
  `tools/tools.go`: index arithmetic on shapes.
  Go `uint` is modelled by `Nat` here; `Model/Tools64.lean` has the wrapping version.
-/
namespace Godeep

/-- loop of `tools/tools.go:21-24`; the argument is the shape read from its last entry,
`mul` the running product, `acc` the entries of `mulIndex` written so far. -/
def indexMulLoop : List Nat → Nat → List Nat → List Nat
  | [], _, acc => acc
  | [_], _, acc => acc
  | s :: s' :: rest, mul, acc => indexMulLoop (s' :: rest) (mul * s) (mul * s :: acc)

/-- `tools/tools.go:12-27` `GetIndexMul` -/
def indexMul (shape : List Nat) : List Nat :=
  if shape.length = 0 then [] else indexMulLoop shape.reverse 1 [1]

/-- `tools/tools.go:29-36` `GetDataSize` (loop from the last entry to the first) -/
def dataSize (shape : List Nat) : Nat := shape.reverse.foldl (fun mul s => mul * s) 1

/-- range check of `tools/tools.go:54-58`: position of the first index component that is
not below its extent -/
def checkRange : List Nat → List Nat → Nat → Option Err
  | s :: ss, i :: is, pos => if i ≥ s then some (.indexRange i pos s) else checkRange ss is (pos + 1)
  | _, _, _ => none

/-- accumulation of `tools/tools.go:60-63` -/
def dotIndex : List Nat → List Nat → Nat → Nat
  | i :: is, m :: ms, acc => dotIndex is ms (acc + i * m)
  | _, _, acc => acc

/-- `tools/tools.go:38-67` `GetIndex`.  The `panic("kkk")` of line 47 is modelled. -/
def getIndex (mul shape index : List Nat) : Res Nat :=
  if mul.length ≠ shape.length then .err (.internalDims shape.length mul.length)
  else if shape.length ≠ index.length then .panic
  else match checkRange shape index 0 with
    | some e => .err e
    | none => .ok (dotIndex index mul 0)

/-- `tools/tools.go:69-78` `ReverseIndex`; `mul[i]` out of range and division by zero panic. -/
def reverseIndex : List Nat → List Nat → Nat → Res (List Nat)
  | _, [], _ => .ok []
  | [], _ :: _, _ => .panic
  | m :: ms, _ :: ss, i =>
    if m = 0 then .panic else (reverseIndex ms ss (i % m)).map (i / m :: ·)

/-- loop of `tools/tools.go:83-85` -/
def invertLoop (index : List Nat) (size : Nat) : Nat → List Nat
  | 0 => []
  | k + 1 => invertLoop index size k ++ [index.getD (size - k) 0]

/-- `tools/tools.go:80-88` `GetInvertedIndex` (`index[size-i]` is always in range there) -/
def invertedIndex (index : List Nat) : List Nat :=
  invertLoop index (index.length - 1) index.length

/-- loop of `tools/tools.go:94-98` -/
def firstDiff : List Nat → List Nat → Nat → Int
  | s :: ss, t :: ts, pos => if t ≠ s then pos else firstDiff ss ts (pos + 1)
  | _, _, _ => -1

/-- `tools/tools.go:90-100` `Equals` -/
def shapeEquals (s1 s2 : List Nat) : Int :=
  if s1.length ≠ s2.length then -2 else firstDiff s1 s2 0

/-- `tools/tools.go:102-116` `GetEqShapeErr` (message prefix dropped) -/
def eqShapeErr (s1 s2 : List Nat) : Option Err :=
  let e := shapeEquals s1 s2
  if e = -2 then some (.rank s1.length s2.length)
  else if e ≥ 0 then some (.extent (s1.getD e.toNat 0) (s2.getD e.toNat 0) e.toNat)
  else none

end Godeep
