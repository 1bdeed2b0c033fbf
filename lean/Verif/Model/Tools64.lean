import Verif.Model.Go
/-
  `tools/tools.go` with 64-bit `uint` arithmetic (wrap-around), same control flow as
  `Model/Tools.lean`.
-/
namespace Godeep.W64
open Godeep

/-- loop of `tools/tools.go:21-24` -/
def indexMulLoop : List UInt64 → UInt64 → List UInt64 → List UInt64
  | [], _, acc => acc
  | [_], _, acc => acc
  | s :: s' :: rest, mul, acc => indexMulLoop (s' :: rest) (mul * s) (mul * s :: acc)

/-- `tools/tools.go:12-27` `GetIndexMul` -/
def indexMul (shape : List UInt64) : List UInt64 :=
  if shape.length = 0 then [] else indexMulLoop shape.reverse 1 [1]

/-- `tools/tools.go:29-36` `GetDataSize` -/
def dataSize (shape : List UInt64) : UInt64 := shape.reverse.foldl (fun mul s => mul * s) 1

/-- `tools/tools.go:54-58` -/
def checkRange : List UInt64 → List UInt64 → Nat → Option Err
  | s :: ss, i :: is, pos =>
    if i ≥ s then some (.indexRange i.toNat pos s.toNat) else checkRange ss is (pos + 1)
  | _, _, _ => none

/-- `tools/tools.go:60-63` -/
def dotIndex : List UInt64 → List UInt64 → UInt64 → UInt64
  | i :: is, m :: ms, acc => dotIndex is ms (acc + i * m)
  | _, _, acc => acc

/-- `tools/tools.go:38-67` `GetIndex` -/
def getIndex (mul shape index : List UInt64) : Res UInt64 :=
  if mul.length ≠ shape.length then .err (.internalDims shape.length mul.length)
  else if shape.length ≠ index.length then .panic
  else match checkRange shape index 0 with
    | some e => .err e
    | none => .ok (dotIndex index mul 0)

/-- `tools/tools.go:69-78` `ReverseIndex` -/
def reverseIndex : List UInt64 → List UInt64 → UInt64 → Res (List UInt64)
  | _, [], _ => .ok []
  | [], _ :: _, _ => .panic
  | m :: ms, _ :: ss, i =>
    if m = 0 then .panic else (reverseIndex ms ss (i % m)).map (i / m :: ·)

end Godeep.W64
