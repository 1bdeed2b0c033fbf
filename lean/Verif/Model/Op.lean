import Verif.Model.Heap
/-
  Package `operation`: the scalar operations a graph is made of, and `graph.Exec`.
-/
namespace Godeep
open GoNum

/-- The right-hand side an operation stores into its own scalar.  One constructor per struct
of package `operation`; `Scalar` (a no-op) is `Op.nop`. -/
inductive Rhs (T : Type) where
  /-- `operation/add.go:8-17` -/
  | add (a b : Ptr)
  /-- `operation/sub.go:8-17` -/
  | sub (a b : Ptr)
  /-- `operation/mul.go:8-17` -/
  | mul (a b : Ptr)
  /-- `operation/div.go:8-17` -/
  | div (a b : Ptr)
  /-- `operation/neg.go:8-15` -/
  | neg (o : Ptr)
  /-- `operation/abs.go:8-19` -/
  | abs (o : Ptr)
  /-- `operation/set.go:8-16` -/
  | set (o : Ptr)
  /-- `operation/func.go:8-19`; the Go function value is a pure function here -/
  | func (f : T → T) (o : Ptr)
  /-- `operation/equals.go:8-20` -/
  | equals (a b : Ptr)
  /-- `operation/sum.go:8-23`; `Args` is the slice as it is when the operation is pushed -/
  | sum (args : List Ptr)
  /-- `operation/avg.go:8-23` -/
  | avg (args : List Ptr)
  /-- `operation/max_min.go:8-26` -/
  | max (args : List Ptr)
  /-- `operation/max_min.go:28-46` -/
  | min (args : List Ptr)

/-- an element of `Graph.Operations` -/
inductive Op (T : Type) where
  /-- `operation/scalar.go:8-14` `Scalar`: `Cal` does nothing -/
  | nop (p : Ptr)
  /-- every other operation: compute, then `p.Value = ...` -/
  | asg (p : Ptr) (r : Rhs T)

namespace Rhs
variable {T : Type} [GoNum T]

/-- The value computed by `Cal` (bodies cited at the constructors).  `sum`, `avg`, `max`, `min`
read `Args[0]` first, so an empty slice panics. -/
def eval (h : Heap T) : Rhs T → Res T
  | add a b => (h.load a).bind fun x => (h.load b).map fun y => GoNum.add x y
  | sub a b => (h.load a).bind fun x => (h.load b).map fun y => GoNum.sub x y
  | mul a b => (h.load a).bind fun x => (h.load b).map fun y => GoNum.mul x y
  | div a b => (h.load a).bind fun x => (h.load b).bind fun y => GoNum.divR x y
  | neg o => (h.load o).map fun x => GoNum.neg x
  | abs o => (h.load o).map fun x => if lt x zero then GoNum.neg x else x
  | set o => h.load o
  | func f o => (h.load o).map f
  | equals a b => (h.load a).bind fun x => (h.load b).map fun y => if eq x y then one else zero
  | sum args => (h.loadAll args).bind fun
    | [] => .panic
    | v :: vs => .ok (vs.foldl GoNum.add v)
  | avg args => (h.loadAll args).bind fun
    | [] => .panic
    | v :: vs => GoNum.divR (vs.foldl GoNum.add v) (ofNat args.length)
  | max args => (h.loadAll args).bind fun
    | [] => .panic
    | v :: vs => .ok (vs.foldl (fun m a => if lt m a then a else m) v)
  | min args => (h.loadAll args).bind fun
    | [] => .panic
    | v :: vs => .ok (vs.foldl (fun m a => if lt a m then a else m) v)

/-- the cells an operation reads -/
def reads : Rhs T → List Ptr
  | add a b => [a, b]
  | sub a b => [a, b]
  | mul a b => [a, b]
  | div a b => [a, b]
  | neg o => [o]
  | abs o => [o]
  | set o => [o]
  | func _ o => [o]
  | equals a b => [a, b]
  | sum args => args
  | avg args => args
  | max args => args
  | min args => args

end Rhs

namespace Op
variable {T : Type} [GoNum T]

/-- `Operation.Cal` (`operation/operation.go:3-7`) -/
def cal (h : Heap T) : Op T → Out (Heap T) Unit
  | nop _ => .ok () h
  | asg p r =>
    match r.eval h with
    | .ok v => h.store p v
    | .err e => .err e h
    | .panic => .panic

end Op

/-- `graph/graph.go:47-54` `Exec` -/
def exec {T : Type} [GoNum T] : List (Op T) → Heap T → Out (Heap T) Unit
  | [], h => .ok () h
  | o :: os, h => (o.cal h).bind fun _ h' => exec os h'

end Godeep
