import Verif.Model.Mat
import Verif.Model.Op
/-
  The graph-building tensors of package `tensor`: every struct that embeds `TensorMat` and
  implements `BuildGraph`, and `graph.NewGraph`.

  A tensor variable of the Go program is a node number of a `Store`; `Kind` says which struct it
  is and which tensors it was made from.  `ctx` is the list of operations pushed so far (the
  linked list itself is `Model/Context.lean`).  Slices of scalars that an operation keeps
  (`Args`) are copied here; in Go they are shared with `Operands`, which matters only if `Bind`
  is called between `BuildGraph` and `Exec`.
-/
namespace Godeep
open GoNum

/-- `tensor/oper2.go:11-18` `Oper2` and `tensor/oper_scalar.go:10-17` `OperScalar` -/
inductive Arith where
  | add | sub | mul | div
  deriving DecidableEq, Repr

/-- `tensor/tensor_math.go:11-18` `OperTensor` and `tensor/dim_math.go:12-19` `OperDim` -/
inductive Red where
  | sum | avg | min | max
  deriving DecidableEq, Repr

/-- the operation pushed for each `Oper2` / `OperScalar`: `tensor/oper2.go:65-74`,
`tensor/oper_scalar.go:54-63` -/
def Arith.rhs {T : Type} : Arith → Ptr → Ptr → Rhs T
  | .add, a, b => .add a b
  | .sub, a, b => .sub a b
  | .mul, a, b => .mul a b
  | .div, a, b => .div a b

/-- the operation pushed for each `OperTensor` / `OperDim`: `tensor/tensor_math.go:49-70`,
`tensor/dim_math.go:66-87` -/
def Red.rhs {T : Type} : Red → List Ptr → Rhs T
  | .sum, args => .sum args
  | .avg, args => .avg args
  | .min, args => .min args
  | .max, args => .max args

/-- Which struct a tensor is, with the tensors (node numbers) and scalars it refers to. -/
inductive Kind (T : Type) where
  /-- `tensor/tensor_mat.go:17-22` `TensorMat` -/
  | leaf
  /-- `tensor/oper2.go:20-25` `TensorOp2` -/
  | op2 (o : Arith) (a b : Nat)
  /-- `tensor/oper_scalar.go:19-24` `TensorOpScalar` -/
  | opScalar (o : Arith) (t : Nat) (s : Ptr)
  /-- `tensor/neg.go:10-13` `TensorNeg` -/
  | neg (t : Nat)
  /-- `tensor/abs.go:10-13` `TensorAbs` -/
  | abs (t : Nat)
  /-- `tensor/activate.go:10-14` `TensorActivate` -/
  | act (f : T → T) (t : Nat)
  /-- `tensor/softmax.go:11-14` `TensorSoftMax` -/
  | softMax (t : Nat)
  /-- `tensor/tensor_math.go:20-24` `TensorTensorMath` -/
  | math (r : Red) (t : Nat)
  /-- `tensor/dim_math.go:21-26` `TensorDimMath` -/
  | dimMath (r : Red) (d t : Nat)
  /-- `tensor/dot_product.go:12-21` `TensorDotProduct`; `none` is `undef` -/
  | dot (dims : Option (Nat × Nat)) (a b : Nat)
  /-- `tensor/concat.go:11-16` `TensorConcat` -/
  | concat (d a b : Nat)
  /-- `tensor/sub_tensor.go:11-19` `TensorSubTensor` -/
  | sub (d s e : Nat) (goOut : Bool) (t : Nat)
  /-- `tensor/reshape.go:10-13` `TensorReshape`; the target shape is already in `mat` -/
  | reshape (t : Nat)
  /-- `tensor/transpose.go:10-13` `TensorTanspose` -/
  | transpose (t : Nat)
  /-- `tensor/fill.go:10-14` `TensorFill` -/
  | fill (t : Nat) (v : Ptr)
  /-- `tensor/copy.go:10-14` `TensorCopy` -/
  | copy (f t : Nat)

/-- the tensors whose `BuildGraph` is called first, in order -/
def Kind.kids {T : Type} : Kind T → List Nat
  | leaf => []
  | op2 _ a b => [a, b]
  | opScalar _ t _ => [t]
  | neg t => [t]
  | abs t => [t]
  | act _ t => [t]
  | softMax t => [t]
  | math _ t => [t]
  | dimMath _ _ t => [t]
  | dot _ a b => [a, b]
  | concat _ a b => [a, b]
  | sub _ _ _ _ t => [t]
  | reshape t => [t]
  | transpose t => [t]
  | fill t _ => [t]
  | copy f t => [f, t]

/-- What the part of a `BuildGraph` after the recursive calls reads and writes: the heap, the
context, and the receiver's own `TensorMat`. -/
structure FSt (T : Type) where
  heap : Heap T
  ctx : List (Op T)
  mat : Mat

namespace FSt
variable {T : Type} [GoNum T]

/-- `o := &number.Scalar[T]{}` followed by `ctx.Push(...)` of an operation on `o` -/
def emit (s : FSt T) (r : Rhs T) : FSt T :=
  { s with heap := (s.heap.alloc zero).2, ctx := s.ctx ++ [.asg s.heap.next r] }

/-- `ctx.Push` -/
def push (s : FSt T) (o : Op T) : FSt T := { s with ctx := s.ctx ++ [o] }

/-- The loop `for i := range p.Operands { o := &Scalar{}; p.Operands[i] = o; ctx.Push(f(i)) }`.
`acc` is the part of `p.Operands` already set. -/
def emitLoop (f : Nat → Res (Rhs T)) : List Nat → List Ptr → FSt T → Out (FSt T) Unit
  | [], acc, s => .ok () { s with mat := { s.mat with ops := acc } }
  | i :: l, acc, s =>
    match f i with
    | .ok r => emitLoop f l (acc ++ [s.heap.next]) (s.emit r)
    | .err e => .err e { s with mat := { s.mat with ops := acc ++ List.replicate (l.length + 1) 0 } }
    | .panic => .panic

/-- The loop `for i := range p.Operands { o, err := f(i); if err ... ; p.Operands[i] = o }`.
When it stops with an error the entries not yet set are nil. -/
def pickLoop (f : Nat → Heap T → Res (Ptr × Heap T)) :
    List Nat → List Ptr → FSt T → Out (FSt T) Unit
  | [], acc, s => .ok () { s with mat := { s.mat with ops := acc } }
  | i :: l, acc, s =>
    match f i s.heap with
    | .ok (p, h) => pickLoop f l (acc ++ [p]) { s with heap := h }
    | .err e => .err e { s with mat := { s.mat with ops := acc ++ List.replicate (l.length + 1) 0 } }
    | .panic => .panic

end FSt

namespace Fin
variable {T : Type} [GoNum T]
open FSt

/-- `tensor/tensor_mat.go:30-33` (leaf) -/
def leaf (s : FSt T) : Out (FSt T) Unit :=
  .ok () { s with ctx := s.ctx ++ s.mat.ops.map Op.nop }

/-- `tensor/oper2.go:50-77` -/
def op2 (o : Arith) (a b : Mat) (s : FSt T) : Out (FSt T) Unit :=
  match eqShapeErr a.shape b.shape with
  | some e => .err e s
  | none =>
    emitLoop (fun i => (Res.index a.ops i).bind fun x => (Res.index b.ops i).map fun y => o.rhs x y)
      (List.range a.getSize) [] { s with mat := ⟨a.shape, a.mul, []⟩ }

/-- common shape of `tensor/oper_scalar.go:45-66`, `tensor/neg.go:32-43`, `tensor/abs.go:32-43`,
`tensor/activate.go:34-45` -/
def unary (r : Ptr → Rhs T) (t : Mat) (s : FSt T) : Out (FSt T) Unit :=
  emitLoop (fun i => (Res.index t.ops i).map r) (List.range t.getSize) []
    { s with mat := ⟨t.shape, t.mul, []⟩ }

/-- `tensor/softmax.go:33-68` -/
def softMax (t : Mat) (s : FSt T) : Out (FSt T) Unit :=
  let min := s.heap.next
  let s := ({ s with mat := ⟨t.shape, t.mul, []⟩ } : FSt T).emit (.min t.ops)
  (emitLoop (fun i => (Res.index t.ops i).map fun x => .sub x min) (List.range t.getSize) [] s).bind
    fun _ s =>
      let sum := s.heap.next
      let s := s.emit (.sum s.mat.ops)
      .ok () { s with ctx := s.ctx ++ s.mat.ops.map fun p => .asg p (.div p sum) }

/-- `tensor/tensor_math.go:44-72` -/
def math (r : Red) (t : Mat) (s : FSt T) : Out (FSt T) Unit :=
  .ok () (({ s with mat := ⟨[1], [1], [s.heap.next]⟩ } : FSt T).emit (r.rhs t.ops))

/-- `tensor/dim_math.go:46-90` -/
def dimMath (r : Red) (d : Nat) (t : Mat) (s : FSt T) : Out (FSt T) Unit :=
  if d ≥ t.shape.length then .err (.badDim d t.shape.length) s
  else
    let shape := t.shape.take (d + 1)
    match Res.index t.mul d with
    | .ok mi =>
      emitLoop (fun i => (Mat.slice t.ops (i * mi) (i * mi + mi)).map fun args => r.rhs args)
        (List.range (dataSize shape)) [] { s with mat := ⟨shape, indexMul shape, []⟩ }
    | .err e => .err e s
    | .panic => .panic

/-- inner loop `tensor/dot_product.go:135-156`; `none`: the error of the first `GetOperand` was
swallowed (line 141 `return nil`), so no `Sum` is pushed -/
def dotRow (a b : Mat) (da db : Nat) (indA indB : List Nat) :
    List Nat → List Ptr → FSt T → Out (FSt T) (Option (List Ptr))
  | [], acc, s => .ok (some acc) s
  | i :: l, acc, s =>
    match a.getOperand (indA.set da i) with
    | .err _ => .ok none s
    | .panic => .panic
    | .ok x =>
      match b.getOperand (indB.set db i) with
      | .err e => .err e s
      | .panic => .panic
      | .ok y => dotRow a b da db indA indB l (acc ++ [s.heap.next]) (s.emit (.mul x y))

/-- `tensor/dot_product.go:96-104` with `buildLastDim` (109-163) -/
def dotRows (a b : Mat) (n da db dim : Nat) : List Nat → FSt T → Out (FSt T) Unit
  | [], s => .ok () s
  | i :: l, s =>
    match (reverseIndex s.mat.mul s.mat.shape i).bind fun idx =>
        (Res.index s.mat.ops i).map fun cell => (idx, cell) with
    | .ok (idx, cell) =>
      (dotRow a b da db (Mat.spread (idx.take dim) da) (Mat.spread (idx.drop dim) db)
        (List.range n) [] s).bind fun args s =>
          dotRows a b n da db dim l (match args with
            | some args => s.push (.asg cell (.sum args))
            | none => s)
    | .err e => .err e s
    | .panic => .panic

/-- `tensor/dot_product.go:165-197` `buildVector` -/
def dotVector (a b : Mat) (s : FSt T) : Out (FSt T) Unit :=
  if a.getSize ≠ b.getSize then .err (.size a.getSize b.getSize) s
  else
    (emitLoop (fun i => (Res.index a.ops i).bind fun x => (Res.index b.ops i).map fun y => .mul x y)
      (List.range a.getSize) [] s).bind fun _ s =>
        .ok () (({ s with mat := ⟨[1], [1], [s.heap.next]⟩ } : FSt T).emit (.sum s.mat.ops))

/-- the cells allocated at `tensor/dot_product.go:92-94` -/
def zeros (n : Nat) (h : Heap T) : List Ptr × Heap T :=
  (List.range' h.next n, (List.range n).foldl (fun h _ => (h.alloc zero).2) h)

/-- `tensor/dot_product.go:63-70`, first dimension -/
def dimA (dims : Option (Nat × Nat)) (a : Mat) : Nat :=
  match dims with
  | some d => d.1
  | none => a.shape.length - 1

/-- `tensor/dot_product.go:63-70`, second dimension -/
def dimB (dims : Option (Nat × Nat)) (b : Mat) : Nat :=
  match dims with
  | some d => d.2
  | none => if b.shape.length - 1 > 0 then b.shape.length - 1 - 1 else b.shape.length - 1

/-- `tensor/dot_product.go:55-107` -/
def dot (dims : Option (Nat × Nat)) (a b : Mat) (s : FSt T) : Out (FSt T) Unit :=
  if a.shape.length = 0 ∨ b.shape.length = 0 then .err (.other "dot: empty tensor") s
  else
    let da := dimA dims a
    let db := dimB dims b
    match a.shape[da]?, b.shape[db]? with
    | some na, some nb =>
      if na ≠ nb then .err (.extent na nb da) s
      else if a.shape.length = 1 ∧ b.shape.length = 1 then dotVector a b s
      else
        let sa := a.shape.eraseIdx da
        let shape := sa ++ b.shape.take db ++ b.shape.drop (db + 1)
        let (ops, h) := zeros (dataSize shape) s.heap
        dotRows a b na da db sa.length (List.range ops.length)
          { s with heap := h, mat := ⟨shape, indexMul shape, ops⟩ }
    | _, _ => .panic

/-- `tensor/concat.go:40-70`: only the first differing dimension is compared with `D` -/
def concat (d : Nat) (a b : Mat) (s : FSt T) : Out (FSt T) Unit :=
  let e := shapeEquals a.shape b.shape
  if e = -2 then .err (.rank a.shape.length b.shape.length) s
  else if e ≥ 0 ∧ e.toNat ≠ d then
    .err (.extent (a.shape.getD e.toNat 0) (b.shape.getD e.toNat 0) e.toNat) s
  else
    match a.shape[d]?, b.shape[d]? with
    | some x, some y =>
      let shape := a.shape.set d (x + y)
      let mul := indexMul shape
      pickLoop (fun i h => (reverseIndex mul shape i).bind fun idx =>
          (Mat.concatPick a b d x idx).map fun p => (p, h))
        (List.range (dataSize shape)) [] { s with mat := ⟨shape, mul, []⟩ }
    | _, _ => .panic

/-- `tensor/sub_tensor.go:51-102` (with the `>` of line 91) -/
def sub (d st en : Nat) (goOut : Bool) (t : Mat) (s : FSt T) : Out (FSt T) Unit :=
  if d ≥ t.shape.length then .err (.badDim d t.shape.length) s
  else if en ≤ st then .err (.badRange st en 0) s
  else if !goOut ∧ en > t.shape.getD d 0 then .err (.badRange st en (t.shape.getD d 0)) s
  else if !goOut ∧ st > t.shape.getD d 0 then .err (.badRange st en (t.shape.getD d 0)) s
  else
    let m := t.shape.getD d 0
    let shape := t.shape.set d (en - st)
    let mul := indexMul shape
    pickLoop (fun i h => (reverseIndex mul shape i).bind fun idx => (Mat.bump idx d st).bind fun idx =>
        if idx.getD d 0 > m ∧ goOut then .ok (h.next, (h.alloc zero).2)
        else (t.getOperand idx).map fun p => (p, h))
      (List.range (dataSize shape)) [] { s with mat := ⟨shape, mul, []⟩ }

/-- `tensor/reshape.go:39-54` -/
def reshape (t : Mat) (s : FSt T) : Out (FSt T) Unit :=
  let shape := s.mat.shape
  let n := dataSize shape
  let min := if n > t.getSize then t.getSize else n
  let (pad, h) := zeros (n - min) s.heap
  .ok () { s with heap := h, mat := ⟨shape, indexMul shape, t.ops.take min ++ pad⟩ }

/-- `tensor/transpose.go:31-51` -/
def transpose (t : Mat) (s : FSt T) : Out (FSt T) Unit :=
  let shape := t.shape.reverse
  let mul := indexMul shape
  pickLoop (fun i h => (reverseIndex mul shape i).bind fun idx =>
      (t.getOperand (invertedIndex idx)).map fun p => (p, h))
    (List.range t.getSize) [] { s with mat := ⟨shape, mul, []⟩ }

/-- `tensor/fill.go:39-48`: the target's own cells are overwritten at `Exec` -/
def fill (t : Mat) (v : Ptr) (s : FSt T) : Out (FSt T) Unit :=
  .ok () { s with mat := t, ctx := s.ctx ++ t.ops.map fun p => .asg p (.set v) }

/-- loop of `tensor/copy.go:57-59` -/
def copyLoop : List Ptr → List Ptr → List (Op T)
  | t :: ts, f :: fs => .asg t (.set f) :: copyLoop ts fs
  | _, _ => []

/-- `tensor/copy.go:43-61` -/
def copy (f t : Mat) (s : FSt T) : Out (FSt T) Unit :=
  if f.getSize ≠ t.getSize then .err (.size f.getSize t.getSize) s
  else .ok () { s with mat := t, ctx := s.ctx ++ copyLoop t.ops f.ops }

/-- the body of each `BuildGraph` after the recursive calls; `get` gives the `TensorMat` of the
tensors referred to -/
def run (get : Nat → Mat) : Kind T → FSt T → Out (FSt T) Unit
  | .leaf => leaf
  | .op2 o a b => op2 o (get a) (get b)
  | .opScalar o t p => unary (fun x => o.rhs x p) (get t)
  | .neg t => unary .neg (get t)
  | .abs t => unary .abs (get t)
  | .act f t => unary (.func f) (get t)
  | .softMax t => softMax (get t)
  | .math r t => math r (get t)
  | .dimMath r d t => dimMath r d (get t)
  | .dot dims a b => dot dims (get a) (get b)
  | .concat d a b => concat d (get a) (get b)
  | .sub d st en g t => sub d st en g (get t)
  | .reshape t => reshape (get t)
  | .transpose t => transpose (get t)
  | .fill t v => fill (get t) v
  | .copy f t => copy (get f) (get t)

end Fin

/-- a tensor object: its struct, its embedded `TensorMat` and the `builded` flag -/
structure Node (T : Type) where
  kind : Kind T
  mat : Mat
  built : Bool

/-- all tensors of the program, the scalars, and the context in use -/
structure Store (T : Type) where
  nodes : Nat → Node T
  heap : Heap T
  ctx : List (Op T)

namespace Store
variable {T : Type} [GoNum T]

/-- assignment to one tensor object -/
def setNode (s : Store T) (n : Nat) (x : Node T) : Store T :=
  { s with nodes := fun m => if m = n then x else s.nodes m }

/-- run the non-recursive part of node `n`'s `BuildGraph` -/
def finish (n : Nat) (s : Store T) : Out (Store T) Unit :=
  let nd := s.nodes n
  let put (f : FSt T) : Store T :=
    { (s.setNode n { nd with mat := f.mat }) with heap := f.heap, ctx := f.ctx }
  match Fin.run (fun m => (s.nodes m).mat) nd.kind ⟨s.heap, s.ctx, nd.mat⟩ with
  | .ok _ f => .ok () (put f)
  | .err e f => .err e (put f)
  | .panic => .panic

/-- run `f` on each element of a list, stopping at the first error or panic -/
def each (f : Nat → Store T → Out (Store T) Unit) : List Nat → Store T → Out (Store T) Unit
  | [], s => .ok () s
  | c :: cs, s => (f c s).bind fun _ s => each f cs s

/-- `BuildGraph` of every tensor struct: test and set `builded`, build the tensors it refers to,
then its own part (`finish`): `tensor/abs.go:21-32`, `tensor/activate.go:23-34`, `tensor/neg.go:21-32`, `tensor/oper2.go:35-49`,
`tensor/oper_scalar.go:34-45`, `tensor/reshape.go:28-39`, `tensor/fill.go:28-38`, `tensor/copy.go:28-42`, `tensor/softmax.go:22-32`,
`tensor/tensor_math.go:33-44`, and so on.  The first argument bounds the depth of the recursion; a tensor refers only
to tensors that existed before it, so its own number + 1 is enough. -/
def build : Nat → Nat → Store T → Out (Store T) Unit
  | 0, _, _ => .panic
  | fuel + 1, n, s =>
    if (s.nodes n).built then .ok () s
    else
      (each (fun c s => build fuel c s) (s.nodes n).kind.kids
        (s.setNode n { s.nodes n with built := true })).bind fun _ s => finish n s

/-- `graph/graph.go:18-25` `NewGraph`: a new context, `BuildGraph`, and the operations pushed -/
def newGraph (n : Nat) (s : Store T) : Out (Store T) (List (Op T)) :=
  match build (n + 1) n { s with ctx := [] } with
  | .ok _ s' => .ok s'.ctx s'
  | .err e s' => .err e s'
  | .panic => .panic

/-- a tensor created by one of the constructors: not built, empty `TensorMat` except for
`Reshape`, which already has its shape (`tensor/reshape.go:15-22`) -/
def lazyNode (k : Kind T) (shape : List Nat) : Node T := ⟨k, ⟨shape, [], []⟩, false⟩

end Store
end Godeep
