import Verif.Model.Heap
/-
  `tensor.TensorMat`: constructors, element access and the immediate operations.
  The `builded` flag is part of the graph model (`Model/Lazy.lean`); the immediate
  operations neither read nor write it.
  Slices created by `make` have capacity = length, so slicing is bounded by the length.
-/
namespace Godeep
open GoNum

/-- `tensor/tensor_mat.go:17-22` `TensorMat` without the `builded` flag.  `shape`, `mul` and `ops` are also `GetShape`, `GetMulIndex` and `GetOperands`
(`tensor/tensor_mat.go:40-54`): lists are values here, so the copies that the first two make and the shared slice of the third need no
model, except for `Bind` of a tensor whose slice another one shares; `GetMatrix` (`tensor/tensor_mat.go:233-235`) is the identity.
`tensor/constructor.go:11-16` `initMat` is `⟨shape, indexMul shape, …⟩`. -/
structure Mat where
  shape : List Nat
  mul : List Nat
  ops : List Ptr
  deriving DecidableEq, Repr

namespace Mat
variable {T : Type} [GoNum T]

/-! ### constructors -/

/-- `tensor/constructor.go:18-26` `NewZeros` -/
def newZeros (shape : List Nat) (h : Heap T) : Out (Heap T) Mat :=
  (Heap.allocEach (fun _ _ => .ok zero) (List.range (dataSize shape)) h).map
    fun ops => ⟨shape, indexMul shape, ops⟩

/-- `tensor/constructor.go:28-36` `NewOnes` -/
def newOnes (shape : List Nat) (h : Heap T) : Out (Heap T) Mat :=
  (Heap.allocEach (fun _ _ => .ok one) (List.range (dataSize shape)) h).map
    fun ops => ⟨shape, indexMul shape, ops⟩

/-- `tensor/constructor.go:38-56` (`NewRand`, `NewNormRand`): `rnd i` is the number drawn for
element `i` (the generator itself is not modelled) -/
def newRand (rnd : Nat → T) (shape : List Nat) (h : Heap T) : Out (Heap T) Mat :=
  (Heap.allocEach (fun i _ => .ok (rnd i)) (List.range (dataSize shape)) h).map
    fun ops => ⟨shape, indexMul shape, ops⟩

/-- `tensor/constructor.go:58-77` `NewFromValues`: the two loops (values, then padding) -/
def newFromValues (values : List T) (shape : List Nat) (h : Heap T) : Out (Heap T) Mat :=
  let total := dataSize shape
  let size := if values.length < total then values.length else total
  (Heap.allocEach (fun i _ => Res.index values i) (List.range size) h).bind fun ops1 h1 =>
    (Heap.allocEach (fun _ _ => .ok zero) (List.range' size (total - size)) h1).map fun ops2 =>
      ⟨shape, indexMul shape, ops1 ++ ops2⟩

/-! ### access -/

/-- `tensor/tensor_mat.go:36-38` `GetSize` -/
def getSize (m : Mat) : Nat := m.ops.length

/-- `tensor/tensor_mat.go:56-65` `GetOperand` -/
def getOperand (m : Mat) (index : List Nat) : Res Ptr :=
  (getIndex m.mul m.shape index).bind fun ind =>
    if ind ≥ m.ops.length then .err (.internalIndex ind m.ops.length) else Res.index m.ops ind

/-- `tensor/tensor_mat.go:67-70` `Bind`: Go's `copy` moves `min(len, len)` pointers -/
def bind (m t : Mat) : Mat :=
  { m with ops := t.ops.take m.ops.length ++ m.ops.drop t.ops.length }

/-- `tensor/tensor_mat.go:72-81` `LoadFromTensor` -/
def loadFromTensor (m t : Mat) (h : Heap T) : Out (Heap T) Unit :=
  match eqShapeErr m.shape t.shape with
  | some e => .err e h
  | none =>
    Heap.storeEach (fun i h => (Res.index m.ops i).bind fun p => (h.loadAt t.ops i).map fun v => (p, v))
      (List.range t.ops.length) h

/-- `tensor/tensor_mat.go:83-95` `LoadData` -/
def loadData (m : Mat) (data : List T) (h : Heap T) : Out (Heap T) Unit :=
  if data.length ≠ m.getSize then .err (.size data.length m.getSize) h
  else Heap.storeEach (fun i _ => (Res.index m.ops i).bind fun p => (Res.index data i).map fun v => (p, v))
    (List.range m.ops.length) h

/-- `tensor/tensor_mat.go:97-103` `GetData` -/
def getData (m : Mat) (h : Heap T) : Res (List T) :=
  Res.mapM (fun i => h.loadAt m.ops i) (List.range m.getSize)

/-- `tensor/tensor_mat.go:105-111` `Get` -/
def get (m : Mat) (index : List Nat) (h : Heap T) : Res T := (m.getOperand index).bind h.load

/-- `tensor/tensor_mat.go:113-121` `Set` -/
def set (m : Mat) (value : T) (index : List Nat) (h : Heap T) : Out (Heap T) Unit :=
  match m.getOperand index with
  | .ok p => h.store p value
  | .err e => .err e h
  | .panic => .panic

/-- `tensor/tensor_mat.go:145-157` `Copy` -/
def copy (m : Mat) (h : Heap T) : Out (Heap T) Mat :=
  (Heap.allocEach (fun i h => h.loadAt m.ops i) (List.range m.getSize) h).map
    fun ops => ⟨m.shape, m.mul, ops⟩

/-! ### immediate element-wise operations -/

/-- common body of `tensor/oper2.go:80-170` -/
def op2 (f : T → T → Res T) (p m : Mat) (h : Heap T) : Out (Heap T) Mat :=
  match eqShapeErr p.shape m.shape with
  | some e => .err e h
  | none =>
    (Heap.allocEach (fun i h => (h.loadAt p.ops i).bind fun a => (h.loadAt m.ops i).bind fun b => f a b)
      (List.range p.ops.length) h).map fun ops => ⟨p.shape, p.mul, ops⟩

/-- `tensor/oper2.go:80-101` `Add` -/
def add (p m : Mat) : Heap T → Out (Heap T) Mat := op2 (fun a b => .ok (GoNum.add a b)) p m
/-- `tensor/oper2.go:103-124` `Sub` -/
def sub (p m : Mat) : Heap T → Out (Heap T) Mat := op2 (fun a b => .ok (GoNum.sub a b)) p m
/-- `tensor/oper2.go:126-147` `Mul` -/
def mulM (p m : Mat) : Heap T → Out (Heap T) Mat := op2 (fun a b => .ok (GoNum.mul a b)) p m
/-- `tensor/oper2.go:149-170` `Div` -/
def div (p m : Mat) : Heap T → Out (Heap T) Mat := op2 GoNum.divR p m

/-- common body of the unary immediate operations -/
def op1 (f : T → Heap T → Res T) (p : Mat) (h : Heap T) : Out (Heap T) Mat :=
  (Heap.allocEach (fun i h => (h.loadAt p.ops i).bind fun a => f a h)
      (List.range p.ops.length) h).map fun ops => ⟨p.shape, p.mul, ops⟩

/-- `tensor/oper_scalar.go:69-84` `AddScalar`; `n` is the address of the scalar -/
def addScalar (p : Mat) (n : Ptr) : Heap T → Out (Heap T) Mat :=
  op1 (fun a h => (h.load n).map fun s => GoNum.add a s) p
/-- `tensor/oper_scalar.go:86-101` `SubScalar` -/
def subScalar (p : Mat) (n : Ptr) : Heap T → Out (Heap T) Mat :=
  op1 (fun a h => (h.load n).map fun s => GoNum.sub a s) p
/-- `tensor/oper_scalar.go:103-118` `MulScalar` -/
def mulScalar (p : Mat) (n : Ptr) : Heap T → Out (Heap T) Mat :=
  op1 (fun a h => (h.load n).map fun s => GoNum.mul a s) p
/-- `tensor/oper_scalar.go:120-135` `DivScalar` -/
def divScalar (p : Mat) (n : Ptr) : Heap T → Out (Heap T) Mat :=
  op1 (fun a h => (h.load n).bind fun s => GoNum.divR a s) p
/-- `tensor/neg.go:46-58` `Neg` -/
def neg (p : Mat) : Heap T → Out (Heap T) Mat := op1 (fun a _ => .ok (GoNum.neg a)) p
/-- `tensor/abs.go:46-64` `Abs` -/
def abs (p : Mat) : Heap T → Out (Heap T) Mat :=
  op1 (fun a _ => if GoNum.lt a zero then .ok (GoNum.neg a) else .ok a) p
/-- `tensor/activate.go:48-60` `Activate` -/
def activate (f : T → T) (p : Mat) : Heap T → Out (Heap T) Mat := op1 (fun a _ => .ok (f a)) p

/-! ### reductions -/

/-- `tools/math.go:8-14` `Sum` on the values read -/
def toolsSum (vs : List T) : Res T := .ok (vs.foldl GoNum.add zero)
/-- `tools/math.go:16-22` `Avg` -/
def toolsAvg (vs : List T) : Res T := GoNum.divR (vs.foldl GoNum.add zero) (ofNat vs.length)
/-- `tools/math.go:24-32` `Max` -/
def toolsMax : List T → Res T
  | [] => .panic
  | v :: vs => .ok (vs.foldl (fun m a => if lt m a then a else m) v)
/-- `tools/math.go:34-42` `Min` -/
def toolsMin : List T → Res T
  | [] => .panic
  | v :: vs => .ok (vs.foldl (fun m a => if lt a m then a else m) v)

/-- common body of `tensor/tensor_math.go:75-113` -/
def reduce (r : List T → Res T) (p : Mat) (h : Heap T) : Out (Heap T) Mat :=
  (Heap.allocEach (fun (_ : Unit) h => (h.loadAll p.ops).bind r) [()] h).map
    fun ops => ⟨[1], [1], ops⟩

/-- `tensor/tensor_math.go:75-83` `Sum` -/
def sum (p : Mat) : Heap T → Out (Heap T) Mat := reduce toolsSum p
/-- `tensor/tensor_math.go:85-93` `Avg` -/
def avg (p : Mat) : Heap T → Out (Heap T) Mat := reduce toolsAvg p
/-- `tensor/tensor_math.go:95-103` `Max` -/
def max (p : Mat) : Heap T → Out (Heap T) Mat := reduce toolsMax p
/-- `tensor/tensor_math.go:105-113` `Min` -/
def min (p : Mat) : Heap T → Out (Heap T) Mat := reduce toolsMin p

/-- Go `s[lo:hi]` -/
def slice (l : List Ptr) (lo hi : Nat) : Res (List Ptr) :=
  if lo ≤ hi ∧ hi ≤ l.length then .ok ((l.drop lo).take (hi - lo)) else .panic

/-- common body of `tensor/dim_math.go:93-207` -/
def dimReduce (r : List T → Res T) (p : Mat) (dim : Nat) (h : Heap T) : Out (Heap T) Mat :=
  if dim ≥ p.shape.length then .err (.badDim dim p.shape.length) h
  else
    let shape := p.shape.take (dim + 1)
    match Res.index p.mul dim with
    | .ok mi =>
      (Heap.allocEach (fun i h => (slice p.ops (i * mi) (i * mi + mi)).bind fun args =>
          (h.loadAll args).bind r) (List.range (dataSize shape)) h).map
        fun ops => ⟨shape, indexMul shape, ops⟩
    | .err e => .err e h
    | .panic => .panic

/-- `tensor/dim_math.go:93-120` `DSum` -/
def dsum (p : Mat) (d : Nat) : Heap T → Out (Heap T) Mat := dimReduce toolsSum p d
/-- `tensor/dim_math.go:122-149` `DAvg` -/
def davg (p : Mat) (d : Nat) : Heap T → Out (Heap T) Mat := dimReduce toolsAvg p d
/-- `tensor/dim_math.go:151-178` `DMax` -/
def dmax (p : Mat) (d : Nat) : Heap T → Out (Heap T) Mat := dimReduce toolsMax p d
/-- `tensor/dim_math.go:180-207` `DMin` -/
def dmin (p : Mat) (d : Nat) : Heap T → Out (Heap T) Mat := dimReduce toolsMin p d

/-- `tensor/softmax.go:71-93` `SoftMax` -/
def softMax (p : Mat) (h : Heap T) : Out (Heap T) Mat :=
  match (h.loadAll p.ops).bind fun vs => (toolsMin vs).map fun mn =>
      (mn, vs.foldl (fun s v => GoNum.add s (GoNum.sub v mn)) zero) with
  | .ok (mn, sm) =>
    (Heap.allocEach (fun i h => (h.loadAt p.ops i).bind fun v => GoNum.divR (GoNum.sub v mn) sm)
      (List.range p.ops.length) h).map fun ops => ⟨p.shape, p.mul, ops⟩
  | .err e => .err e h
  | .panic => .panic

/-! ### structural operations -/

/-- `tensor/transpose.go:54-80` `Transpose` -/
def transpose (p : Mat) (h : Heap T) : Out (Heap T) Mat :=
  let shape := p.shape.reverse
  let mul := indexMul shape
  (Heap.allocEach (fun i h => (reverseIndex mul shape i).bind fun idx => p.get (invertedIndex idx) h)
    (List.range p.getSize) h).map fun ops => ⟨shape, mul, ops⟩

/-- Go `idx[d] += s` -/
def bump (idx : List Nat) (d s : Nat) : Res (List Nat) :=
  match idx[d]? with
  | some v => .ok (idx.set d (v + s))
  | none => .panic

/-- `tensor/sub_tensor.go:105-161` `SubTensor` -/
def subTensor (p : Mat) (dim start stop : Nat) (h : Heap T) : Out (Heap T) Mat :=
  if dim ≥ p.shape.length then .err (.badDim dim p.shape.length) h
  else if stop ≤ start then .err (.badRange start stop 0) h
  else if stop > p.shape.getD dim 0 then .err (.badRange start stop (p.shape.getD dim 0)) h
  else if start > p.shape.getD dim 0 then .err (.badRange start stop (p.shape.getD dim 0)) h
  else
    let shape := p.shape.set dim (stop - start)
    let mul := indexMul shape
    (Heap.allocEach (fun i h => (reverseIndex mul shape i).bind fun idx =>
        (bump idx dim start).bind fun idx => p.get idx h)
      (List.range (dataSize shape)) h).map fun ops => ⟨shape, mul, ops⟩

/-- `tensor/sub_tensor.go:163-210` `FOSubTensor` -/
def foSubTensor (p : Mat) (dim start stop : Nat) (fill : T) (h : Heap T) : Out (Heap T) Mat :=
  if dim ≥ p.shape.length then .err (.badDim dim p.shape.length) h
  else if stop ≤ start then .err (.badRange start stop 0) h
  else
    let max := p.shape.getD dim 0
    let shape := p.shape.set dim (stop - start)
    let mul := indexMul shape
    (Heap.allocEach (fun i h => (reverseIndex mul shape i).bind fun idx =>
        (bump idx dim start).bind fun idx =>
          if idx.getD dim 0 > max then .ok fill else p.get idx h)
      (List.range (dataSize shape)) h).map fun ops => ⟨shape, mul, ops⟩

/-- `tensor/concat.go:74-90`, `tensor/concat.go:113-134` `concatLastDim`: the pointer for output index `idx` -/
def concatPick (a b : Mat) (dim dimSize : Nat) (idx : List Nat) : Res Ptr :=
  match idx[dim]? with
  | none => .panic
  | some v =>
    if v < dimSize then a.getOperand idx else b.getOperand (idx.set dim (v - dimSize))

/-- `tensor/concat.go:92-111` `Concat`: no check of the other dimensions, `ops` has
`p.GetSize()+m.GetSize()` entries, and the pointers of `p` and `m` are reused. -/
def concat (p m : Mat) (dim : Nat) : Res Mat :=
  (Res.index p.shape dim).bind fun dimSize =>
  (Res.index m.shape dim).bind fun mSize =>
    let shape := p.shape.set dim (dimSize + mSize)
    let mul := indexMul shape
    (Res.mapM (fun i => (reverseIndex mul shape i).bind fun idx => concatPick p m dim dimSize idx)
      (List.range (p.getSize + m.getSize))).map fun ops => ⟨shape, mul, ops⟩

/-- `tensor/reshape.go:57-81` `Reshape`: the padding loop runs to `p.GetSize()` instead of
`len(ops)`: when the source is larger it writes out of range (panic), when it is
smaller the rest of `ops` stays nil (0). -/
def reshape (p : Mat) (shape : List Nat) (h : Heap T) : Out (Heap T) Mat :=
  let len := dataSize shape
  let min := if p.getSize > len then len else p.getSize
  (Heap.allocEach (fun i h => h.loadAt p.ops i) (List.range min) h).bind fun ops h1 =>
    if min < p.getSize then .panic
    else .ok ⟨shape, indexMul shape, ops ++ List.replicate (len - min) 0⟩ h1

/-- `tensor/fill.go:51-55` `Fill` -/
def fill (p : Mat) (n : Ptr) (h : Heap T) : Out (Heap T) Unit :=
  Heap.storeEach (fun i h => (Res.index p.ops i).bind fun q => (h.load n).map fun v => (q, v))
    (List.range p.ops.length) h

/-- `tensor/fill.go:57-61` `FillData` -/
def fillData (p : Mat) (v : T) (h : Heap T) : Out (Heap T) Unit :=
  Heap.storeEach (fun i _ => (Res.index p.ops i).map fun q => (q, v))
    (List.range p.ops.length) h

/-! ### contraction -/

/-- index of the contracted tensor before the running dimension is filled in
(`tensor/dot_product.go:118-133`, `270-285`): components before `d` stay, later ones move up -/
def spread (idx : List Nat) (d : Nat) : List Nat :=
  (List.range (idx.length + 1)).map fun j =>
    if j < d then idx.getD j 0 else if j = d then 0 else idx.getD (j - 1) 0

/-- inner loop `tensor/dot_product.go:287-302` of `dotLastDim` (`tensor/dot_product.go:261-304`).  The error of the first `GetOperand` is
swallowed (line 293 `return nil`).  `dim1`, `dim2` are in range here because `sha[dim1]`,
`shb[dim2]` have been read. -/
def dotLoop (p m : Mat) (cell : Ptr) (dim1 dim2 : Nat) (indA indB : List Nat) :
    List Nat → Heap T → Out (Heap T) Unit
  | [], h => .ok () h
  | k :: ks, h =>
    match p.getOperand (indA.set dim1 k) with
    | .err _ => .ok () h
    | .panic => .panic
    | .ok a =>
      match m.getOperand (indB.set dim2 k) with
      | .err e => .err e h
      | .panic => .panic
      | .ok b =>
        match (h.load cell).bind fun c => (h.load a).bind fun x => (h.load b).map fun y =>
            GoNum.add c (GoNum.mul x y) with
        | .ok v => (h.store cell v).bind fun _ h' => dotLoop p m cell dim1 dim2 indA indB ks h'
        | .err e => .err e h
        | .panic => .panic

/-- outer loop `tensor/dot_product.go:244-252` -/
def dotOuter (p m : Mat) (size dim1 dim2 dim : Nat) (mul shape : List Nat) (ops : List Ptr) :
    List Nat → Heap T → Out (Heap T) Unit
  | [], h => .ok () h
  | i :: is, h =>
    match (reverseIndex mul shape i).bind fun idx => (Res.index ops i).map fun cell => (idx, cell) with
    | .ok (idx, cell) =>
      (dotLoop p m cell dim1 dim2 (spread (idx.take dim) dim1) (spread (idx.drop dim) dim2)
        (List.range size) h).bind fun _ h' => dotOuter p m size dim1 dim2 dim mul shape ops is h'
    | .err e => .err e h
    | .panic => .panic

/-- `tensor/dot_product.go:306-332` `DotVector` -/
def dotVector (p m : Mat) (h : Heap T) : Out (Heap T) Mat :=
  if p.getSize ≠ m.getSize then .err (.size p.getSize m.getSize) h
  else
    (Heap.allocEach (fun i h => (h.loadAt p.ops i).bind fun a => (h.loadAt m.ops i).map fun b =>
        GoNum.mul a b) (List.range p.ops.length) h).bind fun tmp h1 =>
      (Heap.allocEach (fun (_ : Unit) h => (h.loadAll tmp).bind toolsSum) [()] h1).map
        fun ops => ⟨[1], [1], ops⟩

/-- `tensor/dot_product.go:209-259` `DotAt` -/
def dotAt (p m : Mat) (dim1 dim2 : Nat) (h : Heap T) : Out (Heap T) Mat :=
  if p.shape.length = 0 ∨ m.shape.length = 0 then .err (.other "dot: empty tensor") h
  else
    match p.shape[dim1]?, m.shape[dim2]? with
    | some n1, some n2 =>
      if n1 ≠ n2 then .err (.extent n1 n2 dim1) h
      else if p.shape.length = 1 ∧ m.shape.length = 1 then dotVector p m h
      else
        let sa := p.shape.eraseIdx dim1
        let shape := sa ++ m.shape.take dim2 ++ m.shape.drop (dim2 + 1)
        let mul := indexMul shape
        (Heap.allocEach (fun (_ : Nat) (_ : Heap T) => .ok zero) (List.range (dataSize shape)) h).bind
          fun ops h1 =>
            (dotOuter p m n1 dim1 dim2 sa.length mul shape ops (List.range ops.length) h1).map
              fun _ => ⟨shape, mul, ops⟩
    | _, _ => .panic

/-- `tensor/dot_product.go:199-207` `Dot`.  For an empty shape Go computes `uint(-1)`, then
`DotAt` returns its error before using it; `Nat` subtraction gives the same outcome. -/
def dot (p m : Mat) (h : Heap T) : Out (Heap T) Mat :=
  let d1 := p.shape.length - 1
  let d2 := m.shape.length - 1
  let d2 := if d2 > 0 then d2 - 1 else d2
  dotAt p m d1 d2 h

end Mat
end Godeep
