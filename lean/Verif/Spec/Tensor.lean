import Verif.Model.Mat
import Verif.Spec.Index
/-
  What it means for a tensor of the model to hold a mathematical tensor, and the
  mathematical tensor operations.
-/
namespace Godeep.Spec
open Godeep GoNum

variable {T : Type} [GoNum T]

/-- Every tensor and scalar allocated in `h` is still there, with the same value, in `h'`. -/
structure Extends (h h' : Heap T) : Prop where
  next : h.next ≤ h'.next
  val : ∀ p, p < h.next → h'.val p = h.val p

/-- allocated and not nil -/
def Valid (h : Heap T) (p : Ptr) : Prop := 0 < p ∧ p < h.next

/-- The tensor `m` (in heap `h`) represents `t`: its shape is `t`'s, its number of
elements is right, all its cells exist, and `Get` returns `t`'s value at every in-range index. -/
structure Holds (h : Heap T) (m : Mat) (t : STensor T) : Prop where
  shape : m.shape = t.shape
  mul : m.mul = indexMul m.shape
  len : m.ops.length = size m.shape
  valid : ∀ p ∈ m.ops, Valid h p
  get : ∀ idx, InRange t.shape idx → m.get idx h = .ok (t.get idx)

/-- A call that started in `h` returned the new tensor `r` in `h'`: it represents `t`,
shares no cell with anything that existed, its own cells are distinct, and everything
that existed is unchanged. -/
structure NewTensor (h h' : Heap T) (r : Mat) (t : STensor T) : Prop where
  holds : Holds h' r t
  frame : Extends h h'
  fresh : ∀ p ∈ r.ops, h.next ≤ p
  nodup : r.ops.Nodup

namespace STensor

/-- elements in row-major order -/
def flat (t : STensor T) : List T := (allIdx t.shape).map t.get

def const (shape : List Nat) (v : T) : STensor T := ⟨shape, fun _ => v⟩

/-- the tensor whose `k`-th element in row-major order is `vs[k]`, or 0 past the end -/
def ofValues (vs : List T) (shape : List Nat) : STensor T :=
  ⟨shape, fun idx => vs.getD (offset shape idx) zero⟩

def map (f : T → T) (a : STensor T) : STensor T := ⟨a.shape, fun i => f (a.get i)⟩

def zip (f : T → T → T) (a b : STensor T) : STensor T := ⟨a.shape, fun i => f (a.get i) (b.get i)⟩

def transpose (a : STensor T) : STensor T := ⟨a.shape.reverse, fun i => a.get i.reverse⟩

/-- components `s ..< e` of dimension `d` -/
def slab (a : STensor T) (d s e : Nat) : STensor T :=
  ⟨a.shape.set d (e - s), fun i => a.get (i.modify d (· + s))⟩

/-- like `slab`, with `fill` where the source has no element -/
def slabFill (a : STensor T) (d s e : Nat) (fill : T) : STensor T :=
  ⟨a.shape.set d (e - s), fun i =>
    if i.getD d 0 + s < a.shape.getD d 0 then a.get (i.modify d (· + s)) else fill⟩

/-- `a` then `b` along dimension `d` -/
def concat (a b : STensor T) (d : Nat) : STensor T :=
  ⟨a.shape.modify d (· + b.shape.getD d 0), fun i =>
    if i.getD d 0 < a.shape.getD d 0 then a.get i
    else b.get (i.modify d (· - a.shape.getD d 0))⟩

/-- same elements in row-major order, new shape; 0 where the source has run out -/
def reshape (a : STensor T) (shape : List Nat) : STensor T := ofValues a.flat shape

/-- one number made of all elements -/
def reduce (r : List T → T) (a : STensor T) : STensor T := ⟨[1], fun _ => r a.flat⟩

/-- one number for each prefix of `d+1` index components, made of all elements with that prefix -/
def dimReduce (r : List T → T) (a : STensor T) (d : Nat) : STensor T :=
  ⟨a.shape.take (d + 1), fun pre =>
    r ((allIdx (a.shape.drop (d + 1))).map fun suf => a.get (pre ++ suf))⟩

/-- contraction of dimension `da` of `a` with dimension `db` of `b`; `sum` adds up a list -/
def dot (sum : List T → T) (a b : STensor T) (da db : Nat) : STensor T :=
  ⟨a.shape.eraseIdx da ++ b.shape.eraseIdx db, fun i =>
    let ia := i.take (a.shape.length - 1)
    let ib := i.drop (a.shape.length - 1)
    sum ((List.range (a.shape.getD da 0)).map fun k =>
      GoNum.mul (a.get (ia.insertIdx da k)) (b.get (ib.insertIdx db k)))⟩

/-- inner product of two vectors, as a one-element vector -/
def dotVec (sum : List T → T) (a b : STensor T) : STensor T :=
  ⟨[1], fun _ => sum ((List.range (a.shape.getD 0 0)).map fun k => GoNum.mul (a.get [k]) (b.get [k]))⟩

end STensor

/-- `((0 + x₀) + x₁) + ...` -/
def sum0 (vs : List T) : T := vs.foldl GoNum.add zero

/-- `(x₀ + x₁) + ...`, no leading 0 -/
def sum1 : List T → T
  | [] => zero
  | v :: vs => vs.foldl GoNum.add v

/-- running maximum by the type's `<` -/
def max1 : List T → T
  | [] => zero
  | v :: vs => vs.foldl (fun m a => if lt m a then a else m) v

/-- running minimum by the type's `<` -/
def min1 : List T → T
  | [] => zero
  | v :: vs => vs.foldl (fun m a => if lt a m then a else m) v

end Godeep.Spec
