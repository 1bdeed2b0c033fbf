import Verif.Model.Op
/-
  `graph.Graph`: the operations of a graph are a Go slice, so two graphs may share a backing array.
  The model has arrays, slices with length and capacity, and `append` that writes in place when the
  capacity allows.
-/
namespace Godeep

/-- a Go slice `[]operation.Operation` that starts at the beginning of its array -/
structure OpSlice where
  arr : Nat
  len : Nat
  cap : Nat

/-- all backing arrays, and the slice (`Operations`) of every graph variable; arrays from `next` on
are not in use -/
structure GraphMem (α : Type) where
  array : Nat → Nat → α
  next : Nat
  graph : Nat → OpSlice

namespace GraphMem
variable {α : Type}

/-- the elements of a slice -/
def elems (m : GraphMem α) (s : OpSlice) : List α := (List.range s.len).map (m.array s.arr)

/-- `g.Operations` of a graph variable, as a list -/
def ops (m : GraphMem α) (g : Nat) : List α := m.elems (m.graph g)

/-- write `xs` into array `a` from position `i` on -/
def write (m : GraphMem α) (a i : Nat) (xs : List α) : GraphMem α :=
  { m with array := fun b k => if b = a ∧ i ≤ k ∧ k < i + xs.length then xs.getD (k - i) (m.array b k)
      else m.array b k }

/-- Go's `append(s, xs...)`: in place if it fits, otherwise a new array with `spare` elements more
than needed (Go chooses how many) -/
def append (m : GraphMem α) (s : OpSlice) (xs : List α) (spare : Nat) : GraphMem α × OpSlice :=
  if s.len + xs.length ≤ s.cap then (m.write s.arr s.len xs, ⟨s.arr, s.len + xs.length, s.cap⟩)
  else
    let all := m.elems s ++ xs
    ({ m.write m.next 0 all with next := m.next + 1 }, ⟨m.next, all.length, all.length + spare⟩)

/-- assign to a graph variable -/
def setGraph (m : GraphMem α) (g : Nat) (s : OpSlice) : GraphMem α :=
  { m with graph := fun k => if k = g then s else m.graph k }

/-- what a program does with graphs; `spare` as in `append` -/
inductive Act (α : Type) where
  /-- `graph/graph.go:14-25` `NewGraphFrom` and `NewGraph`; the slice is `make`d by
  `context/context.go:34-42` -/
  | new (g : Nat) (xs : List α)
  /-- `graph/graph.go:27-31` `NewEmptyGraph` -/
  | empty (g : Nat)
  /-- `graph/graph.go:33-37` `NewFromGraph` -/
  | copy (g from_ : Nat) (spare : Nat)
  /-- `graph/graph.go:39-41` `AddFromGraph` -/
  | add (g from_ : Nat) (spare : Nat)
  /-- `graph/graph.go:43-45` `PushOperations` -/
  | push (g : Nat) (xs : List α) (spare : Nat)

/-- one action (lines cited at the constructors) -/
def step (m : GraphMem α) : Act α → GraphMem α
  | .new g xs =>
    { ({ m.write m.next 0 xs with next := m.next + 1 }.setGraph g ⟨m.next, xs.length, xs.length⟩) with }
  | .empty g => { m with next := m.next + 1 }.setGraph g ⟨m.next, 0, 0⟩
  | .copy g f spare =>
    let r := { m with next := m.next + 1 }.append ⟨m.next, 0, 0⟩ (m.ops f) spare
    r.1.setGraph g r.2
  | .add g f spare =>
    let r := m.append (m.graph g) (m.ops f) spare
    r.1.setGraph g r.2
  | .push g xs spare =>
    let r := m.append (m.graph g) xs spare
    r.1.setGraph g r.2

/-- a whole history -/
def steps (m : GraphMem α) (acts : List (Act α)) : GraphMem α := acts.foldl step m

/-- before any action: every graph variable is an empty slice -/
def init (d : α) : GraphMem α := ⟨fun _ _ => d, 1, fun _ => ⟨0, 0, 0⟩⟩

end GraphMem
end Godeep
