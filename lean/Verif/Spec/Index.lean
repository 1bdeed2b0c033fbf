import Mathlib.Data.List.Forall2
/-
  Specification vocabulary for shapes and multi-indices.
  Nothing here refers to strides, cells or to the model of the code.
-/
namespace Godeep.Spec

/-- `idx` addresses an element of a tensor of shape `shape`: same number of components,
each below its extent. -/
def InRange (shape idx : List Nat) : Prop := List.Forall₂ (· < ·) idx shape

/-- number of elements -/
def size : List Nat → Nat
  | [] => 1
  | s :: ss => s * size ss

/-- all in-range indices, last component fastest -/
def allIdx : List Nat → List (List Nat)
  | [] => [[]]
  | s :: ss => (List.range s).flatMap fun i => (allIdx ss).map (i :: ·)

/-- position of `idx` in row-major order -/
def offset : List Nat → List Nat → Nat
  | _ :: ss, i :: is => i * size ss + offset ss is
  | _, _ => 0

/-- the index at position `k` in row-major order -/
def unflat (shape : List Nat) : Nat → List Nat := fun k =>
  match shape with
  | [] => []
  | _ :: ss => k / size ss :: unflat ss (k % size ss)

/-- a mathematical tensor: extents and the value at each in-range index -/
structure STensor (T : Type) where
  shape : List Nat
  get : List Nat → T

end Godeep.Spec
