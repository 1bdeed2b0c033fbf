import Verif.Spec.Program
/-
  Several programs, or several parts of one, that make calls in turns.  They exchange tensors and numbers; layers and models
  each of them has for itself.
-/
namespace Godeep.Spec
open Godeep GoNum

variable {T : Type} [GoNum T]

/-- the numbers on their own that a tensor call uses -/
def Call.scalars : Call T → List Ptr
  | .addScalar _ p | .subScalar _ p | .mulScalar _ p | .divScalar _ p => [p]
  | _ => []

/-- the numbers on their own that a call uses -/
def Act.scalars : Act T → List Ptr
  | tensor c | now _ c => c.scalars
  | setScalar p _ | fill _ p | fillWith _ p => [p]
  | _ => []

/-- what the others get from a call -/
def Env.see (e : Env) : Ret → Env
  | .tensor n => { e with tensors := n :: e.tensors }
  | .scalar p => { e with scalars := p :: e.scalars }
  | _ => e

/-- what each part has after a call of part `i` -/
def share (e : Nat → Env) (i : Nat) (r : Ret) : Nat → Env := fun j => if j = i then (e j).add r else (e j).see r

/-- Calls of the parts in `who` lead from one state to another: `e i` is what part `i` has got.  Each call uses what its part
has got. -/
inductive Turns [Bin T] (who : Nat → Prop) : (Nat → Env) → World T → (Nat → Env) → World T → Prop
  | refl (e : Nat → Env) (w : World T) : Turns who e w e w
  | ok {e0 e : Nat → Env} {w0 w w' : World T} {i : Nat} {c : Act T} {r : Ret} : Turns who e0 w0 e w → who i → c.uses (e i) →
      (∀ p ∈ c.scalars, p ∈ (e i).scalars) → c.run w = .ok r w' → Turns who e0 w0 (share e i r) w'
  | err {e0 e : Nat → Env} {w0 w w' : World T} {i : Nat} {c : Act T} {x : Err} : Turns who e0 w0 e w → who i → c.uses (e i) →
      (∀ p ∈ c.scalars, p ∈ (e i).scalars) → c.run w = .err x w' → Turns who e0 w0 e w'

/-- the states that parts reach by turns -/
def Shared [Bin T] (e : Nat → Env) (w : World T) : Prop := ∃ rnd, Turns (fun _ => True) (fun _ => {}) (start rnd) e w

/-- shape and elements of a tensor; an element may be nil -/
def elements (w : World T) (a : Mat) : List Nat × List (Option T) :=
  (a.shape, a.ops.map fun p => if p = 0 then none else some (w.store.heap.val p))

/-- … of tensor `n` -/
def tensorElements (w : World T) (n : Nat) : List Nat × List (Option T) := elements w (w.store.nodes n).mat

/-- … of each tensor of weights that a layer has -/
def weightElements (w : World T) (l : Nat) : List (List Nat × List (Option T)) := (ownTensors w l).map (elements w)

/-- a tensor that part `i` has in the first state, and one that it has in the second state, with the same shape and elements -/
def Like (e e' : Nat → Env) (i : Nat) (w w' : World T) (x x' : Nat) : Prop := x ∈ (e i).tensors ∧ x' ∈ (e' i).tensors ∧ tensorElements w' x' = tensorElements w x

/-- two calls end in the same way: both return and `R` holds, both return the same error and `E` holds, or both panic -/
def SameEnd {α : Type} (R : α → World T → α → World T → Prop) (E : World T → World T → Prop) : Out (World T) α → Out (World T) α → Prop
  | .ok a w, .ok b w' => R a w b w'
  | .err x w, .err y w' => x = y ∧ E w w'
  | .panic, .panic => True
  | _, _ => False

end Godeep.Spec
