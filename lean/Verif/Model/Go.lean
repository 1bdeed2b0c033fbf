/-
  Outcomes of Go calls and the numeric interface of the element types.
-/
namespace Godeep

/-- Structured errors.  Go returns formatted strings (`errors/error.go:1-14`); the model
keeps the numbers that go into them and drops the text. -/
inductive Err where
  /-- `tools/tools.go:39-45` "Invalid internal dimensions" -/
  | internalDims (shape mul : Nat)
  /-- `tools/tools.go:55-59` "Index %d at %d out of range %d" -/
  | indexRange (idx pos ext : Nat)
  /-- `tensor/tensor_mat.go:59-61` "Internal index %d out of range %d" -/
  | internalIndex (ind len : Nat)
  /-- `tools/tools.go:104-111` "Shapes with different dimensions" -/
  | rank (a b : Nat)
  /-- `tools/tools.go:112-114` "Different shapes %d and %d at %d" -/
  | extent (a b pos : Nat)
  /-- `tensor/tensor_mat.go:82-88`, `tensor/copy.go`: sizes differ -/
  | size (a b : Nat)
  /-- a dimension argument is not a dimension of the tensor -/
  | badDim (d dims : Nat)
  /-- a range argument is empty or leaves the tensor -/
  | badRange (s e ext : Nat)
  /-- any other error, identified by its message -/
  | other (msg : String)
  deriving DecidableEq, Repr

/-- Result of a Go call that does not touch the heap: a value, a returned `error`,
or a run-time panic. -/
inductive Res (α : Type) where
  | ok (a : α)
  | err (e : Err)
  | panic
  deriving DecidableEq, Repr

namespace Res
variable {α β : Type}

def bind : Res α → (α → Res β) → Res β
  | ok a, f => f a
  | err e, _ => err e
  | panic, _ => panic

def map (f : α → β) : Res α → Res β
  | ok a => ok (f a)
  | err e => err e
  | panic => panic

/-- Go slice access `s[i]`: out of range panics. -/
def index (l : List α) (i : Nat) : Res α :=
  match l[i]? with
  | some a => ok a
  | none => panic

/-- Run `f` over a list in order, stopping at the first error or panic. -/
def mapM (f : α → Res β) : List α → Res (List β)
  | [] => ok []
  | a :: l => (f a).bind fun b => (mapM f l).map (b :: ·)

@[simp] theorem bind_ok (a : α) (f : α → Res β) : (ok a).bind f = f a := rfl
@[simp] theorem bind_err (e : Err) (f : α → Res β) : (err e).bind f = err e := rfl
@[simp] theorem bind_panic (f : α → Res β) : (panic : Res α).bind f = panic := rfl
@[simp] theorem map_ok (a : α) (f : α → β) : (ok a).map f = ok (f a) := rfl
@[simp] theorem map_err (e : Err) (f : α → β) : (err e).map f = err e := rfl
@[simp] theorem map_panic (f : α → β) : (panic : Res α).map f = panic := rfl

end Res

/-- Outcome of a Go call that may change a state `σ` (heap, store, stream).
An `error` return keeps the state reached so far; a panic aborts the program. -/
inductive Out (σ α : Type) where
  | ok (a : α) (s : σ)
  | err (e : Err) (s : σ)
  | panic

namespace Out
variable {σ α β : Type}

def bind : Out σ α → (α → σ → Out σ β) → Out σ β
  | ok a s, f => f a s
  | err e s, _ => err e s
  | panic, _ => panic

def map (f : α → β) : Out σ α → Out σ β
  | ok a s => ok (f a) s
  | err e s => err e s
  | panic => panic

/-- a state-free result, run in state `s` -/
def ofRes (s : σ) : Res α → Out σ α
  | .ok a => ok a s
  | .err e => err e s
  | .panic => panic

/-- forget the state -/
def res : Out σ α → Res α
  | ok a _ => .ok a
  | err e _ => .err e
  | panic => .panic

@[simp] theorem bind_ok (a : α) (s : σ) (f : α → σ → Out σ β) : (ok a s).bind f = f a s := rfl
@[simp] theorem bind_err (e : Err) (s : σ) (f : α → σ → Out σ β) :
    (err e s).bind f = err e s := rfl
@[simp] theorem bind_panic (f : α → σ → Out σ β) : (panic : Out σ α).bind f = panic := rfl
@[simp] theorem map_ok (a : α) (s : σ) (f : α → β) : (ok a s).map f = ok (f a) s := rfl
@[simp] theorem map_err (e : Err) (s : σ) (f : α → β) : (err e s).map f = err e s := rfl
@[simp] theorem map_panic (f : α → β) : (panic : Out σ α).map f = panic := rfl
@[simp] theorem ofRes_ok (a : α) (s : σ) : ofRes s (.ok a) = ok a s := rfl
@[simp] theorem ofRes_err (e : Err) (s : σ) : (ofRes s (.err e) : Out σ α) = err e s := rfl
@[simp] theorem ofRes_panic (s : σ) : (ofRes s .panic : Out σ α) = panic := rfl
@[simp] theorem res_ok (a : α) (s : σ) : (ok a s).res = .ok a := rfl
@[simp] theorem res_err (e : Err) (s : σ) : (err e s : Out σ α).res = .err e := rfl
@[simp] theorem res_panic : (panic : Out σ α).res = .panic := rfl

end Out

/-- The element types of `types/types.go` (float32, float64, int, int16, int32, int64),
as operations with **no laws**: what is proved from `GoNum` alone holds for IEEE floats
and wrapping integers alike.

* `divPanics x y` : `x / y` aborts (Go: integer division by zero)
* `lt`, `eq` : the Go comparison operators (for floats `eq nan nan = false`)
* `ofNat n` : the conversion `T(n)` -/
class GoNum (T : Type) where
  zero : T
  one : T
  add : T → T → T
  sub : T → T → T
  mul : T → T → T
  div : T → T → T
  neg : T → T
  divPanics : T → T → Bool
  lt : T → T → Bool
  eq : T → T → Bool
  ofNat : Nat → T

namespace GoNum
variable {T : Type} [GoNum T]

/-- Go's `x / y` -/
def divR (x y : T) : Res T := if divPanics x y then .panic else .ok (div x y)

end GoNum

/-- Mathematical integers with Go's truncated division; used for concrete cases. -/
instance : GoNum Int where
  zero := 0
  one := 1
  add := (· + ·)
  sub := (· - ·)
  mul := (· * ·)
  div := Int.tdiv
  neg := (- ·)
  divPanics _ y := y == 0
  lt x y := decide (x < y)
  eq x y := decide (x = y)
  ofNat n := n

end Godeep
