import Verif.Model.Tools
/-
  The scalar cells `*number.Scalar[T]` (`number/scalar.go`).
-/
namespace Godeep

/-- `Ptr` is written for `Nat` where a number is the address of a scalar cell;
0 is the nil pointer -/
macro "Ptr" : term => `(Nat)

/-- The scalar cells of the program.  `next` is the next address handed out by an
allocation, so addresses `1 .. next-1` are the allocated ones. -/
structure Heap (T : Type) where
  val : Ptr → T
  next : Ptr

namespace Heap
variable {T : Type}

/-- the heap before any allocation -/
def empty (d : T) : Heap T := ⟨fun _ => d, 1⟩

/-- Go `&number.Scalar[T]{Value: v}` -/
def alloc (h : Heap T) (v : T) : Ptr × Heap T :=
  (h.next, ⟨fun p => if p = h.next then v else h.val p, h.next + 1⟩)

/-- Go `p.Value` as an expression: nil pointers panic -/
def load (h : Heap T) (p : Ptr) : Res T := if p = 0 then .panic else .ok (h.val p)

/-- Go `p.Value = v`, on a pointer known not to be nil -/
def put (h : Heap T) (p : Ptr) (v : T) : Heap T :=
  ⟨fun q => if q = p then v else h.val q, h.next⟩

/-- Go `p.Value = v`: nil pointers panic -/
def store (h : Heap T) (p : Ptr) (v : T) : Out (Heap T) Unit :=
  if p = 0 then .panic else .ok () (h.put p v)

/-- Go `ops[i].Value` for a slice of pointers -/
def loadAt (h : Heap T) (ops : List Ptr) (i : Nat) : Res T :=
  (Res.index ops i).bind h.load

/-- values of a slice of pointers, in order -/
def loadAll (h : Heap T) (ops : List Ptr) : Res (List T) := Res.mapM h.load ops

/-- The loop `for i := range ... { ops[i] = &number.Scalar[T]{Value: f(i)} }`
that all immediate operations use: `f` is evaluated on the heap of that moment. -/
def allocEach {ι : Type} (f : ι → Heap T → Res T) : List ι → Heap T → Out (Heap T) (List Ptr)
  | [], h => .ok [] h
  | i :: l, h =>
    match f i h with
    | .ok v => (allocEach f l (h.alloc v).2).map ((h.alloc v).1 :: ·)
    | .err e => .err e h
    | .panic => .panic

/-- The loop `for i := range ... { ops[i].Value = f(i) }` -/
def storeEach {ι : Type} (f : ι → Heap T → Res (Ptr × T)) : List ι → Heap T → Out (Heap T) Unit
  | [], h => .ok () h
  | i :: l, h =>
    match f i h with
    | .ok (p, v) => (h.store p v).bind fun _ h' => storeEach f l h'
    | .err e => .err e h
    | .panic => .panic

end Heap
end Godeep
