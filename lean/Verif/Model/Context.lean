import Verif.Model.Go
/-
  `context/context.go`: the linked list operations are pushed onto.
-/
namespace Godeep

/-- `context/context.go:5-14` `node`, `Context`: `cells` are the nodes allocated so far
(operation, next), addressed by position; `start`, `end_` are nil or an address. -/
structure Ctx (α : Type) where
  size : Nat
  start : Option Nat
  end_ : Option Nat
  cells : List (α × Option Nat)

namespace Ctx
variable {α : Type}

/-- `context/context.go:16-18` `NewCTX` -/
def new : Ctx α := ⟨0, none, none, []⟩

/-- `context/context.go:20-32` `Push`.  `p.end.next = n` with a nil `p.end` panics. -/
def push (o : α) (c : Ctx α) : Out (Ctx α) Unit :=
  let n := c.cells.length
  let cells := c.cells ++ [(o, none)]
  match c.start with
  | none => .ok () ⟨c.size + 1, some n, some n, cells⟩
  | some _ =>
    match c.end_ with
    | none => .panic
    | some e =>
      .ok () { c with
        size := c.size + 1
        cells := cells.modify e fun x => (x.1, some n)
        end_ := some n }

/-- loop of `context/context.go:37-40` -/
def walk (cells : List (α × Option Nat)) : Nat → Option Nat → Res (List α)
  | 0, _ => .ok []
  | _ + 1, none => .panic
  | k + 1, some cur =>
    match cells[cur]? with
    | none => .panic
    | some (o, next) => (walk cells k next).map (o :: ·)

/-- `context/context.go:34-42` `GetOps` -/
def getOps (c : Ctx α) : Res (List α) := walk c.cells c.size c.start

/-- push a list of operations one after the other -/
def pushAll : List α → Ctx α → Out (Ctx α) Unit
  | [], c => .ok () c
  | o :: os, c => (c.push o).bind fun _ c' => pushAll os c'

end Ctx
end Godeep
