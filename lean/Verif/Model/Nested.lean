import Verif.Model.ModelText
/-
  Models used as layers of other models (`model/model_layer.go`).

  A field of type `Layer` holds a layer or a model.  All methods of a model but `SetTrainable` call the same method of its
  last layer (`model/model_layer.go:13-38`, `model/model_layer.go:52-54`, `model/model_layer.go:60-70`,
  `model/model_layer.go:84-110`) or of its first layer (`model/model_layer.go:48-50`, `model/model_layer.go:76-82`).  So
  the fields `first`, `last` and `pre` of `Net` and `Layer` hold the layer that does the work in the end, found when
  `Push` is called.  (Simplification: nothing is pushed to a model that has been pushed to another one.)  What the fields hold in the
  code is in `Links`; `SetTrainable` depends on it.
-/
namespace Godeep
open GoNum

/-- a value of type `Layer` -/
inductive Item where
  | layer (l : Nat)
  | model (k : Nat)
  deriving DecidableEq

/-- `FirstLayer` and `LastLayer` of each model (`model/model.go:24-25`) and `PreLayer` of each layer (`layer/base.go:32`) -/
structure Links where
  first : Nat → Option Item
  last : Nat → Option Item
  pre : Nat → Option Item

/-- no model and no layer yet -/
def Links.empty : Links := ⟨fun _ => none, fun _ => none, fun _ => none⟩

/-- a Go function body, as `Run` -/
def NRun (T α : Type) := World T × Links → Out (World T × Links) α

namespace NRun
variable {T : Type} {α β : Type}

instance : Monad (NRun T) where
  pure a := fun s => .ok a s
  bind x f := fun s => (x s).bind f

/-- a function that does not touch the fields of type `Layer` -/
def lift (c : Run T α) : NRun T α := fun s =>
  match c s.1 with
  | .ok a w => .ok a (w, s.2)
  | .err e w => .err e (w, s.2)
  | .panic => .panic

end NRun

namespace Nested
open NRun
variable {T : Type} [GoNum T]

/-- the layer that the methods of the first layer of `i` reach -/
def firstLayer (w : World T) : Item → Option Nat
  | .layer l => some l
  | .model k => (w.nets k).first

/-- the layer that the methods of the last layer of `i` reach -/
def lastLayer (w : World T) : Item → Option Nat
  | .layer l => some l
  | .model k => (w.nets k).last

/-- `model/model.go:141-150` `Push` of a layer or a model, with `layer/base.go:185-187` and `model/model_layer.go:80-82` `Connect` -/
def push (m : Nat) (i : Item) : NRun T Unit := fun (w, L) =>
  match L.first m with
  | none => .ok () ({ w with nets := fun k => if k = m then { w.nets k with first := firstLayer w i, last := lastLayer w i } else w.nets k },
      { L with first := fun k => if k = m then some i else L.first k, last := fun k => if k = m then some i else L.last k })
  | some _ =>
    match firstLayer w i, L.last m with
    | some f, some j => .ok () ({ w with
          layers := fun l => if l = f then { w.layers l with pre := lastLayer w j } else w.layers l
          nets := fun k => if k = m then { w.nets k with last := lastLayer w i } else w.nets k },
        { L with pre := fun l => if l = f then some j else L.pre l, last := fun k => if k = m then some i else L.last k })
    | _, _ => .panic

/-- `layer/base.go:181-183` and `model/model_layer.go:76-78` `GetPrelayer` -/
def getPre (i : Item) : NRun T (Option Item) := fun s =>
  match firstLayer s.1 i with
  | some f => .ok (s.2.pre f) s
  | none => .panic

/-- the loop of `model/model_layer.go:40-46` `SetTrainable`; the first argument sets one layer -/
def setLoop (set : Item → NRun T Unit) (first : Option Item) : Nat → Option Item → NRun T Unit
  | 0, _ => fun _ => .panic
  | _ + 1, none => pure ()
  | n + 1, some cur =>
    if some cur = first then pure ()
    else do
      set cur
      let p ← getPre cur
      setLoop set first n p

/-- `layer/base.go:209-211` and `model/model_layer.go:40-46` `SetTrainable`.  The first argument bounds the depth of models in models. -/
def setTrainable (t : Bool) : Nat → Item → NRun T Unit
  | 0, _ => fun _ => .panic
  | _ + 1, .layer l => lift (LayerM.setTrainable l t)
  | n + 1, .model k => fun s => setLoop (setTrainable t n) (s.2.first k) (s.1.layerNext + s.1.netNext + 1) (s.2.last k) s

end Nested
end Godeep
