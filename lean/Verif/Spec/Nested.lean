import Verif.Spec.Net
import Verif.Model.Nested
/-
  Models made of blocks, that is of models that are pushed to other models.
-/
namespace Godeep.Spec
open Godeep GoNum

variable {T : Type} [GoNum T]

/-- a layer that is pushed to a model: an input layer with a shape, or another one -/
inductive Piece (T : Type) where
  | hidden (s : LSpec T)
  | input (shape : List Nat)

/-- its constructor -/
def Piece.create : Piece T → Run T Nat
  | hidden s => s.create
  | input shape => LayerM.newInput shape

/-- the layers that are not input layers -/
def hiddens : List (Piece T) → List (LSpec T)
  | [] => []
  | .hidden s :: qs => s :: hiddens qs
  | .input _ :: qs => hiddens qs

/-- how many input layers there are -/
def inputs : List (Piece T) → Nat
  | [] => 0
  | .hidden _ :: qs => inputs qs
  | .input _ :: qs => inputs qs + 1

/-- what the layers compute one after the other: input layers do nothing, whatever their shape; `pv`: the weights of each layer -/
def stackFn : List (Piece T) → List (List (STensor T)) → STensor T → STensor T
  | .hidden s :: qs, p :: pv, x => stackFn qs pv (s.fn p x)
  | .input _ :: qs, _ :: pv, x => stackFn qs pv x
  | _, _, x => x

/-- The shapes of the weights of each layer, for inputs of the given shape: an input layer has no weights. -/
def stackShapes : List (Piece T) → List Nat → List (List (List Nat))
  | [], _ => []
  | .hidden s :: qs, sh => s.paramShapes sh :: stackShapes qs (s.outShape sh)
  | .input _ :: qs, sh => [] :: stackShapes qs sh

/-- `1 + 1 + ... + 1`, as the code counts -/
def ones : Nat → T
  | 0 => add zero one
  | n + 1 => add (ones n) (add zero one)

/-- The program that makes a model with an input layer and pushes the given layers to it one by one. -/
def stacked (shape : List Nat) (qs : List (Piece T)) : Run T Nat := do
  let m ← NetM.newModel
  let i ← LayerM.newInput shape
  NetM.pushLayer m i
  Run.each qs fun q => do
    let l ← q.create
    NetM.pushLayer m l
  return m

/-- What is pushed to a model, in this order: layers, and models that are made of such parts themselves, to any depth. -/
inductive Parts (T : Type) where
  | nil
  | layer (s : Piece T) (rest : Parts T)
  | block (inner rest : Parts T)

namespace Parts

/-- the layers, without the blocks -/
def layers : Parts T → List (Piece T)
  | nil => []
  | layer s r => s :: r.layers
  | block b r => b.layers ++ r.layers

/-- no block is empty -/
def Full : Parts T → Prop
  | nil => True
  | layer _ r => r.Full
  | block b r => b ≠ nil ∧ b.Full ∧ r.Full

/-- how deep blocks are in blocks -/
def depth : Parts T → Nat
  | nil => 0
  | layer _ r => r.depth
  | block b r => max (b.depth + 1) r.depth

/-- the program that pushes the parts to model `m` -/
def push (m : Nat) : Parts T → NRun T Unit
  | nil => pure ()
  | layer s r => do
    let l ← NRun.lift s.create
    Nested.push m (.layer l)
    push m r
  | block b r => do
    let k ← NRun.lift NetM.newModel
    push k b
    Nested.push m (.model k)
    push m r

/-- Which layers the code lets `SetTrainable` reach; `head`: the parts are the first ones of a model. -/
def reached (head : Bool) : Parts T → List Bool
  | nil => []
  | layer _ r => (!head) :: r.reached false
  | block b r => (if head then b.layers.map fun _ => false else b.reached true) ++ r.reached false

end Parts

/-- the program that makes a model with an input layer and the given parts -/
def nested (shape : List Nat) (ps : Parts T) : NRun T Nat := do
  let m ← NRun.lift NetM.newModel
  let i ← NRun.lift (LayerM.newInput shape)
  Nested.push m (.layer i)
  ps.push m
  return m

/-- The states agree on everything but on models other than `m`. -/
structure Same (m : Nat) (w w' : World T) : Prop where
  store : w'.store = w.store
  nodeNext : w'.nodeNext = w.nodeNext
  layers : w'.layers = w.layers
  layerNext : w'.layerNext = w.layerNext
  rnd : w'.rnd = w.rnd
  draws : w'.draws = w.draws
  net : w'.nets m = w.nets m

/-- a call of a method of a model, or something else the program does between such calls -/
inductive Method (T : Type) where
  | compile
  | compileBackPropagation
  | predict (t : Nat)
  | resetIS
  | trainOne (x y : Nat) (alpha momentum : T)
  | train (xs ys : List Nat) (epochs batch : Nat) (alpha momentum : T) (draw : Nat → Nat)
  | string
  | resetSave
  | resetLoad
  | save (out : Sink)
  | load (bytes : List Byte)
  | zeros (shape : List Nat)
  | setValue (p : Nat) (v : T)
  | buildGraph (t : Nat)

/-- what the program sees of a call: the results, or the error -/
inductive Seen (T : Type) where
  | done
  | tensor (t : Nat)
  | value (v : T)
  | text (s : List Char)
  | written (out : Sink)
  | left (bytes : List Byte)
  | error (e : Err)
  | failedWrite (e : Err) (out : Sink)
  | failedRead (e : Err) (bytes : List Byte)

/-- what the program sees of running `c`; `none`: a panic -/
def seen {α : Type} (f : α → Seen T) (o : Out (World T) α) : Option (Seen T × World T) :=
  match o with
  | .ok a w => some (f a, w)
  | .err e w => some (.error e, w)
  | .panic => none

/-- a call of a method of model `m` -/
def Method.run [Bin T] (m : Nat) (w : World T) : Method T → Option (Seen T × World T)
  | .compile => seen (fun _ => .done) (NetM.compile m w)
  | .compileBackPropagation => seen (fun _ => .done) (NetM.compileBP m w)
  | .predict t => seen .tensor (NetM.predict m t w)
  | .resetIS => seen (fun _ => .done) (NetM.resetIS m w)
  | .trainOne x y a p => seen .value (NetM.trainOne m x y a p w)
  | .train xs ys n b a p draw => seen (fun _ => .done) (NetM.train m xs ys n b a p draw w)
  | .string => seen .text (NetM.string m w)
  | .resetSave => seen (fun _ => .done) (NetM.resetSave m w)
  | .resetLoad => seen (fun _ => .done) (NetM.resetLoad m w)
  | .save out =>
    match NetM.save m (w, out) with
    | .ok _ s => some (.written s.2, s.1)
    | .err e s => some (.failedWrite e s.2, s.1)
    | .panic => none
  | .load bytes =>
    match NetM.load m (w, bytes) with
    | .ok _ s => some (.left s.2, s.1)
    | .err e s => some (.failedRead e s.2, s.1)
    | .panic => none
  | .zeros shape => seen .tensor (Run.zeros shape w)
  | .setValue p v => seen (fun _ => .done) (Run.setValue p v w)
  | .buildGraph t => seen (fun _ => .done) (Run.buildGraph t w)

/-- any number of calls; after an error the program goes on -/
def runMethods [Bin T] (m : Nat) : List (Method T) → World T → Option (List (Seen T) × World T)
  | [], w => some ([], w)
  | c :: cs, w => (c.run m w).bind fun x => (runMethods m cs x.2).map fun y => (x.1 :: y.1, y.2)

end Godeep.Spec
