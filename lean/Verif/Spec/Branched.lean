import Verif.Spec.Net
/-
  Models whose layers form a graph, as a user writes them, and the function they compute.
-/
namespace Godeep.Spec
open Godeep GoNum

variable {T : Type} [GoNum T]

/-- A layer of a model with branches, as the user asks for it.  Layers are numbered from 0, the input
layer, in the order in which they are made. -/
inductive BNode (T : Type) where
  /-- a new layer connected to layer number `p` -/
  | layer (s : LSpec T) (p : Nat)
  /-- `NewConcat` of layers number `i` and `j` -/
  | concat (i j dim : Nat)

namespace BNode

/-- the layers whose outputs this one reads -/
def reads : BNode T → List Nat
  | layer _ p => [p]
  | concat i j _ => [i, j]

/-- the constructor call, with the call of `Connect`; `ids` are the layers made so far -/
def create (ids : List Nat) : BNode T → Run T Nat
  | layer s p => do
    let l ← s.create
    LayerM.connect l (ids.getD p 0)
    return l
  | concat i j dim => LayerM.newConcat (ids.getD i 0) (ids.getD j 0) dim

/-- what the layer computes from the outputs `v` of the other layers; `ps` are its weights and biases,
if it has any -/
def fn (ps : List (STensor T)) (v : Nat → STensor T) : BNode T → STensor T
  | layer s p => s.fn ps (v p)
  | concat i j dim => (v i).concat (v j) dim

/-- the shape of the output, from the shapes `s` of the outputs of the other layers -/
def outShape (s : Nat → List Nat) : BNode T → List Nat
  | layer l p => l.outShape (s p)
  | concat i j dim => (s i).modify dim (· + (s j).getD dim 0)

/-- the layer accepts outputs of the other layers of shapes `s` -/
def fits (s : Nat → List Nat) : BNode T → Prop
  | layer l p => l.fits (s p)
  | concat i j dim => dim < (s i).length ∧ s j = (s i).set dim ((s j).getD dim 0)

/-- evaluating the layer cannot abort -/
def safe (s : Nat → List Nat) : BNode T → Prop
  | layer l p => l.safe (s p)
  | concat _ _ _ => True

/-- the shapes of its weights and biases -/
def paramShapes (s : Nat → List Nat) : BNode T → List (List Nat)
  | layer l p => l.paramShapes (s p)
  | concat _ _ _ => []

end BNode

/-- the layers that layer number `o` depends on; the first of `ns` is layer number 1 -/
inductive Needed (ns : List (BNode T)) (o : Nat) : Nat → Prop where
  | out : Needed ns o o
  | read {k p : Nat} {n : BNode T} : Needed ns o (k + 1) → ns[k]? = some n → p ∈ n.reads → Needed ns o p

/-- the outputs of all layers for input `x`, in the order of the layers; `pv` are the weights and
biases of the layers after the input layer -/
def graphVals (ns : List (BNode T)) (pv : List (List (STensor T))) (x : STensor T) : List (STensor T) :=
  (ns.zip pv).foldl (fun vs n => vs ++ [n.1.fn n.2 fun i => vs.getD i x]) [x]

/-- the output of layer number `o` for input `x` -/
def graphFn (ns : List (BNode T)) (o : Nat) (pv : List (List (STensor T))) (x : STensor T) : STensor T :=
  (graphVals ns pv x).getD o x

/-- the shapes of the outputs of all layers for inputs of shape `s` -/
def graphShapes (ns : List (BNode T)) (s : List Nat) : List (List Nat) :=
  ns.foldl (fun ss n => ss ++ [n.outShape fun i => ss.getD i []]) [s]

/-- every layer reads only layers made before it, and accepts their outputs -/
def GraphFits (ns : List (BNode T)) (s : List Nat) : Prop :=
  ∀ (k : Nat) (n : BNode T), ns[k]? = some n → (∀ p ∈ n.reads, p ≤ k) ∧ n.fits fun i => (graphShapes ns s).getD i []

/-- no layer can abort -/
def GraphSafe (ns : List (BNode T)) (s : List Nat) : Prop :=
  ∀ n ∈ ns, n.safe fun i => (graphShapes ns s).getD i []

/-- The program that makes a model with branches: `NewInput(shape)`, the constructor calls and
connections for each of `ns`, and `FromInOut` of the input layer and layer number `o`.  The result is
the model and its layers. -/
def branched (shape : List Nat) (ns : List (BNode T)) (o : Nat) : Run T (Nat × List Nat) := do
  let i ← LayerM.newInput shape
  let ids ← ns.foldlM (fun ids n => do
    let l ← n.create ids
    return ids ++ [l]) [i]
  let m ← NetM.fromInOut i (ids.getD o 0)
  return (m, ids)

/-- ... and compiles it -/
def branchedCompiled (shape : List Nat) (ns : List (BNode T)) (o : Nat) : Run T (Nat × List Nat) := do
  let m ← branched shape ns o
  NetM.compile m.1
  return m

/-- the weights and biases of the layers `ids` (the first is the input layer) have the values `pv` -/
def LayersHave (w : World T) (ids : List Nat) (pv : List (List (STensor T))) : Prop :=
  List.Forall₂ (List.Forall₂ (Holds w.store.heap)) (ids.tail.map (layerParams w)) pv

/-- What a program may do between two uses of a model `m` with branches whose layers are `ids`, that was
made in state `w0` and compiled in state `w1`: predict (also with inputs that are rejected), give the
weights and biases new values by whatever means, and do anything with tensors, layers and models that
are not part of `m`. -/
inductive BStep (w0 w1 : World T) (m : Nat) (ids : List Nat) : World T → World T → Prop where
  | predict {a b : World T} {t : Nat} {x : STensor T} : UserTensor w0 w1 a t x → Ends (NetM.predict m t a) b →
      BStep w0 w1 m ids a b
  | weights {a : World T} {h : Heap T} : h.next = a.store.heap.next →
      (∀ q, h.val q ≠ a.store.heap.val q → ∃ l ∈ ids, ∃ x ∈ layerParams a l, q ∈ x.ops) →
      BStep w0 w1 m ids a { a with store := { a.store with heap := h } }
  | elsewhere {a b : World T} : a.store.heap.next ≤ b.store.heap.next → a.nodeNext ≤ b.nodeNext →
      a.layerNext ≤ b.layerNext →
      (∀ n, n < w1.nodeNext → (b.store.nodes n).kind = (a.store.nodes n).kind) →
      (∀ n, n < w1.nodeNext → frozen a.store n → frozen b.store n ∧ (b.store.nodes n).mat = (a.store.nodes n).mat) →
      (∀ l, w0.layerNext ≤ l → l < w1.layerNext → b.layers l = a.layers l) → b.nets m = a.nets m →
      (∀ q, ¬ Outside w0 w1 q → b.store.heap.val q = a.store.heap.val q) →
      BStep w0 w1 m ids a b

/-- any number of such steps -/
inductive BSteps (w0 w1 : World T) (m : Nat) (ids : List Nat) : World T → World T → Prop where
  | none {a : World T} : BSteps w0 w1 m ids a a
  | more {a b c : World T} : BSteps w0 w1 m ids a b → BStep w0 w1 m ids b c → BSteps w0 w1 m ids a c

/-- `n` as the program counts the uses of a layer: `0 + 1 + ... + 1` -/
def counted : Nat → T
  | 0 => zero
  | n + 1 => add (counted n) one

end Godeep.Spec
