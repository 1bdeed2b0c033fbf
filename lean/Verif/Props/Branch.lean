import Verif.Lemmas.FitFrame
import Verif.Spec.Net
/-
  C44, C45: training of models with `Concat` layers.
-/
set_option linter.unusedSectionVars false

namespace Godeep.Props
open Godeep Spec GoNum

variable {T : Type} [GoNum T]

/-- C45, for models of any structure: `Train` and `TrainOne`, whatever their arguments, change only the weights and
biases of trainable layers that are on the path of previous layers from the last layer, and what the graphs of the
model compute. A `Concat` layer has no previous layer: this path does not reach the layers that feed it. -/
theorem C45_only_path {m : Nat} {a b : World T} (hbp : (a.nets m).bp ≠ none) (h : AnyTrains m a b) :
    b.layers = a.layers ∧ b.nets = a.nets ∧ b.store.nodes = a.store.nodes ∧
      ∀ q, b.store.heap.val q ≠ a.store.heap.val q → FitCell a m q ∨ WorkCell a m q := by
  obtain ⟨h', rfl, hv⟩ := anyTrains_frame hbp h
  exact ⟨rfl, rfl, rfl, fun q hq => by by_contra hc; exact hq (hv q hc)⟩

theorem trainOne_panic {m : Nat} {w : World T} (hn : (w.nets m).bp = none) (hp : NetM.compileBP m w = .panic) (tx ty : Nat) (alpha momentum : T) :
    NetM.trainOne m tx ty alpha momentum w = .panic := by
  show (match (w.nets m).bp with | none => _ | some _ => _ : Run T T) w = _
  rw [hn]
  show (NetM.compileBP m w).bind _ = _
  rw [hp]; rfl

/-- a state with two tensors of shape `[1]`, holding 5 and 11; random numbers are small positive numbers -/
def world2 : World Int where
  store := ⟨fun n => ⟨.leaf, ⟨[1], [1], [if n = 0 then 1 else 2]⟩, false⟩, ⟨fun q => if q = 1 then 5 else 11, 3⟩, []⟩
  nodeNext := 2
  layers := fun _ => LayerM.blank .input
  layerNext := 0
  nets := fun _ => NetM.blankNet
  netNext := 0
  rnd := fun k _ => k + 2
  draws := 0

/-- an input layer (layer 0), a dense layer (1), two dense layers that read it (2, 3), a `Concat` layer of the two (4), a
dense layer on top (5) -/
def branchLayers : Run Int (Nat × Nat × Nat) := do
  let i ← LayerM.newInput [1]
  let h ← LayerM.newDense 1 .linear
  LayerM.connect h i
  let a ← LayerM.newDense 1 .linear
  LayerM.connect a h
  let b ← LayerM.newDense 1 .linear
  LayerM.connect b h
  let c ← LayerM.newConcat a b 0
  let o ← LayerM.newDense 1 .linear
  LayerM.connect o c
  return (i, c, o)

/-- the model with all six layers, ready for training -/
def branchModel : Run Int Nat := do
  let (i, _, o) ← branchLayers
  let m ← NetM.fromInOut i o
  NetM.compile m
  NetM.compileBP m
  return m

/-- the model that ends with the `Concat` layer, compiled -/
def branchConcat : Run Int Nat := do
  let (i, c, _) ← branchLayers
  let m ← NetM.fromInOut i c
  NetM.compile m
  return m

def okAnd {σ α : Type} (o : Out σ α) (p : α → σ → Bool) : Bool :=
  match o with
  | .ok a s => p a s
  | _ => false

theorem okAnd_ok {σ α : Type} {o : Out σ α} {p : α → σ → Bool} (h : okAnd o p = true) : ∃ a s, o = .ok a s ∧ p a s = true := by
  cases o with
  | ok a s => exact ⟨a, s, rfl, h⟩
  | err e s => cases h
  | panic => cases h

def isPanic {σ α : Type} (o : Out σ α) : Bool :=
  match o with
  | .panic => true
  | _ => false

theorem isPanic_panic {σ α : Type} {o : Out σ α} (h : isPanic o = true) : o = .panic := by
  cases o with
  | ok a s => cases h
  | err e s => cases h
  | panic => rfl

/-- the scalars of a tensor that may be nil -/
def cellsOf (w : World T) (n : Option Nat) : List Ptr :=
  match n with
  | none => []
  | some n => (w.store.nodes n).mat.ops

def dstsOf (g : Option (List (Op T))) : List Ptr :=
  match g with
  | none => []
  | some g => dsts g

def workCells (w : World T) (m : Nat) : List Ptr :=
  cellsOf w (w.nets m).input ++ cellsOf w (w.nets m).target ++ [(w.nets m).alpha, (w.nets m).momentum] ++
    dstsOf (w.nets m).resetFit ++ dstsOf (w.nets m).ff ++ dstsOf (w.nets m).calDif ++ dstsOf (w.nets m).bp

theorem mem_workCells {w : World T} {m : Nat} {q : Ptr} (h : WorkCell w m q) : q ∈ workCells w m := by
  unfold workCells
  rcases h with ⟨n, h1 | h1, h2⟩ | h | h | ⟨g, r, h1, h2⟩
  · rw [h1]; simp [cellsOf, h2]
  · rw [h1]; simp [cellsOf, h2]
  · simp [h]
  · simp [h]
  · have : q ∈ dsts g := List.mem_filterMap.2 ⟨_, h2, rfl⟩
    rcases h1 with h1 | h1 | h1 | h1 <;> rw [h1] <;> simp [dstsOf, this]

/-- the weights and biases of layer `l` -/
def layerCells (w : World T) (l : Nat) : List Ptr := cellsOf w (w.layers l).weights ++ cellsOf w (w.layers l).bias

/-- layer `l` concatenates layers `a` and `b` -/
def isConcat (w : World T) (l a b : Nat) : Bool :=
  match (w.layers l).kind with
  | .concat x y _ => x == a && y == b
  | _ => false

def branchShape (m : Nat) (w : World Int) : Bool :=
  (w.nets m).last == some 5 && (w.layers 5).pre == some 4 && (w.layers 4).pre == none && isConcat w 4 2 3 && (w.layers 2).pre == some 1 &&
    (w.layers 3).pre == some 1 && (w.layers 1).pre == some 0 && (w.nets m).bp.isSome && ([1, 2, 3, 5].all fun l => (w.layers l).trainable && (layerCells w l).length ≥ 2) &&
    (layerCells w 4).isEmpty && ([1, 2, 3].all fun l => (layerCells w l).all fun q => !(workCells w m).contains q && !(layerCells w 5).contains q)

/-- all scalars of tensor `n` are 0 -/
def isZero (w : World Int) (n : Option Nat) : Bool := (cellsOf w n).all fun q => w.store.heap.val q == 0

theorem branch_check : (okAnd (branchModel world2) fun m w => branchShape m w && okAnd (NetM.trainOne m 0 1 1 0 w) fun l w2 =>
    l != 0 && ([1, 2, 3].all fun l => !isZero w2 (w2.layers l).dif) && ((layerCells w 5).all fun q => w2.store.heap.val q != w.store.heap.val q) &&
      okAnd (NetM.run (w2.nets m).resetFit w2) fun _ w3 => !isZero w3 (w3.layers 1).dif) = true := by
  decide +kernel

/-- C45 is false: There is a model with a `Concat` layer, whose layers are all trainable, where no training whatsoever
changes the weights and biases of the layers that feed the `Concat` layer (layers 1, 2, 3).  This is so although there are
training steps with a loss that is not 0 and with error terms of these layers that are not 0: such a step changes the
weights of the last layer only.  Error terms of layers before the `Concat` layer are not reset by what resets the model. -/
theorem C45_branches_not_trained : ∃ m w, branchModel world2 = .ok m w ∧
    (w.nets m).last = some 5 ∧ (w.layers 5).pre = some 4 ∧ isConcat w 4 2 3 = true ∧ (w.layers 2).pre = some 1 ∧ (w.layers 3).pre = some 1 ∧
    (∀ l ∈ [1, 2, 3, 5], (w.layers l).trainable = true ∧ layerCells w l ≠ []) ∧
    (∀ b, AnyTrains m w b → ∀ l ∈ [1, 2, 3], ∀ q ∈ layerCells w l, b.store.heap.val q = w.store.heap.val q) ∧
    ∃ loss w2, NetM.trainOne m 0 1 1 0 w = .ok loss w2 ∧ loss ≠ 0 ∧
      (∀ l ∈ [1, 2, 3], ∃ q ∈ cellsOf w2 (w2.layers l).dif, w2.store.heap.val q ≠ 0) ∧
      (∀ q ∈ layerCells w 5, w2.store.heap.val q ≠ w.store.heap.val q) ∧
      ∃ w3, NetM.run (w2.nets m).resetFit w2 = .ok () w3 ∧ ∃ q ∈ cellsOf w3 (w3.layers 1).dif, w3.store.heap.val q ≠ 0 := by
  obtain ⟨m, w, e, h⟩ := okAnd_ok branch_check
  rw [Bool.and_eq_true] at h
  obtain ⟨h, h2⟩ := h
  obtain ⟨loss, w2, e2, h2⟩ := okAnd_ok h2
  simp only [branchShape, Bool.and_eq_true, beq_iff_eq, List.all_eq_true, decide_eq_true_eq, Bool.not_eq_true', List.contains_eq_mem, decide_eq_false_iff_not,
    bne_iff_ne, ne_eq] at h h2
  obtain ⟨⟨⟨⟨⟨⟨⟨⟨⟨⟨a1, a2⟩, a3⟩, a4⟩, a5⟩, a6⟩, a7⟩, a8⟩, a9⟩, a10⟩, a11⟩ := h
  obtain ⟨⟨⟨b1, b2⟩, b3⟩, b4⟩ := h2
  obtain ⟨_, w3, e3, b4⟩ := okAnd_ok b4
  have path : ∀ k, OnPath w 5 k → k = 5 ∨ k = 4 := by
    intro k hk
    induction hk with
    | here => exact .inl rfl
    | pre _ hp ih =>
      rcases ih with rfl | rfl
      · rw [a2] at hp; cases hp; exact .inr rfl
      · rw [a3] at hp; cases hp
  have nz : ∀ (w : World Int) n, isZero w n = false → ∃ q ∈ cellsOf w n, w.store.heap.val q ≠ 0 := by
    intro w n hz
    by_contra hc
    push Not at hc
    have : isZero w n = true := List.all_eq_true.2 fun q hq => by simp [hc q hq]
    rw [hz] at this; cases this
  refine ⟨m, w, e, a1, a2, a4, a5, a6, fun l hl => ⟨(a9 l hl).1, fun h0 => ?_⟩, fun b hb l hl q hq => ?_, loss, w2, e2, b1, fun l hl => nz _ _ (b2 l hl), b3, w3, e3, ?_⟩
  · have := (a9 l hl).2
    rw [h0] at this; simp at this
  · obtain ⟨_, _, _, hv⟩ := C45_only_path (by intro h0; rw [h0] at a8; cases a8) hb
    by_contra hc
    obtain ⟨g1, g2⟩ := a11 l hl q hq
    rcases hv q hc with ⟨l', k, n, c1, c2, c3, c4, c5⟩ | h
    · rw [a1] at c1; cases c1
      have hk : k = 5 ∨ k = 4 := path k c2
      have : q ∈ layerCells w k := by
        unfold layerCells cellsOf
        rcases c4 with c4 | c4 <;> rw [c4] <;> simp [c5]
      rcases hk with rfl | rfl
      · exact g2 this
      · rw [List.isEmpty_iff.1 a10] at this; cases this
    · exact g1 (mem_workCells h)
  · simp only [Bool.not_eq_true'] at b4
    exact nz _ _ b4

/-- C44, the part that is false: on the same model `SetTrainable(false)` leaves the layers before the `Concat` layer
trainable -/
theorem C44_stops_at_concat : ∃ m w w', branchModel world2 = .ok m w ∧ NetM.setTrainable m false w = .ok () w' ∧
    (∀ l ∈ [1, 2, 3], (w'.layers l).trainable = true) ∧ (w'.layers 5).trainable = false := by
  have h : (okAnd (branchModel world2) fun m w => okAnd (NetM.setTrainable m false w) fun _ w' =>
      ([1, 2, 3].all fun l => (w'.layers l).trainable) && !(w'.layers 5).trainable) = true := by decide +kernel
  obtain ⟨m, w, e, h⟩ := okAnd_ok h
  obtain ⟨_, w', e', h⟩ := okAnd_ok h
  simp only [Bool.and_eq_true, List.all_eq_true, Bool.not_eq_true'] at h
  exact ⟨m, w, w', e, e', h.1, h.2⟩

/-- C45: a model that ends with a `Concat` layer can predict, but `CompileBackPropagation` and `TrainOne` panic -/
theorem C45_concat_last_panics : ∃ m w, branchConcat world2 = .ok m w ∧ (∃ r w', NetM.predict m 0 w = .ok r w') ∧
    NetM.compileBP m w = .panic ∧ ∀ alpha momentum, NetM.trainOne m 0 1 alpha momentum w = .panic := by
  have h : (okAnd (branchConcat world2) fun m w => (okAnd (NetM.predict m 0 w) fun _ _ => true) && isPanic (NetM.compileBP m w) &&
      (w.nets m).bp.isNone) = true := by decide +kernel
  obtain ⟨m, w, e, h⟩ := okAnd_ok h
  simp only [Bool.and_eq_true] at h
  obtain ⟨⟨h1, h2⟩, h3⟩ := h
  obtain ⟨r, w', e', _⟩ := okAnd_ok h1
  have hp := isPanic_panic h2
  refine ⟨m, w, e, ⟨r, w', e'⟩, hp, fun alpha momentum => ?_⟩
  exact trainOne_panic (Option.isNone_iff_eq_none.1 h3) hp 0 1 alpha momentum

end Godeep.Props
