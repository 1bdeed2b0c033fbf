import Verif.Props.Branch
import Verif.Props.Predict
/-
  C66, C67: training of sequential models with layers other than dense ones.
-/
set_option linter.unusedSectionVars false

namespace Godeep.Props
open Godeep Spec GoNum

/-- the values of a tensor that may be nil -/
def valsOf {T : Type} (w : World T) (n : Option Nat) : List T := (cellsOf w n).map w.store.heap.val

/-- make and compile a model, prepare it for training -/
def trainable (shape : List Nat) (ls : List (LSpec Int)) : Run Int Nat := do
  let m ← compiled shape ls
  NetM.compileBP m
  return m

theorem flatten_check : (okAnd (trainable [1] [.dense 1 .linear] world2) fun m w =>
    valsOf w (w.layers 1).weights == [3] && valsOf w (w.layers 1).bias == [2] &&
      (okAnd (NetM.predict m 0 w) fun r w' => valsOf w' (some r) == [17]) &&
      okAnd (NetM.trainOne m 0 1 1 0 w) fun l w' => l == 6 && valsOf w' (w'.layers 1).weights == [-27] && valsOf w' (w'.layers 1).bias == [-4]) = true ∧
    (okAnd (trainable [1] [.dense 1 .linear, .flatten] world2) fun m w =>
    valsOf w (w.layers 1).weights == [3] && valsOf w (w.layers 1).bias == [2] &&
      (okAnd (NetM.predict m 0 w) fun r w' => valsOf w' (some r) == [17]) &&
      okAnd (NetM.trainOne m 0 1 1 0 w) fun l w' => l == 6 && valsOf w' (w'.layers 1).weights == [-12] && valsOf w' (w'.layers 1).bias == [-1]) = true := by
  constructor <;> decide +kernel

/-- C66 is false: A model with one dense layer, and the same model followed by a `Flatten` layer (which has nothing to do:
the output of a dense layer is flat).  They have the same weight and bias, 3 and 2, predict the same for the input 5, and
training both with this input, the target 11 and the same rates gives the same loss. The weight and bias become -27
and -4 without the `Flatten` layer (3 - 6 * 5 and 2 - 6, with 6 the error), but -12 and -1 with it: the step is halved. -/
theorem C66_flatten_changes_training : ∃ m w n v, trainable [1] [.dense 1 .linear] world2 = .ok m w ∧
    trainable [1] [.dense 1 .linear, .flatten] world2 = .ok n v ∧
    valsOf w (w.layers 1).weights = [3] ∧ valsOf w (w.layers 1).bias = [2] ∧
    valsOf v (v.layers 1).weights = [3] ∧ valsOf v (v.layers 1).bias = [2] ∧
    (∃ r w' s v', NetM.predict m 0 w = .ok r w' ∧ NetM.predict n 0 v = .ok s v' ∧ valsOf w' (some r) = [17] ∧ valsOf v' (some s) = [17]) ∧
    ∃ w' v', NetM.trainOne m 0 1 1 0 w = .ok 6 w' ∧ NetM.trainOne n 0 1 1 0 v = .ok 6 v' ∧
      valsOf w' (w'.layers 1).weights = [-27] ∧ valsOf w' (w'.layers 1).bias = [-4] ∧
      valsOf v' (v'.layers 1).weights = [-12] ∧ valsOf v' (v'.layers 1).bias = [-1] := by
  obtain ⟨h1, h2⟩ := flatten_check
  obtain ⟨m, w, e1, h1⟩ := okAnd_ok h1
  obtain ⟨n, v, e2, h2⟩ := okAnd_ok h2
  simp only [Bool.and_eq_true, beq_iff_eq] at h1 h2
  obtain ⟨⟨⟨a1, a2⟩, a3⟩, a4⟩ := h1
  obtain ⟨⟨⟨b1, b2⟩, b3⟩, b4⟩ := h2
  obtain ⟨r, w', e3, a3⟩ := okAnd_ok a3
  obtain ⟨s, v', e4, b3⟩ := okAnd_ok b3
  obtain ⟨l, w2, e5, a4⟩ := okAnd_ok a4
  obtain ⟨k, v2, e6, b4⟩ := okAnd_ok b4
  simp only [Bool.and_eq_true, beq_iff_eq] at a3 b3 a4 b4
  obtain ⟨⟨rfl, a5⟩, a6⟩ := a4
  obtain ⟨⟨rfl, b5⟩, b6⟩ := b4
  exact ⟨m, w, n, v, e1, e2, a1, a2, b1, b2, ⟨r, w', s, v', e3, e4, a3, b3⟩, w2, v2, e5, e6, a5, a6, b5, b6⟩

section
variable {T : Type} [GoNum T]

theorem denseFn_flat (act : T → T) (w b x : STensor T) : denseFn act w b (x.reshape [size x.shape]) = denseFn act w b x := by
  unfold denseFn
  congr 1
  funext idx
  congr 3
  have hs : (x.reshape [size x.shape]).shape = [size x.shape] := rfl
  rw [hs]
  have : size [size x.shape] = size x.shape := by simp [size]
  rw [this]
  refine List.map_congr_left fun j hj => ?_
  rw [List.mem_range] at hj
  congr 1
  show (x.reshape [size x.shape]).get (unflat [size x.shape] j) = _
  simp only [STensor.reshape, STensor.ofValues]
  rw [offset_unflat (by rw [this]; exact hj)]
  simp only [STensor.flat, List.getD_eq_getElem?_getD, List.getElem?_map, allIdx_getElem? hj, Option.map_some, Option.getD_some]

theorem netFn_append (l1 l2 : List (LSpec T)) (p1 p2 : List (List (STensor T))) (h : l1.length = p1.length) (x : STensor T) :
    netFn (l1 ++ l2) (p1 ++ p2) x = netFn l2 p2 (netFn l1 p1 x) := by
  induction l1 generalizing p1 x with
  | nil => cases p1 with
    | nil => rfl
    | cons _ _ => simp at h
  | cons l l1 ih => cases p1 with
    | nil => simp at h
    | cons p p1 =>
      simp only [List.length_cons, Nat.add_right_cancel_iff] at h
      exact ih p1 h _

/-- C66, for predictions: put a `Flatten` layer before any dense layer of any sequential model (`q` and `r` are the
weights of the layers before and after it).  For every input, the network computes the same. -/
theorem C66_predictions_partial (l1 l2 : List (LSpec T)) (n : Nat) (act : Activation T) (q r : List (List (STensor T))) (w b : STensor T)
    (h : l1.length = q.length) (x : STensor T) :
    netFn (l1 ++ .flatten :: .dense n act :: l2) (q ++ [] :: [w, b] :: r) x = netFn (l1 ++ .dense n act :: l2) (q ++ [w, b] :: r) x := by
  rw [netFn_append _ _ _ _ h, netFn_append _ _ _ _ h]
  show netFn l2 r (denseFn act.activate w b (STensor.reshape _ _)) = netFn l2 r (denseFn act.activate w b _)
  rw [denseFn_flat]
end

/-- a state with tensors of shapes `sx` and `sy` -/
def worldXY (sx sy : List Nat) : World Int where
  store := ⟨fun n => if n = 0 then ⟨.leaf, ⟨sx, indexMul sx, List.range' 1 (size sx)⟩, false⟩
      else ⟨.leaf, ⟨sy, indexMul sy, List.range' (1 + size sx) (size sy)⟩, false⟩, ⟨fun q => q + 2, 1 + size sx + size sy⟩, []⟩
  nodeNext := 2
  layers := fun _ => LayerM.blank .input
  layerNext := 0
  nets := fun _ => NetM.blankNet
  netNext := 0
  rnd := fun k _ => k + 2
  draws := 0

def isErr {σ α : Type} (o : Out σ α) : Bool :=
  match o with
  | .err _ _ => true
  | _ => false

theorem isErr_err {σ α : Type} {o : Out σ α} (h : isErr o = true) : ∃ e s, o = .err e s := by
  cases o with
  | ok a s => cases h
  | err e s => exact ⟨e, s, rfl⟩
  | panic => cases h

theorem conv_check : (okAnd (compiled [1, 2, 2] [.conv 1 2 1 1 1 .linear] (worldXY [1, 2, 2] [1, 1, 2])) fun m w =>
      (okAnd (NetM.predict m 0 w) fun r w' => valsOf w' (some r) == [26, 32]) && isErr (NetM.compileBP m w) && (w.nets m).bp.isNone) = true ∧
    (okAnd (compiled [1, 2, 1] [.conv 1 1 1 1 2 .linear] (worldXY [1, 2, 1] [1, 2, 1])) fun m w =>
      (okAnd (NetM.predict m 0 w) fun r w' => valsOf w' (some r) == [11, 14]) && isErr (NetM.compileBP m w) && (w.nets m).bp.isNone) = true := by
  constructor <;> decide +kernel

theorem trainOne_err {T : Type} [GoNum T] {m : Nat} {w w' : World T} {e : Err} (hn : (w.nets m).bp = none) (he : NetM.compileBP m w = .err e w') (tx ty : Nat)
    (alpha momentum : T) : NetM.trainOne m tx ty alpha momentum w = .err e w' := by
  show (match (w.nets m).bp with | none => _ | some _ => _ : Run T T) w = _
  rw [hn]
  show (NetM.compileBP m w).bind _ = _
  rw [he]; rfl

/-- C67 is false: A model with one convolution, with a kernel of size 2 by 1 and strides 1, for inputs of shape
`[1, 2, 2]`, and one with a kernel of size 1 by 1 and strides 1 and 2, for inputs of shape `[1, 2, 1]`.  They are compiled and
predict (26, 32 and 11, 14), but cannot be trained: `CompileBackPropagation` and `TrainOne` return an error, for all
tensors and rates. -/
theorem C67_conv_cannot_train :
    (∃ m w, compiled [1, 2, 2] [.conv 1 2 1 1 1 .linear] (worldXY [1, 2, 2] [1, 1, 2]) = .ok m w ∧
      (∃ r w', NetM.predict m 0 w = .ok r w' ∧ valsOf w' (some r) = [26, 32]) ∧
      ∃ e w', NetM.compileBP m w = .err e w' ∧ ∀ tx ty alpha momentum, NetM.trainOne m tx ty alpha momentum w = .err e w') ∧
    ∃ m w, compiled [1, 2, 1] [.conv 1 1 1 1 2 .linear] (worldXY [1, 2, 1] [1, 2, 1]) = .ok m w ∧
      (∃ r w', NetM.predict m 0 w = .ok r w' ∧ valsOf w' (some r) = [11, 14]) ∧
      ∃ e w', NetM.compileBP m w = .err e w' ∧ ∀ tx ty alpha momentum, NetM.trainOne m tx ty alpha momentum w = .err e w' := by
  obtain ⟨h1, h2⟩ := conv_check
  obtain ⟨m, w, e1, h1⟩ := okAnd_ok h1
  obtain ⟨n, v, e2, h2⟩ := okAnd_ok h2
  simp only [Bool.and_eq_true] at h1 h2
  obtain ⟨⟨a1, a2⟩, a3⟩ := h1
  obtain ⟨⟨b1, b2⟩, b3⟩ := h2
  obtain ⟨r, w', e3, a1⟩ := okAnd_ok a1
  obtain ⟨s, v', e4, b1⟩ := okAnd_ok b1
  obtain ⟨x, w2, a2⟩ := isErr_err a2
  obtain ⟨y, v2, b2⟩ := isErr_err b2
  exact ⟨⟨m, w, e1, ⟨r, w', e3, by simpa using a1⟩, x, w2, a2, trainOne_err (Option.isNone_iff_eq_none.1 a3) a2⟩,
    n, v, e2, ⟨s, v', e4, by simpa using b1⟩, y, v2, b2, trainOne_err (Option.isNone_iff_eq_none.1 b3) b2⟩

end Godeep.Props
