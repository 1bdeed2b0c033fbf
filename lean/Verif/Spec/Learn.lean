import Verif.Spec.Train
/-
  One training step of a sequential network with layers of any kind, as a function of weights, momenta,
  sample and rates.
-/
namespace Godeep.Spec
open Godeep GoNum

variable {T : Type} [GoNum T]

/-- `1` where `x` equals `y`, else `0` -/
def same (x y : T) : T := if eq x y then one else zero

/-! ### derivatives -/

/-- the derivative of a maximum: the derivatives `D` of the elements of the window that equal the maximum, added up -/
def maxPoolDer (sx sy : Nat) (x D : STensor T) : STensor T :=
  ⟨(maxPoolFn sx sy x).shape, fun idx =>
    sum1 ((window sx sy (x.shape.getD 1 0) (x.shape.getD 2 0) (idx.getD 1 0) (idx.getD 2 0)).map fun p =>
      GoNum.mul (D.get [idx.getD 0 0, p.1, p.2]) (same (x.get [idx.getD 0 0, p.1, p.2]) ((maxPoolFn sx sy x).get idx)))⟩

namespace LSpec

/-- the layer has weights and biases -/
def weighted : LSpec T → Bool
  | dense _ _ => true
  | conv _ _ _ _ _ _ => true
  | deconv _ _ _ _ _ _ => true
  | _ => false

/-- what a layer with weights computes before its activation -/
def neta : LSpec T → List (STensor T) → STensor T → STensor T
  | dense _ _, [w, b], x => denseFn id w b x
  | conv _ kw kh sx sy _, [w, b], x => convFn id kw kh sx sy w b x
  | deconv _ kw kh sx sy _, [w, b], x => deconvFn id kw kh sx sy w b x
  | _, _, x => x

/-- The derivative that the next layer multiplies its errors with; `D` is the one of the layer before.  For a
layer with weights it is the derivative of its activation. -/
def der : LSpec T → List (STensor T) → STensor T → STensor T → STensor T
  | dense n a, ps, x, _ => ((dense n a).neta ps x).map a.derive
  | conv n kw kh sx sy a, ps, x, _ => ((conv n kw kh sx sy a).neta ps x).map a.derive
  | deconv n kw kh sx sy a, ps, x, _ => ((deconv n kw kh sx sy a).neta ps x).map a.derive
  | flatten, _, _, D => D.reshape [size D.shape]
  | softMax, _, _, D => D
  | norm, _, _, D => D
  | eNorm, _, _, D => D
  | sub d f t, _, _, D => D.slab d f t
  | maxPool sx sy, _, x, D => maxPoolDer sx sy x D
  | upSampling s, _, _, D => upSamplingFn s s D

end LSpec

/-! ### errors of the layer before -/

/-- `0 + (d_0 w_0i + d_1 w_1i + ...) * D_i` -/
def denseBack (w d x D : STensor T) : STensor T :=
  ⟨x.shape, fun idx => GoNum.add zero (GoNum.mul
    (sum1 ((List.range (size d.shape)).map fun j => GoNum.mul (d.get [j]) (w.get [j, offset x.shape idx]))) (D.get idx))⟩

/-- `0` plus, over all output positions `(f, a, b)`, channels and kernel positions `(i, j)` with `a * sx + i` and `b * sy + j` the
position in the input, error times weight times `D` -/
def convBack (kw kh sx sy : Nat) (w d x D : STensor T) : STensor T :=
  ⟨x.shape, fun idx =>
    ((allIdx (d.shape ++ [x.shape.getD 0 0, kw, kh])).filter fun k => k.getD 3 0 = idx.getD 0 0 ∧
        k.getD 1 0 * sx + k.getD 4 0 = idx.getD 1 0 ∧ k.getD 2 0 * sy + k.getD 5 0 = idx.getD 2 0).foldl
      (fun s k => GoNum.add s (GoNum.mul (GoNum.mul (d.get (k.take 3))
        (w.get [k.getD 0 0, k.getD 3 0, k.getD 4 0, k.getD 5 0])) (D.get idx))) zero⟩

/-- `0 + (Σ error * weight) * D` over output channels and kernel positions -/
def deconvBack (kw kh sx sy : Nat) (w d x D : STensor T) : STensor T :=
  ⟨x.shape, fun idx => GoNum.add zero (GoNum.mul
    (sum1 ((allIdx [d.shape.getD 0 0, kw, kh]).map fun k => GoNum.mul
      (d.get [k.getD 0 0, idx.getD 1 0 * sx + k.getD 1 0, idx.getD 2 0 * sy + k.getD 2 0])
      (w.get [k.getD 0 0, idx.getD 0 0, k.getD 1 0, k.getD 2 0]))) (D.get idx))⟩

/-- `d * (max - min) / max |x|` -/
def normBack (min max : T) (d x : STensor T) : STensor T :=
  let s := max1 (x.flat.map fun v => if lt v zero then GoNum.neg v else v)
  d.map fun v => GoNum.div (GoNum.mul v (GoNum.sub max min)) s

/-- `d + 0` in the part that was taken, `0` elsewhere -/
def subBack (dim lo hi : Nat) (d x : STensor T) : STensor T :=
  ⟨x.shape, fun idx => if lo ≤ idx.getD dim 0 ∧ idx.getD dim 0 < hi
    then GoNum.add (d.get (idx.set dim (idx.getD dim 0 - lo))) zero else zero⟩

/-- `0 + d` where the element equals the maximum of its window, `0 + d * 0` at other elements of a window, `0` elsewhere -/
def maxPoolBack (sx sy : Nat) (d x : STensor T) : STensor T :=
  ⟨x.shape, fun idx =>
    let o := [idx.getD 0 0, idx.getD 1 0 / sx, idx.getD 2 0 / sy]
    if o.getD 1 0 < d.shape.getD 1 0 ∧ o.getD 2 0 < d.shape.getD 2 0
    then GoNum.add zero (GoNum.mul (d.get o) (same (x.get idx) ((maxPoolFn sx sy x).get o))) else zero⟩

/-- the sum over the copies of the element -/
def upSamplingBack (s : Nat) (d x : STensor T) : STensor T :=
  ⟨x.shape, fun idx => sum1 ((allIdx [s, s]).map fun k =>
    d.get [idx.getD 0 0, idx.getD 1 0 * s + k.getD 0 0, idx.getD 2 0 * s + k.getD 1 0])⟩

namespace LSpec

/-- The errors of the layer before, from the errors of this layer: `d`, or `r` after the division that `Flatten` layers
behind this layer cause. -/
def back : LSpec T → List (STensor T) → STensor T → STensor T → STensor T → STensor T → STensor T
  | dense _ _, [w, _], _, r, x, D => denseBack w r x D
  | flatten, _, d, _, x, _ => d.reshape x.shape
  | softMax, _, d, _, _, _ => d
  | norm, _, _, r, x, _ => normBack zero one r x
  | eNorm, _, _, r, x, _ => normBack (GoNum.neg one) one r x
  | sub i lo hi, _, _, r, x, _ => subBack i lo hi r x
  | conv _ kw kh sx sy _, [w, _], _, r, x, D => convBack kw kh sx sy w r x D
  | deconv _ kw kh sx sy _, [w, _], _, r, x, D => deconvBack kw kh sx sy w r x D
  | maxPool sx sy, _, _, r, x, _ => maxPoolBack sx sy r x
  | upSampling s, _, _, r, x, _ => upSamplingBack s r x
  | _, _, d, _, _, _ => d

end LSpec

/-! ### new weights -/

/-- `w + Σ d * alpha * x + 0 * momentum` over the output positions -/
def convWeights (sx sy : Nat) (alpha momentum : T) (d x w : STensor T) : STensor T :=
  ⟨w.shape, fun idx => sum1 [w.get idx,
    sum1 ((allIdx [d.shape.getD 1 0, d.shape.getD 2 0]).map fun o => GoNum.mul (GoNum.mul (d.get (idx.getD 0 0 :: o)) alpha)
      (x.get [idx.getD 1 0, o.getD 0 0 * sx + idx.getD 2 0, o.getD 1 0 * sy + idx.getD 3 0])),
    GoNum.mul zero momentum]⟩

/-- `w + Σ d * alpha * x + 0 * momentum` over the input positions -/
def deconvWeights (sx sy : Nat) (alpha momentum : T) (d x w : STensor T) : STensor T :=
  ⟨w.shape, fun idx => sum1 [w.get idx,
    sum1 ((allIdx [x.shape.getD 1 0, x.shape.getD 2 0]).map fun o => GoNum.mul
      (GoNum.mul (d.get [idx.getD 0 0, o.getD 0 0 * sx + idx.getD 2 0, o.getD 1 0 * sy + idx.getD 3 0]) alpha)
      (x.get (idx.getD 1 0 :: o))),
    GoNum.mul zero momentum]⟩

/-- the change of the biases of a convolution, `d * alpha + m * momentum`; `m` is the change in the step before -/
def biasStep (alpha momentum : T) (d m : STensor T) : STensor T :=
  (d.map fun v => GoNum.mul v alpha).zip GoNum.add (m.map fun v => GoNum.mul v momentum)

namespace LSpec

/-- the new weights and biases; `d`, `r` are the errors as in `back`, `ms` the last change of the biases of a convolution -/
def learned (alpha momentum : T) : LSpec T → List (STensor T) → List (STensor T) → STensor T → STensor T → STensor T → List (STensor T)
  | dense _ _, [w, b], _, _, r, x => [newWeights alpha momentum r x w, newBias alpha momentum r b]
  | conv _ _ _ sx sy _, [w, b], [m], d, _, x => [convWeights sx sy alpha momentum d x w, b.zip GoNum.add (biasStep alpha momentum d m)]
  | deconv _ _ _ sx sy _, [w, b], [m], d, _, x => [deconvWeights sx sy alpha momentum d x w, b.zip GoNum.add (biasStep alpha momentum d m)]
  | _, ps, _, _, _, _ => ps

/-- the change of the biases of a convolution -/
def changed (alpha momentum : T) : LSpec T → List (STensor T) → STensor T → List (STensor T)
  | conv _ _ _ _ _ _, [m], d => [biasStep alpha momentum d m]
  | deconv _ _ _ _ _ _, [m], d => [biasStep alpha momentum d m]
  | _, ms, _ => ms

/-- the shapes of what is remembered from the step before: the changes of the biases of a convolution -/
def momShapes : LSpec T → List Nat → List (List Nat)
  | conv nf kw kh sx sy a, s => [(conv nf kw kh sx sy a).outShape s]
  | deconv nf kw kh sx sy a, s => [(deconv nf kw kh sx sy a).outShape s]
  | _, _ => []

/-- Back-propagation through the layer follows the description above: the code for convolutions mixes up the two directions,
so the kernel and the step must be the same in both. -/
def bpFits : LSpec T → Prop
  | conv _ kw kh sx sy _ => kw = kh ∧ sx = sy
  | _ => True

/-- Evaluating the back-propagation of the layer cannot abort, for inputs of shape `s`. -/
def bpSafe : LSpec T → List Nat → Prop
  | dense n _, s => 0 < n ∨ size s = 0
  | norm, _ => ∀ x y : T, divPanics x y = false
  | eNorm, _ => ∀ x y : T, divPanics x y = false
  | deconv nf kw kh _ _ _, s => (0 < nf ∧ 0 < kw ∧ 0 < kh) ∨ s.getD 0 0 = 0
  | upSampling k, s => 0 < k ∨ size s = 0
  | _, _ => True

end LSpec

def LSpec.isFlatten : LSpec T → Bool
  | .flatten => true
  | _ => false

/-- the number of uses of a layer that is followed by `ls`: one, and one for each `Flatten` directly behind it -/
def uses (ls : List (LSpec T)) : T :=
  (ls.takeWhile LSpec.isFlatten).foldl (fun r _ => GoNum.add r (GoNum.add zero one)) (GoNum.add zero one)

/-- errors are divided by the number of uses if there is more than one -/
def shared (r : T) (d : STensor T) : STensor T := if lt one r then d.map fun v => GoNum.div v r else d

/-- The layers `ls` with weights `ps` and last changes `ms`, on input `x` which is the output of a layer with derivative `D`.
The result is the new weights of the layers, where only those marked in `ts` learn, the new changes, and the errors of the layer
before them: at the end of the network `y - x`. -/
def learn (alpha momentum : T) (y : STensor T) : List (LSpec T) → List Bool → List (List (STensor T)) → List (List (STensor T)) →
    STensor T → STensor T → List (List (STensor T)) × List (List (STensor T)) × STensor T
  | l :: ls, t :: ts, p :: ps, m :: ms, x, D =>
    let q := learn alpha momentum y ls ts ps ms (l.fn p x) (l.der p x D)
    let d := q.2.2
    let r := shared (uses ls) d
    ((if t then l.learned alpha momentum p m d r x else p) :: q.1, l.changed alpha momentum m d :: q.2.1, l.back p d r x D)
  | _, _, _, _, x, _ => ([], [], ⟨x.shape, fun idx => GoNum.sub (y.get idx) (x.get idx)⟩)

/-- the weights and last changes after one training step with sample `x`, `y` -/
def learnStep (alpha momentum : T) (ls : List (LSpec T)) (ts : List Bool) (s : List (List (STensor T)) × List (List (STensor T)))
    (x y : STensor T) : List (List (STensor T)) × List (List (STensor T)) :=
  let q := learn alpha momentum y ls ts s.1 s.2 x (x.map (Activation.linear : Activation T).derive)
  (q.1, q.2.1)

/-- What training with any sample needs, for inputs of shape `shape`: the convolutions are square (`bpFits`), nothing can abort,
the number of uses of a layer is not counted as zero, and there is at least one output. -/
structure CanLearn (shape : List Nat) (ls : List (LSpec T)) : Prop where
  bpf : ∀ s ∈ ls, s.bpFits
  bps : ∀ j (s : LSpec T), ls[j]? = some s → s.bpSafe (outShapes (ls.take j) shape)
  safe : Safe ls shape
  hz : ∀ j ≤ ls.length, eq (uses (ls.drop j)) zero = false
  dv : ∀ j ≤ ls.length, lt one (uses (ls.drop j)) = true → ∀ x y : T, divPanics x y = false
  szp : 0 < size (outShapes ls shape)

/-- the last changes before the first training step: zero -/
def noChange : List (LSpec T) → List Nat → List (List (STensor T))
  | l :: ls, s => ((l.momShapes s).map fun r => ⟨r, fun _ => zero⟩) :: noChange ls (l.outShape s)
  | [], _ => []

/-- the weights and last changes after training with the samples `picks`, one after the other -/
def learnAll (alpha momentum : T) (ls : List (LSpec T)) (ts : List Bool) (xs ys : Nat → STensor T) (picks : List Nat)
    (s : List (List (STensor T)) × List (List (STensor T))) : List (List (STensor T)) × List (List (STensor T)) :=
  picks.foldl (fun s k => learnStep alpha momentum ls ts s (xs k) (ys k)) s

/-- the drawn samples up to the first one of a wrong shape -/
def accepted (shape : List Nat) (ls : List (LSpec T)) (xs ys : Nat → STensor T) (picks : List Nat) : List Nat :=
  picks.takeWhile fun k => decide ((xs k).shape = shape ∧ (ys k).shape = outShapes ls shape)

/-- `Learnt … a mv`: state `a` is reached from the state `wb` after `CompileBackPropagation` of model `m` by trainings and uses
of `m` and by other parts of the program (see `TStep`), and `mv` are the changes that the biases of the convolutions got in
the last training step: zero before the first step; those of `learnStep` after a training step with a sample of the right
shapes; else what they were before. -/
inductive Learnt (w0 w1 wa wb : World T) (m : Nat) (shape : List Nat) (ls : List (LSpec T)) : World T → List (List (STensor T)) → Prop where
  | start : Learnt w0 w1 wa wb m shape ls wb (noChange ls shape)
  | one {a b : World T} {mv pv : List (List (STensor T))} {ts : List Bool} {tx ty : Nat} {x y : STensor T} {alpha momentum : T} :
      Learnt w0 w1 wa wb m shape ls a mv → Sample w0 w1 wa wb a tx x → Sample w0 w1 wa wb a ty y → x.shape = shape → y.shape = outShapes ls shape →
      HasParams a m pv → Trainable a m ts → Ends (NetM.trainOne m tx ty alpha momentum a) b →
      Learnt w0 w1 wa wb m shape ls b (learnStep alpha momentum ls ts (pv, mv) x y).2
  | reject {a b : World T} {mv : List (List (STensor T))} {tx ty : Nat} {x y : STensor T} {alpha momentum : T} :
      Learnt w0 w1 wa wb m shape ls a mv → Sample w0 w1 wa wb a tx x → Sample w0 w1 wa wb a ty y → ¬ (x.shape = shape ∧ y.shape = outShapes ls shape) →
      Ends (NetM.trainOne m tx ty alpha momentum a) b → Learnt w0 w1 wa wb m shape ls b mv
  | many {a b : World T} {mv pv : List (List (STensor T))} {ts : List Bool} {inputs targets : List Nat} {xs ys : Nat → STensor T}
      {epochs batch : Nat} {alpha momentum : T} {draw : Nat → Nat} :
      Learnt w0 w1 wa wb m shape ls a mv → inputs.length = targets.length → (∀ i t, inputs[i]? = some t → Sample w0 w1 wa wb a t (xs i)) →
      (∀ i t, targets[i]? = some t → Sample w0 w1 wa wb a t (ys i)) → HasParams a m pv → Trainable a m ts →
      Ends (NetM.train m inputs targets epochs batch alpha momentum draw a) b →
      Learnt w0 w1 wa wb m shape ls b
        (learnAll alpha momentum ls ts xs ys (accepted shape ls xs ys (drawn inputs.length epochs batch draw)) (pv, mv)).2
  | unequal {a b : World T} {mv : List (List (STensor T))} {inputs targets : List Nat} {epochs batch : Nat} {alpha momentum : T} {draw : Nat → Nat} :
      Learnt w0 w1 wa wb m shape ls a mv → inputs.length ≠ targets.length →
      Ends (NetM.train m inputs targets epochs batch alpha momentum draw a) b → Learnt w0 w1 wa wb m shape ls b mv
  | other {a b : World T} {mv : List (List (STensor T))} : Learnt w0 w1 wa wb m shape ls a mv → Other w0 w1 wa wb m a b →
      Learnt w0 w1 wa wb m shape ls b mv

end Godeep.Spec
