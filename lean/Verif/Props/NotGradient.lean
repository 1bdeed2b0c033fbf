import Verif.Props.Descent
/-
  C69, what is false: training through `Norm` and `SoftMax` layers does not follow the gradient, and `Flatten` layers make steps smaller.
-/
set_option linter.unusedSectionVars false

namespace Godeep.Props
open Godeep Spec

/-- a layer of kind `Flatten`, `Norm`, `ENorm` or `SoftMax` -/
def plain : LSpec ℝ → Prop
  | .flatten => True
  | .norm => True
  | .eNorm => True
  | .softMax => True
  | _ => False

theorem plain_shapes {l : LSpec ℝ} (h : plain l) : (∀ s, l.paramShapes s = []) ∧ (∀ s, l.momShapes s = []) ∧ ∀ n, l.outShape [n] = [n] := by
  cases l <;> first | exact h.elim | exact ⟨fun _ => rfl, fun _ => rfl, fun n => by simp [LSpec.outShape, size]⟩

theorem plain_can {l : LSpec ℝ} (h : plain l) {n : Nat} (hn : 0 < n) : Fits [.dense n .linear, l] [1] ∧ CanLearn [1] [.dense n .linear, l] := by
  have h1 : GoNum.eq (GoNum.add GoNum.zero GoNum.one) (GoNum.zero : ℝ) = false := real_law.1
  have h2 : GoNum.eq (GoNum.add (GoNum.add GoNum.zero GoNum.one) (GoNum.add GoNum.zero GoNum.one)) (GoNum.zero : ℝ) = false := by
    show decide ((0 + 1 + (0 + 1) : ℝ) = 0) = false
    norm_num
  have dv : ∀ x y : ℝ, GoNum.divPanics x y = false := fun _ _ => rfl
  cases l <;> first | exact h.elim | skip
  all_goals refine ⟨by simp [Fits, LSpec.fits], ⟨by simp [LSpec.bpFits], fun j s hs => ?_, by simp [Safe, LSpec.safe, LSpec.outShape, size, dv, hn.ne'], fun j hj => ?_,
    fun _ _ _ => dv, by simp [outShapes, LSpec.outShape, size, hn]⟩⟩
  all_goals first
    | (have hj : j ≤ 2 := hj
       interval_cases j <;> simp [uses, LSpec.isFlatten, List.takeWhile, h1, h2])
    | (rcases j with _ | _ | j <;> simp at hs <;> subst hs <;> simp [LSpec.bpSafe, dv, hn])

theorem shared_nil (d : STensor ℝ) : shared (uses []) d = d := by
  obtain ⟨h1, h2⟩ := shared_real [] d
  exact tensor_ext h1 (funext fun i => by rw [h2]; simp [behind])

attribute [local irreducible] compiled NetM.compileBP NetM.trainOne in
/-- one training step of a dense layer on one input, with a layer `l` behind it -/
theorem two_step {l : LSpec ℝ} (h : plain l) {n : Nat} (hn : 0 < n) {w0 : World ℝ} (hpos : 0 < w0.store.heap.next) :
    ∃ m w1, compiled [1] [.dense n .linear, l] w0 = .ok m w1 ∧ ∀ wa, Steps w0 w1 m w1 wa →
      ∃ wb, NetM.compileBP m wa = .ok () wb ∧ ∀ a, TSteps w0 w1 wa wb m wb a →
        ∀ tx ty x y alpha momentum pv ts, Sample w0 w1 wa wb a tx x → Sample w0 w1 wa wb a ty y → x.shape = [1] → y.shape = [n] →
          HasParams a m pv → Trainable a m ts → ts[0]? = some true →
          ∃ w b, pv = [[w, b], []] ∧ w.shape = [n, 1] ∧ b.shape = [n] ∧ ∃ r c w' b', NetM.trainOne m tx ty alpha momentum a = .ok r c ∧ HasParams c m [[w', b'], []] ∧
            ∀ o d, o = netFn [.dense n .linear, l] pv x → d = (⟨o.shape, fun i => y.get i - o.get i⟩ : STensor ℝ) → ∀ i < n,
            w'.get [i, 0] = w.get [i, 0] + alpha * ((l.back [] d d (denseFn id w b x) ((denseFn id w b x).map fun _ => 1)).get [i] / behind [l] * x.get [0]) := by
  obtain ⟨hfit, hcan⟩ := plain_can h hn
  obtain ⟨p1, p2, p3⟩ := plain_shapes h
  obtain ⟨m, w1, e1, d, L, D, H⟩ := gprepared (shape := [1]) (w0 := w0) real_law.1 hfit hcan hpos
  refine ⟨m, w1, e1, fun wa s => ?_⟩
  obtain ⟨wb, e, e2, N⟩ := H wa s
  refine ⟨wb, e2, fun a hs tx ty x y alpha momentum pv ts sx sy hx hy hp ht ht0 => ?_⟩
  obtain ⟨mv, hs⟩ := learnt_steps N hs
  obtain ⟨A, hm⟩ := learnt_live N hs
  obtain ⟨hlen, hds, hmom⟩ := learnt_shapes N A hm hp
  obtain ⟨h', r1, r2, r3, r4⟩ := N.trainOne A sx sy hx (hy.trans (p3 n).symm) alpha momentum hp hm
  rw [← (A.flags N).1 ht] at r3
  have hts : ts.length = 2 := by rw [(A.flags N).1 ht]; simp
  obtain ⟨t0, t1, rfl⟩ := List.length_eq_two.1 hts
  simp only [List.getElem?_cons_zero, Option.some.injEq] at ht0
  subst ht0
  obtain ⟨q0, q1, rfl⟩ := List.length_eq_two.1 (show pv.length = 2 from hlen)
  have g1 : q0.map STensor.shape = [[n, 1], [n]] := hds.1
  have g2 : q1.map STensor.shape = l.paramShapes [n] := hds.2.1
  rw [p1, List.map_eq_nil_iff] at g2
  subst g2
  obtain ⟨w, b, rfl, hw, hb⟩ := pair_of g1
  obtain ⟨m0, m1, rfl⟩ := List.length_eq_two.1 (show mv.length = 2 from hm.len)
  have g3 : m0 = [] := by simpa [LSpec.momShapes] using hmom 0 _ rfl
  have g4 : m1 = [] := by simpa [p2] using hmom 1 l rfl
  subst g3 g4
  have hlast : ∀ (t : Bool) d r x, (if t then l.learned alpha momentum [] [] d r x else []) = ([] : List (STensor ℝ)) := fun t d r x => by
    cases l <;> first | exact h.elim | (cases t <;> rfl)
  obtain ⟨u, hu⟩ : ∃ u, u = denseFn (Activation.linear : Activation ℝ).activate w b x := ⟨_, rfl⟩
  obtain ⟨D0, hD0⟩ : ∃ D0, D0 = (denseFn id w b x).map (Activation.linear : Activation ℝ).derive := ⟨_, rfl⟩
  obtain ⟨g, hg⟩ : ∃ g, g = (learn alpha momentum y [l] [t1] [[]] [[]] u D0).2.2 := ⟨_, rfl⟩
  have e : (learnStep alpha momentum [.dense n .linear, l] [true, t1] ([[w, b], []], [[], []]) x y).1 =
      [[newWeights alpha momentum (shared (uses [l]) g) x w, newBias alpha momentum (shared (uses [l]) g) b], if t1 then l.learned alpha momentum [] []
        (learn alpha momentum y [] [] [] [] (l.fn [] u) (l.der [] u D0)).2.2 (shared (uses []) (learn alpha momentum y [] [] [] [] (l.fn [] u) (l.der [] u D0)).2.2) u else []] := by
    rw [hg, hD0, hu]; rfl
  rw [e, hlast] at r3
  refine ⟨w, b, rfl, hw, hb, _, _, _, _, r1, r3, fun o d ho hd i hi => ?_⟩
  have hd2 : (learn alpha momentum y [] [] [] [] (l.fn [] u) (l.der [] u D0)).2.2 = d := by
    rw [hd, ho, hu]; rfl
  have hg2 : g = l.back [] d d u D0 := by
    have : g = l.back [] (learn alpha momentum y [] [] [] [] (l.fn [] u) (l.der [] u D0)).2.2 (shared (uses []) (learn alpha momentum y [] [] [] [] (l.fn [] u) (l.der [] u D0)).2.2) u D0 := hg
    rw [this, hd2, shared_nil]
  have hxs : unflat x.shape 0 = [0] := by rw [hx]; rfl
  show sum1 [w.get [i, 0], 0 * momentum, (shared (uses [l]) g).get [i] * alpha * x.get (unflat x.shape 0)] = _
  rw [sum1_real, (shared_real [l] g).2, hxs, hg2, hu, hD0]
  simp only [List.sum_cons, List.sum_nil]
  rw [zero_mul, zero_add, add_zero, mul_comm _ alpha, mul_assoc]
  rfl

theorem flat_one {A : STensor ℝ} (h : A.shape = [1]) : A.flat = [A.get [0]] := by
  show (allIdx A.shape).map A.get = _
  rw [h]; rfl

theorem flat_two {A : STensor ℝ} (h : A.shape = [2]) : A.flat = [A.get [0], A.get [1]] := by
  show (allIdx A.shape).map A.get = _
  rw [h]; rfl

/-- what neuron `i` of a dense layer with one input computes -/
def neuron (w b x : STensor ℝ) (i : Nat) : ℝ := x.get [0] * w.get [i, 0] + b.get [i]

theorem neuron_eq {w b x : STensor ℝ} (hx : x.shape = [1]) (i : Nat) : (denseFn id w b x).get [i] = neuron w b x i := by
  rw [dense_real, hx]
  simp [size, neuron]
  exact Or.inl rfl

theorem neuron_put {w b x : STensor ℝ} (v : ℝ) : neuron (w.put [0, 0] v) b x 0 = x.get [0] * v + b.get [0] ∧ neuron (w.put [0, 0] v) b x 1 = neuron w b x 1 :=
  ⟨rfl, rfl⟩

theorem two_net (l : LSpec ℝ) (n : Nat) (w b x : STensor ℝ) : netFn [.dense n .linear, l] [[w, b], []] x = l.fn [] (denseFn id w b x) := rfl

/-- C69 is false of `Norm`: the model of one linear neuron with a `Norm` layer behind it.  In every state between trainings, for every sample where the
neuron computes something other than zero, the prediction does not change when the weight is moved a little, so the gradient is zero.
But `TrainOne` moves the weight, by `alpha * (target - prediction) / |u| * x`, `u` being what the neuron computes. -/
theorem C69_norm_moves {w0 : World ℝ} (hpos : 0 < w0.store.heap.next) :
    ∃ m w1, compiled [1] [.dense 1 .linear, .norm] w0 = .ok m w1 ∧ ∀ wa, Steps w0 w1 m w1 wa →
      ∃ wb, NetM.compileBP m wa = .ok () wb ∧ ∀ a, TSteps w0 w1 wa wb m wb a →
        ∀ tx ty x y alpha momentum pv ts, Sample w0 w1 wa wb a tx x → Sample w0 w1 wa wb a ty y → x.shape = [1] → y.shape = [1] →
          HasParams a m pv → Trainable a m ts → ts[0]? = some true →
          ∃ w b r c w' b', pv = [[w, b], []] ∧ NetM.trainOne m tx ty alpha momentum a = .ok r c ∧ HasParams c m [[w', b'], []] ∧
            w'.get [0, 0] = w.get [0, 0] + alpha * ((y.get [0] - (netFn [.dense 1 .linear, .norm] pv x).get [0]) / |x.get [0] * w.get [0, 0] + b.get [0]| * x.get [0]) ∧
            (x.get [0] * w.get [0, 0] + b.get [0] ≠ 0 →
              HasDerivAt (fun v => halfSquare y (netFn [.dense 1 .linear, .norm] (putWeight pv 0 0 [0, 0] v) x)) 0 (w.get [0, 0])) := by
  obtain ⟨m, w1, e1, H⟩ := two_step (l := .norm) trivial one_pos hpos
  refine ⟨m, w1, e1, fun wa s => ?_⟩
  obtain ⟨wb, e2, H⟩ := H wa s
  refine ⟨wb, e2, fun a hs tx ty x y alpha momentum pv ts sx sy hx hy hp ht ht0 => ?_⟩
  obtain ⟨w, b, rfl, hw, hb, r, c, w', b', r1, r2, r3⟩ := H a hs tx ty x y alpha momentum pv ts sx sy hx hy hp ht ht0
  have habs : ∀ u : ℝ, (if GoNum.lt u GoNum.zero then GoNum.neg u else u) = |u| := fun u => by
    show (if decide (u < 0) = true then -u else u) = _
    by_cases h : u < 0
    · rw [if_pos (by simpa using h), abs_of_neg h]
    · rw [if_neg (by simpa using h), abs_of_nonneg (not_lt.1 h)]
  have hnet : ∀ w : STensor ℝ, (netFn [.dense 1 .linear, .norm] [[w, b], []] x).shape = [1] ∧
      (netFn [.dense 1 .linear, .norm] [[w, b], []] x).get [0] = neuron w b x 0 / |neuron w b x 0| := fun w => by
    rw [two_net]
    have hs : (denseFn id w b x).shape = [1] := hb
    refine ⟨hs, ?_⟩
    show (denseFn id w b x).get [0] / max1 ((denseFn id w b x).flat.map fun v => if GoNum.lt v GoNum.zero then GoNum.neg v else v) * (1 - 0) + 0 = _
    rw [flat_one hs, neuron_eq hx]
    simp only [habs, List.map_cons, List.map_nil, max1, List.foldl_nil]
    ring
  refine ⟨w, b, r, c, w', b', rfl, r1, r2, ?_, fun hne => ?_⟩
  · rw [r3 _ _ rfl rfl 0 one_pos]
    have e : (LSpec.back .norm [] ⟨(netFn [.dense 1 .linear, .norm] [[w, b], []] x).shape, fun i => y.get i - (netFn [.dense 1 .linear, .norm] [[w, b], []] x).get i⟩
        ⟨(netFn [.dense 1 .linear, .norm] [[w, b], []] x).shape, fun i => y.get i - (netFn [.dense 1 .linear, .norm] [[w, b], []] x).get i⟩ (denseFn id w b x)
        ((denseFn id w b x).map fun _ => 1)).get [0] = (y.get [0] - (netFn [.dense 1 .linear, .norm] [[w, b], []] x).get [0]) / |neuron w b x 0| := by
      show (y.get [0] - (netFn [.dense 1 .linear, .norm] [[w, b], []] x).get [0]) * (1 - 0) /
        max1 ((denseFn id w b x).flat.map fun v => if GoNum.lt v GoNum.zero then GoNum.neg v else v) = _
      have hs : (denseFn id w b x).shape = [1] := hb
      rw [flat_one hs, neuron_eq hx]
      simp only [habs, List.map_cons, List.map_nil, max1, List.foldl_nil]
      ring
    rw [e]
    simp [behind, LSpec.isFlatten, neuron]
  · have e : (fun v => halfSquare y (netFn [.dense 1 .linear, .norm] (putWeight [[w, b], []] 0 0 [0, 0] v) x)) =
        fun v => (y.get [0] - (x.get [0] * v + b.get [0]) / |x.get [0] * v + b.get [0]|) ^ 2 / 2 := by
      funext v
      show halfSquare y (netFn [.dense 1 .linear, .norm] [[w.put [0, 0] v, b], []] x) = _
      obtain ⟨h1, h2⟩ := hnet (w.put [0, 0] v)
      unfold halfSquare
      rw [h1]
      show ([[0]].map fun idx => (y.get idx - (netFn [.dense 1 .linear, .norm] [[w.put [0, 0] v, b], []] x).get idx) ^ 2).sum / 2 = _
      simp only [List.map_cons, List.map_nil, List.sum_cons, List.sum_nil, h2, add_zero]
      rfl
    rw [e]
    have hc : ContinuousAt (fun v : ℝ => x.get [0] * v + b.get [0]) (w.get [0, 0]) := by fun_prop
    rcases lt_or_gt_of_ne hne with h | h
    · refine (hasDerivAt_const (w.get [0, 0]) ((y.get [0] - (-1)) ^ 2 / 2)).congr_of_eventuallyEq ?_
      refine (hc.eventually_lt continuousAt_const h).mono fun v hv => ?_
      simp only
      rw [abs_of_neg hv, div_neg, div_self hv.ne]
    · refine (hasDerivAt_const (w.get [0, 0]) ((y.get [0] - 1) ^ 2 / 2)).congr_of_eventuallyEq ?_
      refine (continuousAt_const.eventually_lt hc h).mono fun v hv => ?_
      simp only
      rw [abs_of_pos hv, div_self hv.ne']

/-- C69 is false of `SoftMax`: the model of two linear neurons with a `SoftMax` layer behind them.  In every state between trainings, for every sample where
the neurons compute different values, the prediction does not change when the first weight is moved a little, so the gradient is zero.  But
`TrainOne` moves the weight, by `alpha * (target - prediction) * x`. -/
theorem C69_softMax_moves {w0 : World ℝ} (hpos : 0 < w0.store.heap.next) :
    ∃ m w1, compiled [1] [.dense 2 .linear, .softMax] w0 = .ok m w1 ∧ ∀ wa, Steps w0 w1 m w1 wa →
      ∃ wb, NetM.compileBP m wa = .ok () wb ∧ ∀ a, TSteps w0 w1 wa wb m wb a →
        ∀ tx ty x y alpha momentum pv ts, Sample w0 w1 wa wb a tx x → Sample w0 w1 wa wb a ty y → x.shape = [1] → y.shape = [2] →
          HasParams a m pv → Trainable a m ts → ts[0]? = some true →
          ∃ w b r c w' b', pv = [[w, b], []] ∧ NetM.trainOne m tx ty alpha momentum a = .ok r c ∧ HasParams c m [[w', b'], []] ∧
            w'.get [0, 0] = w.get [0, 0] + alpha * ((y.get [0] - (netFn [.dense 2 .linear, .softMax] pv x).get [0]) * x.get [0]) ∧
            (x.get [0] * w.get [0, 0] + b.get [0] ≠ x.get [0] * w.get [1, 0] + b.get [1] →
              HasDerivAt (fun v => halfSquare y (netFn [.dense 2 .linear, .softMax] (putWeight pv 0 0 [0, 0] v) x)) 0 (w.get [0, 0])) := by
  obtain ⟨m, w1, e1, H⟩ := two_step (l := .softMax) trivial two_pos hpos
  refine ⟨m, w1, e1, fun wa s => ?_⟩
  obtain ⟨wb, e2, H⟩ := H wa s
  refine ⟨wb, e2, fun a hs tx ty x y alpha momentum pv ts sx sy hx hy hp ht ht0 => ?_⟩
  obtain ⟨w, b, rfl, hw, hb, r, c, w', b', r1, r2, r3⟩ := H a hs tx ty x y alpha momentum pv ts sx sy hx hy hp ht ht0
  have hnet : ∀ w : STensor ℝ, (netFn [.dense 2 .linear, .softMax] [[w, b], []] x).shape = [2] ∧
      (neuron w b x 0 < neuron w b x 1 → (netFn [.dense 2 .linear, .softMax] [[w, b], []] x).get [0] = 0 ∧ (netFn [.dense 2 .linear, .softMax] [[w, b], []] x).get [1] = 1) ∧
      (neuron w b x 1 < neuron w b x 0 → (netFn [.dense 2 .linear, .softMax] [[w, b], []] x).get [0] = 1 ∧ (netFn [.dense 2 .linear, .softMax] [[w, b], []] x).get [1] = 0) := fun w => by
    rw [two_net]
    have hs : (denseFn id w b x).shape = [2] := hb
    have hg : ∀ i, (LSpec.fn .softMax [] (denseFn id w b x)).get i = ((denseFn id w b x).get i - min1 [neuron w b x 0, neuron w b x 1]) /
        sum1 ([neuron w b x 0, neuron w b x 1].map fun v => v - min1 [neuron w b x 0, neuron w b x 1]) := fun i => by
      show ((denseFn id w b x).get i - min1 (denseFn id w b x).flat) / sum1 ((denseFn id w b x).flat.map fun v => v - min1 (denseFn id w b x).flat) = _
      rw [flat_two hs, neuron_eq hx, neuron_eq hx]
    have hmin : ∀ p q : ℝ, min1 [p, q] = if q < p then q else p := fun p q => by
      show (if decide (q < p) = true then q else p) = _
      simp
    refine ⟨hs, fun h => ?_, fun h => ?_⟩
    · rw [hg, hg, neuron_eq hx, neuron_eq hx, sum1_real, hmin, if_neg (not_lt.2 h.le)]
      have : neuron w b x 1 - neuron w b x 0 ≠ 0 := by linarith
      simp [this]
    · rw [hg, hg, neuron_eq hx, neuron_eq hx, sum1_real, hmin, if_pos h]
      have : neuron w b x 0 - neuron w b x 1 ≠ 0 := by linarith
      simp [this]
  refine ⟨w, b, r, c, w', b', rfl, r1, r2, ?_, fun hne => ?_⟩
  · rw [r3 _ _ rfl rfl 0 two_pos]
    show _ + alpha * ((y.get [0] - _) / (behind [LSpec.softMax] : ℝ) * x.get [0]) = _
    simp [behind, LSpec.isFlatten]
  · have e : (fun v => halfSquare y (netFn [.dense 2 .linear, .softMax] (putWeight [[w, b], []] 0 0 [0, 0] v) x)) =
        fun v => ((y.get [0] - (netFn [.dense 2 .linear, .softMax] [[w.put [0, 0] v, b], []] x).get [0]) ^ 2 +
          (y.get [1] - (netFn [.dense 2 .linear, .softMax] [[w.put [0, 0] v, b], []] x).get [1]) ^ 2) / 2 := by
      funext v
      show halfSquare y (netFn [.dense 2 .linear, .softMax] [[w.put [0, 0] v, b], []] x) = _
      unfold halfSquare
      rw [(hnet (w.put [0, 0] v)).1]
      show ([[0], [1]].map fun idx => (y.get idx - (netFn [.dense 2 .linear, .softMax] [[w.put [0, 0] v, b], []] x).get idx) ^ 2).sum / 2 = _
      simp only [List.map_cons, List.map_nil, List.sum_cons, List.sum_nil, add_zero]
    rw [e]
    have hc : ContinuousAt (fun v : ℝ => x.get [0] * v + b.get [0]) (w.get [0, 0]) := by fun_prop
    rcases lt_or_gt_of_ne hne with h | h
    · refine (hasDerivAt_const (w.get [0, 0]) (((y.get [0] - 0) ^ 2 + (y.get [1] - 1) ^ 2) / 2)).congr_of_eventuallyEq ?_
      refine (hc.eventually_lt continuousAt_const h).mono fun v hv => ?_
      obtain ⟨h1, h2⟩ := (hnet (w.put [0, 0] v)).2.1 hv
      simp only [h1, h2]
    · refine (hasDerivAt_const (w.get [0, 0]) (((y.get [0] - 1) ^ 2 + (y.get [1] - 0) ^ 2) / 2)).congr_of_eventuallyEq ?_
      refine (continuousAt_const.eventually_lt hc h).mono fun v hv => ?_
      obtain ⟨h1, h2⟩ := (hnet (w.put [0, 0] v)).2.2 hv
      simp only [h1, h2]

/-- C69 is false of `Flatten`: the model of one linear neuron with a `Flatten` layer behind it, which changes nothing in the prediction.  In every state between
trainings, for every sample, the derivative is `(prediction - target) * x`, but `TrainOne` moves the weight by half of `-alpha` times this. -/
theorem C69_flatten_halves {w0 : World ℝ} (hpos : 0 < w0.store.heap.next) :
    ∃ m w1, compiled [1] [.dense 1 .linear, .flatten] w0 = .ok m w1 ∧ ∀ wa, Steps w0 w1 m w1 wa →
      ∃ wb, NetM.compileBP m wa = .ok () wb ∧ ∀ a, TSteps w0 w1 wa wb m wb a →
        ∀ tx ty x y alpha momentum pv ts, Sample w0 w1 wa wb a tx x → Sample w0 w1 wa wb a ty y → x.shape = [1] → y.shape = [1] →
          HasParams a m pv → Trainable a m ts → ts[0]? = some true →
          ∃ w b r c w' b', pv = [[w, b], []] ∧ NetM.trainOne m tx ty alpha momentum a = .ok r c ∧ HasParams c m [[w', b'], []] ∧
            HasDerivAt (fun v => halfSquare y (netFn [.dense 1 .linear, .flatten] (putWeight pv 0 0 [0, 0] v) x))
              (((netFn [.dense 1 .linear, .flatten] pv x).get [0] - y.get [0]) * x.get [0]) (w.get [0, 0]) ∧
            w'.get [0, 0] = w.get [0, 0] - alpha * (((netFn [.dense 1 .linear, .flatten] pv x).get [0] - y.get [0]) * x.get [0]) / 2 := by
  obtain ⟨m, w1, e1, H⟩ := two_step (l := .flatten) trivial one_pos hpos
  refine ⟨m, w1, e1, fun wa s => ?_⟩
  obtain ⟨wb, e2, H⟩ := H wa s
  refine ⟨wb, e2, fun a hs tx ty x y alpha momentum pv ts sx sy hx hy hp ht ht0 => ?_⟩
  obtain ⟨w, b, rfl, hw, hb, r, c, w', b', r1, r2, r3⟩ := H a hs tx ty x y alpha momentum pv ts sx sy hx hy hp ht ht0
  have hres : ∀ A B : STensor ℝ, A.shape = [1] → B.shape = [1] → (A.reshape B.shape).get [0] = A.get [0] := fun A B hA hB => by
    rw [reshape_get _ _ _ (by rw [hA, hB]; simp [offset, size]), hA, hB]
    rfl
  have hnet : ∀ w : STensor ℝ, (netFn [.dense 1 .linear, .flatten] [[w, b], []] x).shape = [1] ∧
      (netFn [.dense 1 .linear, .flatten] [[w, b], []] x).get [0] = neuron w b x 0 := fun w => by
    rw [two_net]
    have hs : (denseFn id w b x).shape = [1] := hb
    refine ⟨by show [size (denseFn id w b x).shape] = _; rw [hs]; rfl, ?_⟩
    show ((denseFn id w b x).reshape [size (denseFn id w b x).shape]).get [0] = _
    rw [← neuron_eq hx]
    have : [size (denseFn id w b x).shape] = (denseFn id w b x).shape := by rw [hs]; rfl
    rw [this]
    exact hres _ _ hs hs
  refine ⟨w, b, r, c, w', b', rfl, r1, r2, ?_, ?_⟩
  · have e : (fun v => halfSquare y (netFn [.dense 1 .linear, .flatten] (putWeight [[w, b], []] 0 0 [0, 0] v) x)) =
        fun v => (y.get [0] - (x.get [0] * v + b.get [0])) ^ 2 / 2 := by
      funext v
      show halfSquare y (netFn [.dense 1 .linear, .flatten] [[w.put [0, 0] v, b], []] x) = _
      obtain ⟨h1, h2⟩ := hnet (w.put [0, 0] v)
      unfold halfSquare
      rw [h1]
      show ([[0]].map fun idx => (y.get idx - (netFn [.dense 1 .linear, .flatten] [[w.put [0, 0] v, b], []] x).get idx) ^ 2).sum / 2 = _
      simp only [List.map_cons, List.map_nil, List.sum_cons, List.sum_nil, h2, add_zero]
      rfl
    rw [e, (hnet w).2]
    have h := (((((hasDerivAt_id' (w.get [0, 0])).const_mul (x.get [0])).add_const (b.get [0])).const_sub (y.get [0])).pow 2).div_const 2
    have e2 : (neuron w b x 0 - y.get [0]) * x.get [0] = ((2 : ℕ) : ℝ) * (y.get [0] - (x.get [0] * w.get [0, 0] + b.get [0])) ^ (2 - 1) * -(x.get [0] * 1) / 2 := by
      unfold neuron
      push_cast
      ring
    rw [e2]
    exact h
  · rw [r3 _ _ rfl rfl 0 one_pos]
    obtain ⟨h1, h2⟩ := hnet w
    have hs : (denseFn id w b x).shape = [1] := hb
    have e : ∀ d : STensor ℝ, d.shape = [1] → (LSpec.back .flatten [] d d (denseFn id w b x) ((denseFn id w b x).map fun _ => 1)).get [0] = d.get [0] := fun d hd => by
      show (d.reshape (denseFn id w b x).shape).get [0] = _
      exact hres _ _ hd hs
    rw [e ⟨(netFn [.dense 1 .linear, .flatten] [[w, b], []] x).shape, fun i => y.get i - (netFn [.dense 1 .linear, .flatten] [[w, b], []] x).get i⟩ h1]
    have hb2 : ((behind [LSpec.flatten] : ℕ) : ℝ) = 2 := by
      have : behind [LSpec.flatten] = 2 := rfl
      rw [this]; norm_num
    rw [hb2]
    ring

end Godeep.Props
