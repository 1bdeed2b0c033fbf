import Verif.Lemmas.Descent4
import Verif.Props.Learn
/-
  C69, C70, C71: training is gradient descent, for sequential models with layers of any kind.
-/
set_option linter.unusedSectionVars false

namespace Godeep.Props
open Godeep Spec

theorem paramsFit_get : ∀ {ls : List (LSpec ℝ)} {s : List Nat} {pv : List (List (STensor ℝ))} {k : Nat} {l : LSpec ℝ} {p : List (STensor ℝ)}, ParamsFit ls s pv →
    ls[k]? = some l → pv[k]? = some p → p.map STensor.shape = l.paramShapes (outShapes (ls.take k) s)
  | [], _, _, _, _, _, _, hl, _ => by simp at hl
  | _ :: _, _, [], _, _, _, h, _, _ => h.elim
  | l :: ls, s, p :: pv, 0, _, _, h, hl, hp => by
    simp only [List.getElem?_cons_zero, Option.some.injEq] at hl hp
    subst hl hp
    exact h.1
  | l :: ls, s, p :: pv, k + 1, _, _, h, hl, hp => by
    simp only [List.getElem?_cons_succ] at hl hp
    exact paramsFit_get (k := k) h.2 hl hp

theorem learnt_shapes {shape : List Nat} {ls : List (LSpec ℝ)} {m : Nat} {d : CData ℝ} {L : Nat → GLayer} {e : GData ℝ} {w0 w1 wa wb a : World ℝ}
    (N : GTNet shape ls m d L e w0 w1 wa wb) (A : GLive w0 w1 wa wb m ls.length d e a) {mv pv : List (List (STensor ℝ))} (hm : GMom ls e a mv) (hp : HasParams a m pv) :
    pv.length = ls.length ∧ ParamsFit ls shape pv ∧ ∀ k l, ls[k]? = some l → (mv.getD k []).map STensor.shape = l.momShapes (outShapes (ls.take k) shape) := by
  obtain ⟨pv0, hp0, hl0, hs0⟩ := A.live.someParams N.net.made
  have hsh := shapes_eq ((A.params N).1 hp) ((A.params N).1 hp0)
  have hlen : pv.length = ls.length := by rw [← hl0, ← List.length_map (f := (·.map STensor.shape)), hsh, List.length_map]
  refine ⟨hlen, paramsFit_of ls shape pv hlen fun k e hk => ?_, fun k l hl => ?_⟩
  · rw [← hs0 k e hk]
    have h := congrArg (fun l => l.getD k []) hsh
    simp only [List.getD_eq_getElem?_getD, List.getElem?_map] at h ⊢
    cases h1 : pv[k]? <;> cases h2 : pv0[k]? <;> simpa [h1, h2] using h
  · have hkl : k < ls.length := (List.getElem?_eq_some_iff.1 hl).1
    rw [holds_shapes (hm.val k hkl) (N.mom0.val k hkl), (noChange_get ls shape).2 k l hl, List.map_map]
    conv_rhs => rw [← List.map_id (l.momShapes (outShapes (ls.take k) shape))]
    rfl

/-- what a training step does to one weight, for any measure of the distance that the errors at the output belong to -/
theorem descent_step {shape : List Nat} {ls : List (LSpec ℝ)} (hfit : Fits ls shape) (hcan : CanLearn shape ls)
    {w0 : World ℝ} (hpos : 0 < w0.store.heap.next) {loss : STensor ℝ → STensor ℝ → ℝ} {P : ℝ → ℝ → Prop} {act : Activation ℝ}
    (hP : ∀ u, P (act.activate u) (act.derive u)) (ha : lastAct ls = some act)
    (hend : ∀ (al mu : ℝ) (y o D : STensor ℝ), (∀ i, InRange o.shape i → P (o.get i) (D.get i)) → Follows al mu (loss y) y [] [] [] [] o D 1) :
    ∃ m w1, compiled shape ls w0 = .ok m w1 ∧ ∀ wa, Steps w0 w1 m w1 wa →
      ∃ wb, NetM.compileBP m wa = .ok () wb ∧ (∀ a, TSteps w0 w1 wa wb m wb a → ∃ mv, Learnt w0 w1 wa wb m shape ls a mv) ∧
        ∀ a mv, Learnt w0 w1 wa wb m shape ls a mv →
        (∃ pv ts, HasParams a m pv ∧ Trainable a m ts ∧ ParamsFit ls shape pv ∧ ts.length = ls.length) ∧
        ∀ tx ty x y alpha momentum pv ts, Sample w0 w1 wa wb a tx x → Sample w0 w1 wa wb a ty y →
          x.shape = shape → y.shape = outShapes ls shape → HasParams a m pv → Trainable a m ts →
          ∃ r b pv', NetM.trainOne m tx ty alpha momentum a = .ok r b ∧ HasParams b m pv' ∧
            ∀ k, Smooth (ls.drop k) (pv.drop k) (netFn (ls.take k) (pv.take k) x) →
              ∀ c p A idx, ts[k]? = some true → pv[k]? = some p → p[c]? = some A → InRange A.shape idx →
              ∃ g p' A', HasDerivAt (fun v => loss y (netFn ls (putWeight pv k c idx v) x)) g (A.get idx) ∧
                pv'[k]? = some p' ∧ p'[c]? = some A' ∧ A'.get idx = A.get idx - alpha * (g / slowdown ls k) + momentum * lastChange mv k c idx := by
  obtain ⟨m, w1, e1, d, L, D, H⟩ := gprepared (shape := shape) (w0 := w0) real_law.1 hfit hcan hpos
  refine ⟨m, w1, e1, fun wa s => ?_⟩
  obtain ⟨wb, e, e2, N⟩ := H wa s
  refine ⟨wb, e2, fun a hs => learnt_steps N hs, fun a mv hs => ?_⟩
  obtain ⟨A, hm⟩ := learnt_live N hs
  obtain ⟨pv0, hp0, hl0, hs0⟩ := A.live.someParams N.net.made
  have hd0 := paramsFit_of ls shape pv0 hl0 hs0
  refine ⟨⟨pv0, _, hp0, (A.flags N).2 rfl, hd0, by simp⟩, fun tx ty x y alpha momentum pv ts sx sy hx hy hp ht => ?_⟩
  obtain ⟨h', r1, r2, r3, r4⟩ := N.trainOne A sx sy hx hy alpha momentum hp hm
  rw [A.flags N] at ht
  subst ht
  refine ⟨_, _, _, r1, r3, fun k hsm c p B idx hk hpk hc hi => ?_⟩
  obtain ⟨hlen, hds, hmom⟩ := learnt_shapes N A hm hp
  have hkl : k < ls.length := by rw [← hlen]; exact (List.getElem?_eq_some_iff.1 hpk).1
  obtain ⟨l, hl⟩ : ∃ l, ls[k]? = some l := ⟨_, List.getElem?_eq_getElem hkl⟩
  have hmk : mv[k]? = some (mv.getD k []) := by
    rw [List.getD_eq_getElem?_getD, List.getElem?_eq_getElem (by rw [hm.len]; exact hkl)]; rfl
  have hms := hmom k l hl
  subst hx
  have hw : l.weighted = true := by
    have h2 := paramsFit_get hds hl hpk
    cases l
    case dense => rfl
    case conv => rfl
    case deconv => rfl
    all_goals
      simp only [LSpec.paramShapes, List.map_eq_nil_iff] at h2
      subst h2
      simp at hc
  have E := end_of (al := alpha) (mu := momentum) (loss := loss y) (y := y) (D := x.map (Activation.linear : Activation ℝ).derive)
    hds rfl hfit hcan.safe hsm hl hw hP ha (hend alpha momentum y)
  obtain ⟨g, A', q1, q2, q3⟩ := step_any (al := alpha) (mu := momentum) (loss := loss y) (y := y) k ls _ pv mv x (x.map (Activation.linear : Activation ℝ).derive)
    l p (mv.getD k []) c B idx (by simp) hm.len hds rfl hfit hcan.safe hsm E hl hk hpk hmk hms hc hi
  obtain ⟨p', q4, q5⟩ := Option.bind_eq_some_iff.1 q2
  exact ⟨g, p', A', q1, q4, q5, q3⟩

/-- C69: Full property: in a sequential model whose last activation is linear, `TrainOne` without momentum adds to every weight and bias of every trainable
layer `-alpha` times the partial derivative, with respect to it, of half the squared distance between target and output.  False of the code for `Flatten`,
`Norm`, `ENorm` and `SoftMax` layers (`C69_flatten_halves`, `C69_norm_moves`, `C69_softMax_moves`).  Proved: over the real numbers, in a sequential model with layers of any kind that compiles and can be trained (`Fits`, `CanLearn`) and whose
last activation is linear.  The model is made, compiled, used, prepared for training, used and trained in any way; `a` is the state so
reached, `pv` are its weights and biases and `mv` the last changes of the biases of the convolutions.  Let `L` be half the squared distance
between the target `y` and the output for input `x`.  If layer `k` and the layers behind it have derivatives at the values they get (`Smooth`;
`Norm`, `ENorm` and `SoftMax` are excluded) and layer `k` is trainable, then `TrainOne` adds to every element of its weights and biases exactly
`-alpha` times the partial derivative of `L` with respect to this element, divided by a constant (`slowdown`, 1 if the model has no `Flatten`), plus
`momentum` times the last change if the element is a bias of a convolution. -/
theorem C69_gradient_partial {shape : List Nat} {ls : List (LSpec ℝ)} (hfit : Fits ls shape) (hcan : CanLearn shape ls)
    (hlin : lastAct ls = some .linear) {w0 : World ℝ} (hpos : 0 < w0.store.heap.next) :
    ∃ m w1, compiled shape ls w0 = .ok m w1 ∧ ∀ wa, Steps w0 w1 m w1 wa →
      ∃ wb, NetM.compileBP m wa = .ok () wb ∧ (∀ a, TSteps w0 w1 wa wb m wb a → ∃ mv, Learnt w0 w1 wa wb m shape ls a mv) ∧
        ∀ a mv, Learnt w0 w1 wa wb m shape ls a mv →
        (∃ pv ts, HasParams a m pv ∧ Trainable a m ts ∧ ParamsFit ls shape pv ∧ ts.length = ls.length) ∧
        ∀ tx ty x y alpha momentum pv ts, Sample w0 w1 wa wb a tx x → Sample w0 w1 wa wb a ty y →
          x.shape = shape → y.shape = outShapes ls shape → HasParams a m pv → Trainable a m ts →
          ∃ r b pv', NetM.trainOne m tx ty alpha momentum a = .ok r b ∧ HasParams b m pv' ∧
            ∀ k, Smooth (ls.drop k) (pv.drop k) (netFn (ls.take k) (pv.take k) x) →
              ∀ c p A idx, ts[k]? = some true → pv[k]? = some p → p[c]? = some A → InRange A.shape idx →
              ∃ g p' A', HasDerivAt (fun v => halfSquare y (netFn ls (putWeight pv k c idx v) x)) g (A.get idx) ∧
                pv'[k]? = some p' ∧ p'[c]? = some A' ∧ A'.get idx = A.get idx - alpha * (g / slowdown ls k) + momentum * lastChange mv k c idx :=
  descent_step hfit hcan hpos (P := fun _ d => d = 1) (fun _ => rfl) hlin fun _ _ _ _ _ h => end_square h

/-- C70: The same for models whose last activation is a sigmoid, with the binary cross-entropy between target and output in place of half the
squared distance: `TrainOne` does not use the derivative of the last activation, and so it is a step along the gradient of the
cross-entropy. -/
theorem C70_cross_entropy {shape : List Nat} {ls : List (LSpec ℝ)} (hfit : Fits ls shape) (hcan : CanLearn shape ls)
    (hsig : lastAct ls = some (.sigmoid ℝ)) {w0 : World ℝ} (hpos : 0 < w0.store.heap.next) :
    ∃ m w1, compiled shape ls w0 = .ok m w1 ∧ ∀ wa, Steps w0 w1 m w1 wa →
      ∃ wb, NetM.compileBP m wa = .ok () wb ∧ (∀ a, TSteps w0 w1 wa wb m wb a → ∃ mv, Learnt w0 w1 wa wb m shape ls a mv) ∧
        ∀ a mv, Learnt w0 w1 wa wb m shape ls a mv →
        (∃ pv ts, HasParams a m pv ∧ Trainable a m ts ∧ ParamsFit ls shape pv ∧ ts.length = ls.length) ∧
        ∀ tx ty x y alpha momentum pv ts, Sample w0 w1 wa wb a tx x → Sample w0 w1 wa wb a ty y →
          x.shape = shape → y.shape = outShapes ls shape → HasParams a m pv → Trainable a m ts →
          ∃ r b pv', NetM.trainOne m tx ty alpha momentum a = .ok r b ∧ HasParams b m pv' ∧
            ∀ k, Smooth (ls.drop k) (pv.drop k) (netFn (ls.take k) (pv.take k) x) →
              ∀ c p A idx, ts[k]? = some true → pv[k]? = some p → p[c]? = some A → InRange A.shape idx →
              ∃ g p' A', HasDerivAt (fun v => crossEntropy y (netFn ls (putWeight pv k c idx v) x)) g (A.get idx) ∧
                pv'[k]? = some p' ∧ p'[c]? = some A' ∧ A'.get idx = A.get idx - alpha * (g / slowdown ls k) + momentum * lastChange mv k c idx :=
  descent_step hfit hcan hpos (P := fun v d => 0 < v ∧ v < 1 ∧ d = v * (1 - v)) (fun u => ⟨(sigmoid_range u).1, (sigmoid_range u).2, rfl⟩) hsig
    fun _ _ _ _ _ h => follows_entropy [] [] [] h

/-- a training step with a small rate, for any measure of the distance that the errors at the output belong to -/
theorem small_step {shape : List Nat} {ls : List (LSpec ℝ)} (hfit : Fits ls shape) (hcan : CanLearn shape ls)
    {w0 : World ℝ} (hpos : 0 < w0.store.heap.next) {loss : STensor ℝ → STensor ℝ → ℝ} {P : ℝ → ℝ → Prop} {act : Activation ℝ}
    (hP : ∀ u, P (act.activate u) (act.derive u)) (ha : lastAct ls = some act)
    (hend : ∀ (al mu : ℝ) (y o D : STensor ℝ), (∀ i, InRange o.shape i → P (o.get i) (D.get i)) → Follows al mu (loss y) y [] [] [] [] o D 1) :
    ∃ m w1, compiled shape ls w0 = .ok m w1 ∧ ∀ wa, Steps w0 w1 m w1 wa →
      ∃ wb, NetM.compileBP m wa = .ok () wb ∧ ∀ a, TSteps w0 w1 wa wb m wb a →
        ∀ tx ty x y pv ts k, Sample w0 w1 wa wb a tx x → Sample w0 w1 wa wb a ty y →
          x.shape = shape → y.shape = outShapes ls shape → HasParams a m pv → Trainable a m ts →
          (∃ l, ls[k]? = some l ∧ l.weighted = true) → (∀ j < k, ∀ l, ls[j]? = some l → ts[j]? = some true → l.weighted = false) →
          Smooth (ls.drop k) (pv.drop k) (netFn (ls.take k) (pv.take k) x) →
          ∃ e > 0, ∀ alpha, 0 < alpha → alpha < e → ∃ r b pv', NetM.trainOne m tx ty alpha 0 a = .ok r b ∧ HasParams b m pv' ∧
            (loss y (netFn ls pv' x) < loss y (netFn ls pv x) ∨ SameWeights pv pv') := by
  obtain ⟨m, w1, e1, d, L, D, H⟩ := gprepared (shape := shape) (w0 := w0) real_law.1 hfit hcan hpos
  refine ⟨m, w1, e1, fun wa s => ?_⟩
  obtain ⟨wb, e, e2, N⟩ := H wa s
  refine ⟨wb, e2, fun a hs tx ty x y pv ts k sx sy hx hy hp ht hk hfr hsm => ?_⟩
  obtain ⟨mv, hs⟩ := learnt_steps N hs
  obtain ⟨A, hm⟩ := learnt_live N hs
  obtain ⟨hlen, hds, hmom⟩ := learnt_shapes N A hm hp
  obtain ⟨l, hl, hw⟩ := hk
  have T := fun alpha => N.trainOne A sx sy hx hy alpha 0 hp hm
  rw [A.flags N] at ht
  subst ht hx
  have E := end_of (al := 0) (mu := 0) (loss := loss y) (y := y) (D := x.map (Activation.linear : Activation ℝ).derive)
    hds rfl hfit hcan.safe hsm hl hw hP ha (hend 0 0 y)
  obtain ⟨h0, S, hS, hS0, hd⟩ := descends_from (loss := loss y) (y := y) k ls _ pv mv x (x.map (Activation.linear : Activation ℝ).derive)
    (by simp) hm.len hds hmom rfl hfit hcan.safe hfr hsm E
  rcases hS.lt_or_eq with h | h
  · obtain ⟨ep, hep, hlt⟩ := lt_of_deriv_neg h hd
    refine ⟨ep, hep, fun alpha h1 h2 => ?_⟩
    obtain ⟨h', r1, r2, r3, r4⟩ := T alpha
    refine ⟨_, _, _, r1, r3, .inl ?_⟩
    have := hlt alpha h1 h2
    rw [h0] at this
    exact this
  · refine ⟨1, one_pos, fun alpha h1 h2 => ?_⟩
    obtain ⟨h', r1, r2, r3, r4⟩ := T alpha
    exact ⟨_, _, _, r1, r3, .inr (hS0 h.symm alpha)⟩

/-- C71: In the setting of C69 (last activation linear), in any state between trainings, for any sample: let layer `k` have weights, let
no layer before it learn, and let it and the layers behind it have derivatives at the values they get.  Then training with this
sample, without momentum and with any learning rate that is small enough, makes the squared distance between the target and the output for
this sample strictly smaller, or it changes no weight at all. -/
theorem C71_descends {shape : List Nat} {ls : List (LSpec ℝ)} (hfit : Fits ls shape) (hcan : CanLearn shape ls)
    (hlin : lastAct ls = some .linear) {w0 : World ℝ} (hpos : 0 < w0.store.heap.next) :
    ∃ m w1, compiled shape ls w0 = .ok m w1 ∧ ∀ wa, Steps w0 w1 m w1 wa →
      ∃ wb, NetM.compileBP m wa = .ok () wb ∧ ∀ a, TSteps w0 w1 wa wb m wb a →
        ∀ tx ty x y pv ts k, Sample w0 w1 wa wb a tx x → Sample w0 w1 wa wb a ty y →
          x.shape = shape → y.shape = outShapes ls shape → HasParams a m pv → Trainable a m ts →
          (∃ l, ls[k]? = some l ∧ l.weighted = true) → (∀ j < k, ∀ l, ls[j]? = some l → ts[j]? = some true → l.weighted = false) →
          Smooth (ls.drop k) (pv.drop k) (netFn (ls.take k) (pv.take k) x) →
          ∃ e > 0, ∀ alpha, 0 < alpha → alpha < e → ∃ r b pv', NetM.trainOne m tx ty alpha 0 a = .ok r b ∧ HasParams b m pv' ∧
            (halfSquare y (netFn ls pv' x) < halfSquare y (netFn ls pv x) ∨ SameWeights pv pv') :=
  small_step hfit hcan hpos (P := fun _ d => d = 1) (fun _ => rfl) hlin fun _ _ _ _ _ h => end_square h

/-- C71 for models whose last activation is a sigmoid: the cross-entropy between target and output gets strictly smaller -/
theorem C71_descends_entropy {shape : List Nat} {ls : List (LSpec ℝ)} (hfit : Fits ls shape) (hcan : CanLearn shape ls)
    (hsig : lastAct ls = some (.sigmoid ℝ)) {w0 : World ℝ} (hpos : 0 < w0.store.heap.next) :
    ∃ m w1, compiled shape ls w0 = .ok m w1 ∧ ∀ wa, Steps w0 w1 m w1 wa →
      ∃ wb, NetM.compileBP m wa = .ok () wb ∧ ∀ a, TSteps w0 w1 wa wb m wb a →
        ∀ tx ty x y pv ts k, Sample w0 w1 wa wb a tx x → Sample w0 w1 wa wb a ty y →
          x.shape = shape → y.shape = outShapes ls shape → HasParams a m pv → Trainable a m ts →
          (∃ l, ls[k]? = some l ∧ l.weighted = true) → (∀ j < k, ∀ l, ls[j]? = some l → ts[j]? = some true → l.weighted = false) →
          Smooth (ls.drop k) (pv.drop k) (netFn (ls.take k) (pv.take k) x) →
          ∃ e > 0, ∀ alpha, 0 < alpha → alpha < e → ∃ r b pv', NetM.trainOne m tx ty alpha 0 a = .ok r b ∧ HasParams b m pv' ∧
            (crossEntropy y (netFn ls pv' x) < crossEntropy y (netFn ls pv x) ∨ SameWeights pv pv') :=
  small_step hfit hcan hpos (P := fun v d => 0 < v ∧ v < 1 ∧ d = v * (1 - v)) (fun u => ⟨(sigmoid_range u).1, (sigmoid_range u).2, rfl⟩) hsig
    fun _ _ _ _ _ h => follows_entropy [] [] [] h

/-! ### the hypotheses are met -/

/-- seven layers of six kinds, with derivatives everywhere -/
noncomputable def smoothKinds (act : Activation ℝ) : List (LSpec ℝ) :=
  [.conv 2 2 2 1 1 (.hyperTan ℝ), .upSampling 2, .deconv 1 2 1 1 1 (.swish ℝ), .flatten, .sub 0 1 4, .dense 3 (.sigmoid ℝ), .dense 2 act]

theorem smoothKinds_fits (act : Activation ℝ) : Fits (smoothKinds act) [1, 3, 3] := by
  simp [smoothKinds, Fits, LSpec.fits, LSpec.outShape, size]

theorem smoothKinds_can (act : Activation ℝ) : CanLearn [1, 3, 3] (smoothKinds act) where
  bpf := by simp [smoothKinds, LSpec.bpFits]
  bps := by
    intro j s h
    rcases Nat.lt_or_ge j 7 with hj | hj
    · interval_cases j <;> simp [smoothKinds] at h <;> subst h <;> simp [LSpec.bpSafe]
    · rw [List.getElem?_eq_none (by simpa [smoothKinds] using hj)] at h
      cases h
  safe := by
    simp [smoothKinds, Safe, LSpec.safe, LSpec.outShape, size]
  hz := by
    intro j hj
    have hj : j ≤ 7 := hj
    have h1 : GoNum.eq (GoNum.add GoNum.zero GoNum.one) (GoNum.zero : ℝ) = false := real_law.1
    have h2 : GoNum.eq (GoNum.add (GoNum.add GoNum.zero GoNum.one) (GoNum.add GoNum.zero GoNum.one)) (GoNum.zero : ℝ) = false := by
      show decide ((0 + 1 + (0 + 1) : ℝ) = 0) = false
      norm_num
    interval_cases j <;> simp [smoothKinds, uses, LSpec.isFlatten, List.takeWhile, h1, h2]
  dv := fun _ _ _ _ _ => rfl
  szp := by simp [smoothKinds, outShapes, LSpec.outShape, size]

theorem smoothKinds_smooth {act : Activation ℝ} (h : ∀ u, HasDerivAt act.activate (act.derive u) u) (pv : List (List (STensor ℝ))) (x : STensor ℝ) :
    Smooth (smoothKinds act) pv x := by
  have all : ∀ (ls : List (LSpec ℝ)), (∀ l ∈ ls, ∀ p x, l.SmoothAt p x) → ∀ pv x, Smooth ls pv x := by
    intro ls
    induction ls with
    | nil => intro _ pv x; cases pv <;> trivial
    | cons l ls ih =>
      intro H pv x
      cases pv with
      | nil => trivial
      | cons p pv => exact ⟨H l (by simp) p x, ih (fun l hl => H l (by simp [hl])) pv _⟩
  refine all _ (fun l hl p x => ?_) pv x
  simp only [smoothKinds, List.mem_cons, List.not_mem_nil, or_false] at hl
  rcases hl with rfl | rfl | rfl | rfl | rfl | rfl | rfl
  · exact fun _ _ => C55_tanh _
  · trivial
  · exact fun _ _ => C55_swish _
  · trivial
  · trivial
  · exact fun _ _ => C55_sigmoid _
  · exact fun _ _ => h _

/-- the steps of the first layer are two times smaller than the gradient says, because of the one `Flatten` -/
example : (List.range 7).map (slowdown (smoothKinds .linear)) = [2, 2, 1, 1, 1, 1, 1] := by
  simp [smoothKinds, slowdown, smaller, behind, LSpec.isFlatten, List.takeWhile, List.range, List.range.loop]

/-- where the elements of a picture are different, `MaxPool` has a derivative -/
example : (LSpec.maxPool 2 2).SmoothAt [] ⟨[1, 4, 4], fun i => (offset [1, 4, 4] i : ℝ)⟩ := by
  intro idx _ p hp q hq h1 h2
  have h := h1.trans h2.symm
  obtain ⟨a1, a2, a3, a4⟩ := (mem_window (by decide) (by decide)).1 hp
  obtain ⟨b1, b2, b3, b4⟩ := (mem_window (by decide) (by decide)).1 hq
  simp only [offset, size] at h
  norm_cast at h
  simp only [List.getD_cons_succ, List.getD_cons_zero] at a3 a4 b3 b4
  ext <;> omega

attribute [local irreducible] compiled NetM.compileBP NetM.trainOne netFn learnStep smoothKinds in
/-- The hypotheses of C69 and C71 are met: the seven layers over the real numbers, with the weights that `Compile` draws and after one training step -/
example : ∃ m w1 wb b r pv pv' ts,
    compiled [1, 3, 3] (smoothKinds .linear) (worldPair [1, 3, 3] [2] 5 1) = .ok m w1 ∧ NetM.compileBP m w1 = .ok () wb ∧ HasParams wb m pv ∧ Trainable wb m ts ∧
    NetM.trainOne m 0 1 (1 / 2) (1 / 4) wb = .ok r b ∧ HasParams b m pv' ∧
    (∀ k c p A idx, ts[k]? = some true → pv[k]? = some p → p[c]? = some A → InRange A.shape idx →
      ∃ g p' A', HasDerivAt (fun v => halfSquare ⟨[2], fun _ => 1⟩ (netFn (smoothKinds .linear) (putWeight pv k c idx v) ⟨[1, 3, 3], fun _ => 5⟩)) g (A.get idx) ∧
        pv'[k]? = some p' ∧ p'[c]? = some A' ∧ A'.get idx = A.get idx - 1 / 2 * (g / slowdown (smoothKinds .linear) k) +
          1 / 4 * lastChange (noChange (smoothKinds .linear) [1, 3, 3]) k c idx) ∧
    ∃ e > 0, ∀ alpha, 0 < alpha → alpha < e → ∃ r c pv'', NetM.trainOne m 0 1 alpha 0 b = .ok r c ∧ HasParams c m pv'' ∧
      (halfSquare ⟨[2], fun _ => 1⟩ (netFn (smoothKinds .linear) pv'' ⟨[1, 3, 3], fun _ => 5⟩) <
        halfSquare ⟨[2], fun _ => 1⟩ (netFn (smoothKinds .linear) pv' ⟨[1, 3, 3], fun _ => 5⟩) ∨ SameWeights pv' pv'') := by
  have hpos : 0 < (worldPair [1, 3, 3] [2] (5 : ℝ) 1).store.heap.next := by show 0 < 1 + _ + _; omega
  have hla : lastAct (smoothKinds .linear) = some .linear := by unfold smoothKinds; rfl
  have ho : ([2] : List Nat) = outShapes (smoothKinds .linear) [1, 3, 3] := by simp [smoothKinds, outShapes, LSpec.outShape]
  have hk : ∃ l, (smoothKinds .linear)[0]? = some l ∧ l.weighted = true := ⟨_, by simp [smoothKinds]; rfl, rfl⟩
  obtain ⟨m, w1, wb, e1, e2, s0, s1⟩ := worldPair_sample real_law.1 (smoothKinds_fits .linear) (smoothKinds_can .linear) [2] 5 1
  obtain ⟨m', w1', e1', H⟩ := C69_gradient_partial (w0 := worldPair [1, 3, 3] [2] 5 1) (smoothKinds_fits .linear) (smoothKinds_can .linear) hla hpos
  obtain ⟨m'', w1'', e1'', G⟩ := C71_descends (w0 := worldPair [1, 3, 3] [2] 5 1) (smoothKinds_fits .linear) (smoothKinds_can .linear) hla hpos
  obtain ⟨m3, w13, e13, K⟩ := C68_train_one (w0 := worldPair [1, 3, 3] [2] (5 : ℝ) 1) real_law.1 (smoothKinds_fits .linear) (smoothKinds_can .linear) hpos
  rw [e1] at e1' e1'' e13
  cases e1'; cases e1''; cases e13
  obtain ⟨wb', e2', _, H⟩ := H w1 .none
  obtain ⟨wb'', e2'', G⟩ := G w1 .none
  obtain ⟨wb3, e23, _, K⟩ := K w1 .none
  rw [e2] at e2' e2'' e23
  cases e2'; cases e2''; cases e23
  obtain ⟨⟨pv, ts, hp, ht, _⟩, H1⟩ := H wb _ .start
  obtain ⟨r, b, pv', r1, p1, H2⟩ := H1 0 1 _ _ (1 / 2) (1 / 4) pv ts s0 s1 rfl ho hp ht
  obtain ⟨_, K⟩ := K wb _ .start
  obtain ⟨b', r1', _, t1, l1, k1, _⟩ := K 0 1 _ _ (1 / 2) (1 / 4) pv ts s0 s1 rfl ho hp ht
  rw [r1] at r1'
  cases r1'
  refine ⟨m, w1, wb, b, _, pv, pv', ts, e1, e2, hp, ht, r1, p1, fun k c p A idx h1 h2 h3 h4 => ?_, ?_⟩
  · refine H2 k ?_ c p A idx h1 h2 h3 h4
    exact smooth_drop k _ _ _ (smoothKinds_smooth C55_linear pv _)
  · exact G b (.more .none (.train (.one s0 s1 (.inl ⟨_, r1⟩)))) 0 1 _ _ pv' ts 0 (k1 _ _ s0) (k1 _ _ s1) rfl ho p1 t1 hk (fun j hj => absurd hj (by omega))
      (smoothKinds_smooth C55_linear pv' _)

end Godeep.Props
