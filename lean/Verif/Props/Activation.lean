import Verif.Model.Activation
import Verif.Spec.Field
import Mathlib.Analysis.SpecialFunctions.Trigonometric.Deriv
import Mathlib.Analysis.SpecialFunctions.ExpDeriv
import Mathlib.Analysis.Calculus.Deriv.MeanValue
import Mathlib.Analysis.SpecialFunctions.Trigonometric.DerivHyp
import Mathlib.Analysis.SpecialFunctions.Pow.Real
import Mathlib.Analysis.Complex.Trigonometric
import Mathlib.Tactic.LinearCombination
/-
  C55: the derivatives of the activation functions, over the real numbers.
-/
namespace Godeep.Props
open Godeep Activation

/-- the activation package over the real numbers -/
noncomputable instance realNum : GoNum ℝ := fieldNum ℝ

noncomputable instance realFloat : GoFloat ℝ where
  exp := Real.exp
  tanh := Real.tanh
  sin := Real.sin
  cos := Real.cos
  cosh := Real.cosh
  sqrt := Real.sqrt
  pow x y := x ^ y
  pi := Real.pi
  lit q := q

instance realCast : Cast ℝ ℝ := ⟨id, id⟩

/-- `Derive` is the derivative of `Activate` at `x` -/
def DerivedAt (a : Activation ℝ) (x : ℝ) : Prop := HasDerivAt a.activate (a.derive x) x

theorem C55_linear (x : ℝ) : DerivedAt .linear x := hasDerivAt_id x

theorem sigmoid_eq (x : ℝ) : sigmoidActivate ℝ x = 1 / (1 + Real.exp (-x)) := rfl

theorem sigmoid_deriv (x : ℝ) : HasDerivAt (sigmoidActivate ℝ) (sigmoidActivate ℝ x * (1 - sigmoidActivate ℝ x)) x := by
  have h1 : HasDerivAt (fun t => 1 + Real.exp (-t)) (-Real.exp (-x)) x := by
    have := ((hasDerivAt_id x).neg.exp).const_add 1
    simpa using this
  have hp : 1 + Real.exp (-x) ≠ 0 := by have := Real.exp_pos (-x); linarith
  have h2 := (hasDerivAt_const x (1 : ℝ)).div h1 hp
  have e : (0 * (1 + Real.exp (-x)) - 1 * -Real.exp (-x)) / (1 + Real.exp (-x)) ^ 2 =
      sigmoidActivate ℝ x * (1 - sigmoidActivate ℝ x) := by
    rw [sigmoid_eq]; field_simp; ring
  rw [e] at h2
  exact h2

theorem C55_sigmoid (x : ℝ) : DerivedAt (.sigmoid ℝ) x := sigmoid_deriv x

theorem C55_sin (x : ℝ) : DerivedAt (.sine ℝ) x := Real.hasDerivAt_sin x

theorem C55_swish (x : ℝ) : DerivedAt (.swish ℝ) x := by
  have h := (hasDerivAt_id x).mul (sigmoid_deriv x)
  have e : 1 * sigmoidActivate ℝ x + id x * (sigmoidActivate ℝ x * (1 - sigmoidActivate ℝ x)) =
      (Activation.swish ℝ).derive x := by
    show _ = x * sigmoidActivate ℝ x + sigmoidActivate ℝ x * (1 - x * sigmoidActivate ℝ x)
    simp only [id]; ring
  rw [e] at h
  exact h

theorem tanh_deriv (x : ℝ) : HasDerivAt Real.tanh (1 / Real.cosh x ^ 2) x := by
  have hc : Real.cosh x ≠ 0 := (Real.cosh_pos x).ne'
  have h := (Real.hasDerivAt_sinh x).div (Real.hasDerivAt_cosh x) hc
  have e1 : (Real.cosh x * Real.cosh x - Real.sinh x * Real.sinh x) / Real.cosh x ^ 2 = 1 / Real.cosh x ^ 2 := by
    congr 1
    have := Real.cosh_sq x
    linear_combination this
  rw [e1] at h
  have e2 : Real.tanh = fun y => Real.sinh y / Real.cosh y := by funext y; exact Real.tanh_eq_sinh_div_cosh y
  rw [e2]; exact h

theorem C55_tanh (x : ℝ) : DerivedAt (.hyperTan ℝ) x := by
  have h := tanh_deriv x
  have e : 1 / Real.cosh x ^ 2 = (Activation.hyperTan ℝ).derive x := by
    show _ = (1 : ℝ) / Real.cosh x ^ (((2 : ℚ) : ℝ))
    norm_num
  rw [e] at h
  exact h

theorem relu_neg {alpha x : ℝ} (hx : x < 0) : DerivedAt (.relu alpha) x := by
  have h : HasDerivAt (fun t : ℝ => t * alpha) alpha x := by simpa using (hasDerivAt_id x).mul_const alpha
  have e : (Activation.relu alpha).derive x = alpha := by
    show (if decide (x < 0) = true then alpha else (1 : ℝ)) = alpha
    rw [if_pos (by simpa using hx)]
  unfold DerivedAt
  rw [e]
  refine h.congr_of_eventuallyEq ?_
  filter_upwards [gt_mem_nhds hx] with t ht
  show (if decide (t < 0) = true then t * alpha else t) = t * alpha
  rw [if_pos (by simpa using ht)]

theorem relu_derive_nonneg {alpha x : ℝ} (hx : 0 ≤ x) : (Activation.relu alpha).derive x = 1 := by
  show (if decide (x < 0) = true then alpha else (1 : ℝ)) = 1
  rw [if_neg (by simpa using hx)]

theorem relu_pos {alpha x : ℝ} (hx : 0 < x) : DerivedAt (.relu alpha) x := by
  unfold DerivedAt
  rw [relu_derive_nonneg hx.le]
  refine (hasDerivAt_id x).congr_of_eventuallyEq ?_
  filter_upwards [lt_mem_nhds hx] with t ht
  show (if decide (t < 0) = true then t * alpha else t) = t
  rw [if_neg (by simpa using ht.le)]

/-- (leaky) ReLU: everywhere except at the kink, where `Derive` is the derivative from the right.
(Missing: at 0 there is no derivative unless the slope is 1.) -/
theorem C55_relu_partial (alpha x : ℝ) :
    (x ≠ 0 → DerivedAt (.relu alpha) x) ∧
    HasDerivWithinAt (Activation.relu alpha).activate ((Activation.relu alpha).derive 0) (Set.Ici 0) 0 := by
  refine ⟨fun hx => ?_, ?_⟩
  · rcases lt_or_gt_of_ne hx with h | h
    · exact relu_neg h
    · exact relu_pos h
  · rw [relu_derive_nonneg le_rfl]
    refine (hasDerivWithinAt_id (0 : ℝ) (Set.Ici 0)).congr (fun t ht => ?_) ?_
    · show (if decide (t < 0) = true then t * alpha else t) = t
      rw [if_neg (by simpa using ht)]
    · show (if decide ((0 : ℝ) < 0) = true then 0 * alpha else (0 : ℝ)) = 0
      simp

theorem elu_neg {alpha x : ℝ} (hx : x < 0) : DerivedAt (.elu ℝ alpha) x := by
  have h : HasDerivAt (fun t : ℝ => alpha * (Real.exp t - 1)) (alpha * Real.exp x) x :=
    ((Real.hasDerivAt_exp x).sub_const 1).const_mul alpha
  have ev : ∀ t : ℝ, t < 0 → eluActivate ℝ alpha t = alpha * (Real.exp t - 1) := by
    intro t ht
    show (if (!decide (t < 0)) = true then t else alpha * (Real.exp t - 1)) = _
    rw [if_neg (by simpa using ht)]
  have e : (Activation.elu ℝ alpha).derive x = alpha * Real.exp x := by
    show (if (!decide (x < 0)) = true then x else eluActivate ℝ alpha x + alpha) = _
    rw [if_neg (by simpa using hx), ev x hx]; ring
  unfold DerivedAt
  rw [e]
  refine h.congr_of_eventuallyEq ?_
  filter_upwards [gt_mem_nhds hx] with t ht
  exact ev t ht

theorem elu_pos_deriv {alpha x : ℝ} (hx : 0 < x) : HasDerivAt (Activation.elu ℝ alpha).activate 1 x := by
  refine (hasDerivAt_id x).congr_of_eventuallyEq ?_
  filter_upwards [lt_mem_nhds hx] with t ht
  show (if (!decide (t < 0)) = true then t else alpha * (Real.exp t - 1)) = t
  rw [if_pos (by simpa using ht.le)]

theorem elu_pos_derive {alpha x : ℝ} (hx : 0 ≤ x) : (Activation.elu ℝ alpha).derive x = x := by
  show (if (!decide (x < 0)) = true then x else eluActivate ℝ alpha x + alpha) = x
  rw [if_pos (by simpa using hx)]

/-- ELU and SELU: right for negative arguments.  (Missing: wrong for positive ones, next theorem.) -/
theorem C55_elu_partial (alpha lambda x : ℝ) (hx : x < 0) :
    DerivedAt (.elu ℝ alpha) x ∧ DerivedAt (.selu ℝ alpha lambda) x :=
  ⟨elu_neg hx, (elu_neg hx).const_mul lambda⟩

/-- For positive arguments `ELU.Derive` returns the argument instead of 1, so it is not the derivative
(except at 1); SELU likewise. -/
theorem C55_elu_wrong (alpha lambda x : ℝ) (hx : 0 < x) (h1 : x ≠ 1) (hl : lambda ≠ 0) :
    ¬ DerivedAt (.elu ℝ alpha) x ∧ ¬ DerivedAt (.selu ℝ alpha lambda) x := by
  constructor
  · intro h
    have := h.unique (elu_pos_deriv hx)
    rw [elu_pos_derive hx.le] at this
    exact h1 this
  · intro h
    have := h.unique ((elu_pos_deriv (alpha := alpha) hx).const_mul lambda)
    have e : (Activation.selu ℝ alpha lambda).derive x = lambda * x := by
      show lambda * (Activation.elu ℝ alpha).derive x = _
      rw [elu_pos_derive hx.le]
    rw [e, mul_one] at this
    exact h1 (mul_left_cancel₀ hl (by rw [this, mul_one]))

theorem gelu_eq : geluActivate (T := ℝ) ℝ = fun x => ((1 / 2 : ℚ) : ℝ) * x * (1 + Real.tanh (Real.sqrt (((2 : ℚ) : ℝ) / Real.pi) *
    (x + ((44715 / 1000000 : ℚ) : ℝ) * x ^ ((3 : ℚ) : ℝ)))) := rfl

theorem gelu_differentiable : Differentiable ℝ (geluActivate (T := ℝ) ℝ) := by
  rw [gelu_eq]
  have e : ∀ x : ℝ, x ^ ((3 : ℚ) : ℝ) = x ^ 3 := fun x => by norm_num
  simp only [e]
  have ht : Differentiable ℝ Real.tanh := fun x => (tanh_deriv x).differentiableAt
  fun_prop

/-- GELU: `Derive` is a symmetric difference quotient, hence the derivative at some point less than a
millionth away.  (Missing: it is not exactly the derivative at the argument.) -/
theorem C55_gelu_partial (x : ℝ) : ∃ y, |y - x| < 1 / 1000000 ∧
    HasDerivAt (Activation.gelu (T := ℝ) ℝ).activate ((Activation.gelu (T := ℝ) ℝ).derive x) y := by
  set h : ℝ := 1 / 1000000 with hh
  have hp : 0 < h := by rw [hh]; norm_num
  have e : (Activation.gelu (T := ℝ) ℝ).derive x =
      (geluActivate ℝ (x + h) - geluActivate ℝ (x - h)) / (2 * h) := by
    have hc : ((1 / 1000000 : ℚ) : ℝ) = h := by rw [hh]; norm_num
    show (geluActivate ℝ (x + (if decide (((1 / 1000000 : ℚ) : ℝ) = 0) = true then ((1 / 1000000 : ℚ) : ℝ) + 1 else ((1 / 1000000 : ℚ) : ℝ))) -
      geluActivate ℝ (x - (if decide (((1 / 1000000 : ℚ) : ℝ) = 0) = true then ((1 / 1000000 : ℚ) : ℝ) + 1 else ((1 / 1000000 : ℚ) : ℝ)))) /
      (((2 : ℕ) : ℝ) * (if decide (((1 / 1000000 : ℚ) : ℝ) = 0) = true then ((1 / 1000000 : ℚ) : ℝ) + 1 else ((1 / 1000000 : ℚ) : ℝ))) = _
    rw [hc, if_neg (by simpa using hp.ne')]
    norm_num
  obtain ⟨c, hc, hd⟩ := exists_hasDerivAt_eq_slope (geluActivate (T := ℝ) ℝ) (deriv (geluActivate (T := ℝ) ℝ))
    (show x - h < x + h by linarith) gelu_differentiable.continuous.continuousOn
    (fun y _ => (gelu_differentiable y).hasDerivAt)
  refine ⟨c, by rw [abs_lt]; constructor <;> linarith [hc.1, hc.2], ?_⟩
  have e2 : (geluActivate ℝ (x + h) - geluActivate ℝ (x - h)) / (x + h - (x - h)) =
      (geluActivate ℝ (x + h) - geluActivate ℝ (x - h)) / (2 * h) := by congr 1; ring
  rw [e, ← e2, ← hd]
  exact (gelu_differentiable c).hasDerivAt

end Godeep.Props
