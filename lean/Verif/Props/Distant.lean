import Verif.Model.Distant
import Verif.Lemmas.Rounding
import Verif.Props.Activation
import Verif.Props.Bytes
import Verif.Props.Picture
import Mathlib.Analysis.InnerProductSpace.PiL2
/-
  C80: `Distant` is a distance.
-/
namespace Godeep.Props
open Godeep Spec GoNum

/-- the Euclidean distance of two lists of the same length -/
noncomputable def euclid (x y : List ℝ) : ℝ := Real.sqrt (∑ i ∈ Finset.range x.length, (x.getD i 0 - y.getD i 0) ^ 2)

/-- an error if and only if the lengths differ, for every element type -/
theorem C80_lengths {T : Type} [GoNum T] (root : T → T) (x y : List T) :
    ((∃ e, distant root x y = .err e) ↔ x.length ≠ y.length) ∧ distant root x y ≠ .panic := by
  unfold distant
  split <;> simp_all

theorem sumSquares_real (x y : List ℝ) (h : x.length = y.length) (d : ℝ) :
    sumSquares x y d = d + ∑ i ∈ Finset.range x.length, (x.getD i 0 - y.getD i 0) ^ 2 := by
  induction x generalizing y d with
  | nil => cases y <;> simp_all [sumSquares]
  | cons a x ih =>
    cases y with
    | nil => simp at h
    | cons b y =>
      rw [sumSquares, ih y (by simpa using h), List.length_cons, Finset.sum_range_succ']
      simp only [List.getD_cons_succ, List.getD_cons_zero, GoNum.add, GoNum.mul, GoNum.sub]
      ring

/-- in exact arithmetic it is the Euclidean distance -/
theorem C80_euclid (x y : List ℝ) (h : x.length = y.length) : distant Real.sqrt x y = .ok (euclid x y) := by
  unfold distant
  rw [if_neg (by simpa using h), sumSquares_real x y h]
  simp [euclid, GoNum.zero]

theorem euclid_dist (n : Nat) (x y : List ℝ) (hx : x.length = n) :
    euclid x y = dist (WithLp.toLp 2 (fun i : Fin n => x.getD i 0) : EuclideanSpace ℝ (Fin n)) (WithLp.toLp 2 (fun i : Fin n => y.getD i 0)) := by
  rw [EuclideanSpace.dist_eq, euclid, hx, Finset.sum_range]
  congr 1
  refine Finset.sum_congr rfl fun i _ => ?_
  rw [Real.dist_eq, sq_abs]

/-- C80 for exact arithmetic: it is zero exactly for equal lists, symmetric, and satisfies the triangle inequality.
Missing: arithmetic that rounds or wraps around; there only symmetry holds, see `C80_zero_of_different`. -/
theorem C80_metric_partial (x y z : List ℝ) (hy : y.length = x.length) (hz : z.length = x.length) :
    ∃ xy yx yz xz, distant Real.sqrt x y = .ok xy ∧ distant Real.sqrt y x = .ok yx ∧ distant Real.sqrt y z = .ok yz ∧
      distant Real.sqrt x z = .ok xz ∧ 0 ≤ xy ∧ (xy = 0 ↔ x = y) ∧ xy = yx ∧ xz ≤ xy + yz := by
  refine ⟨_, _, _, _, C80_euclid x y hy.symm, C80_euclid y x hy, C80_euclid y z (hy.trans hz.symm), C80_euclid x z hz.symm, ?_⟩
  have e1 := euclid_dist x.length x y rfl
  have e2 := euclid_dist x.length y x hy
  have e3 := euclid_dist x.length y z hy
  have e4 := euclid_dist x.length x z rfl
  rw [e1, e2, e3, e4]
  refine ⟨dist_nonneg, ?_, dist_comm _ _, dist_triangle _ _ _⟩
  rw [dist_eq_zero]
  constructor
  · intro h
    apply List.ext_getElem hy.symm
    intro i h1 h2
    have := congrFun (congrArg WithLp.ofLp h) ⟨i, h1⟩
    simpa [List.getElem?_eq_getElem h1, List.getElem?_eq_getElem h2] using this
  · rintro rfl; rfl

theorem sumSquares_symm {T : Type} [GoNum T] (hs : ∀ x y : T, mul (sub x y) (sub x y) = mul (sub y x) (sub y x)) (x y : List T) (d : T) :
    sumSquares x y d = sumSquares y x d := by
  induction x generalizing y d with
  | nil => cases y <;> rfl
  | cons a x ih =>
    cases y with
    | nil => rfl
    | cons b y => rw [sumSquares, sumSquares, hs a b]; exact ih y _

theorem distant_symm {T : Type} [GoNum T] (hs : ∀ x y : T, mul (sub x y) (sub x y) = mul (sub y x) (sub y x)) (root : T → T) (x y : List T) (h : x.length = y.length) :
    distant root x y = distant root y x := by
  unfold distant
  rw [if_neg (by simpa using h), if_neg (by simpa using h.symm), sumSquares_symm hs]

/-- symmetric also with rounding, to `float64` … -/
theorem C80_symmetric_float64 (root : F64 → F64) (x y : List F64) (h : x.length = y.length) : distant root x y = distant root y x := by
  refine distant_symm (fun a b => ?_) root x y h
  show (⟨fl64 (fl64 (a.val - b.val) * fl64 (a.val - b.val))⟩ : F64) = ⟨fl64 (fl64 (b.val - a.val) * fl64 (b.val - a.val))⟩
  rw [← neg_sub b.val a.val, fl64_flp (-_), flp_neg, neg_mul_neg]; rfl

/-- … to `float32` … -/
theorem C80_symmetric_float32 (root : F32 → F32) (x y : List F32) (h : x.length = y.length) : distant root x y = distant root y x := by
  refine distant_symm (fun a b => ?_) root x y h
  have hf : ∀ q, fl32 q = flp 23 q := fun _ => rfl
  show (⟨fl32 (fl32 (a.val - b.val) * fl32 (a.val - b.val))⟩ : F32) = ⟨fl32 (fl32 (b.val - a.val) * fl32 (b.val - a.val))⟩
  rw [← neg_sub b.val a.val, hf (-_), flp_neg, neg_mul_neg]; rfl

/-- … and with wrap-around (`int16`) -/
theorem C80_symmetric_int16 (root : BitVec 16 → BitVec 16) (x y : List (BitVec 16)) (h : x.length = y.length) :
    distant root x y = distant root y x := by
  refine distant_symm (fun a b => ?_) root x y h
  show (a - b) * (a - b) = (b - a) * (b - a)
  have : a - b = -(b - a) := by rw [BitVec.neg_sub, BitVec.sub_eq_add_neg, BitVec.add_comm]
  rw [this, BitVec.neg_mul, BitVec.mul_neg, BitVec.neg_neg]

/-- with `int16` the distance of different lists can be zero, whatever the root function does with other numbers:
the sum of squares wraps around -/
theorem C80_zero_of_different (root : BitVec 16 → BitVec 16) (h0 : root 0 = 0) :
    ∃ x y : List (BitVec 16), x.length = y.length ∧ x ≠ y ∧ distant root x y = .ok 0 := by
  refine ⟨[256], [0], rfl, by decide, ?_⟩
  show Res.ok (root 0) = .ok 0
  rw [h0]

/-- a concrete case -/
example : distant (T := ℤ) (fun d => (Nat.sqrt d.toNat : ℤ)) [1, 2] [4, 6] = .ok 5 := by decide +kernel

end Godeep.Props
