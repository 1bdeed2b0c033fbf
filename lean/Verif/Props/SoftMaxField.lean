import Verif.Props.MatReduce
import Verif.Spec.Field
import Mathlib.Algebra.Order.BigOperators.Group.List
import Mathlib.Tactic.Linarith
import Mathlib.Tactic.NormNum
/-
  C19: what the result of SoftMax satisfies in exact arithmetic.
-/
namespace Godeep.Props
open Godeep Spec

variable {K : Type} [Field K] [LinearOrder K] [IsStrictOrderedRing K]

theorem fieldNum_weakOrder : @WeakOrder K (fieldNum K) :=
  letI := fieldNum K
  { irrefl := fun a => by simp [GoNum.lt]
    ntrans := fun a b c => by
      simp only [GoNum.lt, decide_eq_false_iff_not, not_lt]; exact fun h1 h2 => le_trans h2 h1
    asymm := fun a b => by
      simp only [GoNum.lt, decide_eq_true_eq, decide_eq_false_iff_not, not_lt]; exact le_of_lt }

theorem sum0_eq_sum (vs : List K) : @sum0 K (fieldNum K) vs = vs.sum := by
  unfold sum0
  rw [List.sum_eq_foldl]; rfl

theorem sum_map_div (l : List K) (f : K → K) (s : K) :
    (l.map fun v => f v / s).sum = (l.map f).sum / s := by
  induction l with
  | nil => simp
  | cons a l ih => simp [ih, add_div]

/-- If the elements are not all equal, the results are numbers between 0 and 1 that add up to 1,
the smallest element gives 0, and the order of the elements is kept. -/
theorem C19_softMax_normalises (A : STensor K) (i j : List Nat) (hi : InRange A.shape i)
    (hj : InRange A.shape j) (hij : A.get i < A.get j) :
    letI := fieldNum K
    (∀ k, InRange A.shape k → 0 ≤ (shiftNorm A).get k ∧ (shiftNorm A).get k ≤ 1) ∧
    ((allIdx A.shape).map (shiftNorm A).get).sum = 1 ∧
    (∃ k, InRange A.shape k ∧ (∀ l, InRange A.shape l → A.get k ≤ A.get l) ∧ (shiftNorm A).get k = 0) ∧
    (∀ k l, InRange A.shape k → InRange A.shape l →
      (A.get k < A.get l ↔ (shiftNorm A).get k < (shiftNorm A).get l)) := by
  letI := fieldNum K
  have hne : A.flat ≠ [] := by
    intro hc
    have : A.get i ∈ A.flat := by simp only [STensor.flat, List.mem_map, mem_allIdx]; exact ⟨i, hi, rfl⟩
    rw [hc] at this; simp at this
  obtain ⟨hm1, hm2⟩ := min1_spec (fieldNum_weakOrder (K := K)) A.flat hne
  set mn := min1 A.flat with hmn
  have hmem : ∀ k, InRange A.shape k → A.get k ∈ A.flat := by
    intro k hk; simp only [STensor.flat, List.mem_map, mem_allIdx]; exact ⟨k, hk, rfl⟩
  have hle : ∀ k, InRange A.shape k → mn ≤ A.get k := by
    intro k hk
    have := hm2 _ (hmem k hk)
    simpa [GoNum.lt] using this
  set s := sum0 (A.flat.map fun w => GoNum.sub w mn) with hs
  have hs' : s = (A.flat.map fun w => w - mn).sum := by rw [hs, sum0_eq_sum]; rfl
  have hnn : ∀ w ∈ A.flat.map (fun w => w - mn), 0 ≤ w := by
    intro w hw
    obtain ⟨v, hv, rfl⟩ := List.mem_map.1 hw
    have := hm2 v hv
    simp only [GoNum.lt, decide_eq_false_iff_not, not_lt] at this
    exact sub_nonneg.2 this
  have hge : ∀ k, InRange A.shape k → A.get k - mn ≤ s := by
    intro k hk
    rw [hs']
    exact List.single_le_sum hnn _ (List.mem_map.2 ⟨_, hmem k hk, rfl⟩)
  have hpos : 0 < s := by
    have h1 := hge j hj
    have h2 := hle i hi
    have : 0 < A.get j - mn := sub_pos.2 (lt_of_le_of_lt h2 hij)
    exact lt_of_lt_of_le this h1
  have hget : ∀ k, (shiftNorm A).get k = (A.get k - mn) / s := fun k => rfl
  refine ⟨?_, ?_, ?_, ?_⟩
  · intro k hk
    rw [hget]
    exact ⟨div_nonneg (sub_nonneg.2 (hle k hk)) hpos.le, (div_le_one hpos).2 (hge k hk)⟩
  · have : (allIdx A.shape).map (shiftNorm A).get = A.flat.map fun v => (v - mn) / s := by
      simp only [STensor.flat, List.map_map]; rfl
    rw [this, sum_map_div A.flat (fun v => v - mn) s, ← hs', div_self hpos.ne']
  · obtain ⟨k, hk, hke⟩ : ∃ k, InRange A.shape k ∧ A.get k = mn := by
      simpa only [STensor.flat, List.mem_map, mem_allIdx] using hm1
    refine ⟨k, hk, fun l hl => hke ▸ hle l hl, ?_⟩
    rw [hget, hke]; simp
  · intro k l hk hl
    rw [hget, hget, div_lt_div_iff_of_pos_right hpos]
    constructor
    · intro h; linarith
    · intro h; linarith

/-- a concrete case: elements 3 and 5 -/
example : InRange (⟨[2], fun i => if i = [0] then 3 else 5⟩ : STensor ℚ).shape [1] ∧
    (⟨[2], fun i => if i = [0] then 3 else 5⟩ : STensor ℚ).get [0] <
      (⟨[2], fun i => if i = [0] then 3 else 5⟩ : STensor ℚ).get [1] := by
  refine ⟨by decide, by norm_num⟩

end Godeep.Props
