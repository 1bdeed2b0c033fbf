import Verif.Model.Bar
import Verif.Lemmas.Float64
/-
  C58: the progress bar.
-/
namespace Godeep.Props
open Godeep

/-- For every size (of fewer than 2^53 characters) and every progress from 0 to 1 the bar has exactly
`size` characters. -/
theorem C58_bar_length (pro : ℚ) (h0 : 0 ≤ pro) (h1 : pro ≤ 1) (size : ℤ) (hs : size < 2 ^ 53) :
    ∃ s, bar pro size = .ok s ∧ s.length = size.toNat := by
  unfold bar
  by_cases hz : size ≤ 0
  · exact ⟨[], by rw [if_pos hz], by simp; omega⟩
  rw [if_neg hz]
  by_cases h4 : size < 4
  · rw [if_pos h4]
    unfold repeatStr
    rw [if_neg (by omega)]
    exact ⟨_, rfl, by simp⟩
  rw [if_neg h4]
  obtain ⟨n, hn⟩ : ∃ n : Nat, size - 2 = n := ⟨(size - 2).toNat, by omega⟩
  simp only [hn]
  have hnn : n ≤ 2 ^ 53 := by omega
  have e1 : fl64 ((n : ℤ) : ℚ) = n := by rw [Int.cast_natCast]; exact fl64_nat hnn
  rw [e1]
  have hp : (0 : ℚ) ≤ (n : ℚ) * pro := mul_nonneg (by positivity) h0
  have hle : fl64 ((n : ℚ) * pro) ≤ n := by
    have := fl64_mono hp (mul_le_of_le_one_right (by positivity) h1)
    rwa [fl64_nat hnn] at this
  have hge := fl64_nonneg hp
  set v := fl64 ((n : ℚ) * pro) with hv
  have ht : truncInt v = ⌊v⌋ := by unfold truncInt; rw [if_pos hge]
  rw [ht]
  have b1 : 0 ≤ ⌊v⌋ := Int.floor_nonneg.2 hge
  have b2 : ⌊v⌋ ≤ n := by
    have := Int.floor_mono hle
    simpa using this
  unfold repeatStr
  rw [if_neg (by omega : ¬ ((n : ℤ) - ⌊v⌋ < 0)), if_neg (by omega), if_neg (by omega)]
  refine ⟨_, rfl, ?_⟩
  simp only [List.length_append, List.length_cons, List.length_nil, List.length_replicate]
  omega

/-- more progress never shows fewer `#` -/
theorem C58_bar_monotone (p q : ℚ) (h0 : 0 ≤ p) (hpq : p ≤ q) (h1 : q ≤ 1) (size : ℤ) (h4 : 4 ≤ size)
    (hs : size < 2 ^ 53) :
    ∃ s t, bar p size = .ok s ∧ bar q size = .ok t ∧ s.count '#' ≤ t.count '#' := by
  have key : ∀ r : ℚ, 0 ≤ r → r ≤ 1 → ∃ s, bar r size = .ok s ∧
      s.count '#' = ⌊fl64 (((size - 2).toNat : ℚ) * r)⌋.toNat := by
    intro r r0 r1
    unfold bar
    rw [if_neg (by omega), if_neg (by omega)]
    obtain ⟨n, hn⟩ : ∃ n : Nat, size - 2 = n := ⟨(size - 2).toNat, by omega⟩
    simp only [hn, Int.toNat_natCast]
    have hnn : n ≤ 2 ^ 53 := by omega
    have e1 : fl64 ((n : ℤ) : ℚ) = n := by rw [Int.cast_natCast]; exact fl64_nat hnn
    rw [e1]
    have hp : (0 : ℚ) ≤ (n : ℚ) * r := mul_nonneg (by positivity) r0
    have hle : fl64 ((n : ℚ) * r) ≤ n := by
      have := fl64_mono hp (mul_le_of_le_one_right (by positivity) r1)
      rwa [fl64_nat hnn] at this
    have hge := fl64_nonneg hp
    set v := fl64 ((n : ℚ) * r) with hv
    have ht : truncInt v = ⌊v⌋ := by unfold truncInt; rw [if_pos hge]
    rw [ht]
    have b1 : 0 ≤ ⌊v⌋ := Int.floor_nonneg.2 hge
    have b2 : ⌊v⌋ ≤ n := by simpa using Int.floor_mono hle
    unfold repeatStr
    rw [if_neg (by omega : ¬ ((n : ℤ) - ⌊v⌋ < 0)), if_neg (by omega), if_neg (by omega)]
    refine ⟨_, rfl, ?_⟩
    simp [List.count_append, List.count_replicate]
  obtain ⟨s, e1, c1⟩ := key p h0 (le_trans hpq h1)
  obtain ⟨t, e2, c2⟩ := key q (le_trans h0 hpq) h1
  refine ⟨s, t, e1, e2, ?_⟩
  rw [c1, c2]
  refine Int.toNat_le_toNat (Int.floor_mono (fl64_mono (mul_nonneg (by positivity) h0) ?_))
  exact mul_le_mul_of_nonneg_left hpq (by positivity)

/-- the hypotheses are met -/
example : ∃ s, bar (1 / 3) 20 = .ok s ∧ s.length = 20 :=
  C58_bar_length (1 / 3) (by norm_num) (by norm_num) 20 (by norm_num)

end Godeep.Props
