import Verif.Lemmas.Float64
import Verif.Spec.Random
/-
  Rounding to `p + 1` significant bits: monotone, exact on numbers that have so many bits, and what
  a scaled draw can reach.
-/
namespace Godeep
open Spec

/-- rounding to `p + 1` significant bits -/
def flp (p : Nat) (q : ℚ) : ℚ :=
  if q = 0 then 0
  else halfEven (q / 2 ^ (Int.log 2 |q| - p)) * 2 ^ (Int.log 2 |q| - p)

theorem fl64_flp (q : ℚ) : fl64 q = flp 52 q := rfl

theorem halfEven_neg (q : ℚ) : halfEven (-q) = -halfEven q := by
  have h1 := Int.floor_le q
  have h2 := Int.lt_floor_add_one q
  rcases h1.eq_or_lt with h1 | h1
  · rw [← h1]
    have := halfEven_int (-⌊q⌋)
    push_cast at this ⊢
    rw [this, halfEven_int]
  · have hf : ⌊-q⌋ = -⌊q⌋ - 1 := by
      rw [Int.floor_eq_iff]; push_cast; constructor <;> linarith
    unfold halfEven
    rw [hf]
    push_cast
    split_ifs <;> first | omega | linarith | skip
    

theorem flp_zero (p : Nat) : flp p 0 = 0 := by simp [flp]

theorem flp_neg (p : Nat) (q : ℚ) : flp p (-q) = -flp p q := by
  rcases eq_or_ne q 0 with rfl | hq
  · simp [flp_zero]
  unfold flp
  rw [if_neg hq, if_neg (neg_ne_zero.2 hq), abs_neg, neg_div, halfEven_neg]
  push_cast; ring

/-- a positive number lies between two powers of two, so many units of its last place apart -/
theorem log_bounds {q : ℚ} (hq : 0 < q) (p : Nat) :
    (2 ^ p : ℚ) ≤ q / 2 ^ (Int.log 2 q - p) ∧ q / 2 ^ (Int.log 2 q - p) < 2 ^ (p + 1) := by
  have h1 : (2 : ℚ) ^ Int.log 2 q ≤ q := Int.zpow_log_le_self (by norm_num) hq
  have h2 : q < (2 : ℚ) ^ (Int.log 2 q + 1) := Int.lt_zpow_succ_log_self (by norm_num) q
  have hp : (0 : ℚ) < 2 ^ (Int.log 2 q - p) := zpow_pos (by norm_num) _
  constructor
  · rw [le_div_iff₀ hp, ← zpow_natCast, ← zpow_add₀ (by norm_num)]
    simpa using h1
  · rw [div_lt_iff₀ hp, ← zpow_natCast, ← zpow_add₀ (by norm_num)]
    refine lt_of_lt_of_eq h2 ?_
    congr 1; push_cast; ring

theorem flp_scaled (p : Nat) {q : ℚ} (hq : 0 < q) :
    (2 : ℚ) ^ Int.log 2 q ≤ flp p q ∧ flp p q ≤ 2 ^ (Int.log 2 q + 1) := by
  obtain ⟨h1, h2⟩ := log_bounds hq p
  have hp : (0 : ℚ) < 2 ^ (Int.log 2 q - p) := zpow_pos (by norm_num) _
  unfold flp
  rw [if_neg hq.ne', abs_of_pos hq]
  have a1 : (2 ^ p : ℤ) ≤ halfEven (q / 2 ^ (Int.log 2 q - p)) := by
    have := halfEven_mono (a := ((2 ^ p : ℤ) : ℚ)) (by exact_mod_cast h1)
    rwa [halfEven_int] at this
  have a2 : halfEven (q / 2 ^ (Int.log 2 q - p)) ≤ (2 ^ (p + 1) : ℤ) := by
    have := halfEven_mono (b := ((2 ^ (p + 1) : ℤ) : ℚ)) (by exact_mod_cast h2.le)
    rwa [halfEven_int] at this
  constructor
  · have : (2 : ℚ) ^ Int.log 2 q = (2 ^ p : ℤ) * 2 ^ (Int.log 2 q - p) := by
      push_cast; rw [← zpow_natCast, ← zpow_add₀ (by norm_num)]; congr 1; ring
    rw [this]
    exact mul_le_mul_of_nonneg_right (by exact_mod_cast a1) hp.le
  · have : (2 : ℚ) ^ (Int.log 2 q + 1) = (2 ^ (p + 1) : ℤ) * 2 ^ (Int.log 2 q - p) := by
      push_cast; rw [← zpow_natCast, ← zpow_add₀ (by norm_num)]; congr 1; push_cast; ring
    rw [this]
    exact mul_le_mul_of_nonneg_right (by exact_mod_cast a2) hp.le

theorem flp_nonneg (p : Nat) {q : ℚ} (hq : 0 ≤ q) : 0 ≤ flp p q := by
  rcases hq.eq_or_lt with rfl | hq
  · simp [flp_zero]
  · exact le_trans (zpow_pos (by norm_num) _).le (flp_scaled p hq).1

theorem flp_mono_nonneg (p : Nat) {a b : ℚ} (ha : 0 ≤ a) (h : a ≤ b) : flp p a ≤ flp p b := by
  rcases ha.eq_or_lt with rfl | ha
  · rw [flp_zero]; exact flp_nonneg p h
  have hb : 0 < b := lt_of_lt_of_le ha h
  have hl : Int.log 2 a ≤ Int.log 2 b := Int.log_mono_right ha h
  rcases hl.eq_or_lt with hl | hl
  · unfold flp
    rw [if_neg ha.ne', if_neg hb.ne', abs_of_pos ha, abs_of_pos hb, hl]
    have hp : (0 : ℚ) < 2 ^ (Int.log 2 b - p) := zpow_pos (by norm_num) _
    have := halfEven_mono (div_le_div_of_nonneg_right h hp.le)
    exact mul_le_mul_of_nonneg_right (by exact_mod_cast this) hp.le
  · refine le_trans (flp_scaled p ha).2 (le_trans ?_ (flp_scaled p hb).1)
    exact zpow_le_zpow_right₀ (by norm_num) (by omega)

theorem flp_mono (p : Nat) {a b : ℚ} (h : a ≤ b) : flp p a ≤ flp p b := by
  rcases le_total 0 a with ha | ha
  · exact flp_mono_nonneg p ha h
  rcases le_total 0 b with hb | hb
  · have h1 := flp_nonneg p (neg_nonneg.2 ha)
    rw [flp_neg] at h1
    have := flp_nonneg p hb
    linarith
  · have := flp_mono_nonneg p (neg_nonneg.2 hb) (neg_le_neg h)
    rw [flp_neg, flp_neg] at this
    linarith

/-- exact on the multiples of a power of two with few enough bits -/
theorem flp_exact (p : Nat) {m : ℤ} (e : ℤ) (hm : |m| ≤ 2 ^ (p + 1)) : flp p (m * 2 ^ e) = m * 2 ^ e := by
  rcases eq_or_ne m 0 with rfl | hm0
  · simp [flp_zero]
  have h2e : (0 : ℚ) < 2 ^ e := zpow_pos (by norm_num) _
  obtain ⟨q, hq⟩ : ∃ q : ℚ, q = m * 2 ^ e := ⟨_, rfl⟩
  have hq0 : q ≠ 0 := by rw [hq]; exact mul_ne_zero (by exact_mod_cast hm0) h2e.ne'
  have hqa : |q| = |m| * 2 ^ e := by rw [hq, abs_mul, abs_of_pos h2e, Int.cast_abs]
  have hpos : 0 < |q| := abs_pos.2 hq0
  rw [← hq]
  have key : ∃ k : ℤ, q / 2 ^ (Int.log 2 |q| - p) = k := by
    by_cases hle : Int.log 2 |q| - p ≤ e
    · obtain ⟨j, hj⟩ := Int.eq_ofNat_of_zero_le (sub_nonneg.2 hle)
      refine ⟨m * 2 ^ j, ?_⟩
      rw [hq, mul_div_assoc, ← zpow_sub₀ (by norm_num), ← hq, hj]
      push_cast
      rw [zpow_natCast]
    · have h1 : (2 : ℚ) ^ Int.log 2 |q| ≤ |q| := Int.zpow_log_le_self (by norm_num) hpos
      have h3 : |q| ≤ 2 ^ ((p : ℤ) + 1 + e) := by
        rw [hqa, zpow_add₀ (by norm_num)]
        refine mul_le_mul_of_nonneg_right ?_ h2e.le
        have : ((|m| : ℤ) : ℚ) ≤ ((2 ^ (p + 1) : ℤ) : ℚ) := by exact_mod_cast hm
        refine le_trans this (le_of_eq ?_)
        push_cast; rw [← zpow_natCast]; push_cast; rfl
      have h4 : Int.log 2 |q| ≤ (p : ℤ) + 1 + e := by
        have := le_trans h1 h3
        exact (zpow_le_zpow_iff_right₀ (by norm_num : (1 : ℚ) < 2)).1 this
      have h5 : Int.log 2 |q| = (p : ℤ) + 1 + e := by omega
      have h6 : |q| = 2 ^ ((p : ℤ) + 1 + e) := le_antisymm h3 (by rw [← h5]; exact h1)
      have h7 : |q| / 2 ^ (Int.log 2 |q| - p) = ((2 ^ p : ℤ) : ℚ) := by
        rw [h5, h6, ← zpow_sub₀ (by norm_num)]
        push_cast; rw [← zpow_natCast]; congr 1; ring
      rcases abs_choice q with hc | hc
      · refine ⟨2 ^ p, ?_⟩
        rw [← h7]; congr 1; exact hc.symm
      · refine ⟨-2 ^ p, ?_⟩
        rw [Int.cast_neg, ← h7, ← neg_div]; congr 1; rw [hc]; ring
  obtain ⟨k, hk⟩ := key
  unfold flp
  rw [if_neg hq0, hk, halfEven_int, ← hk]
  exact div_mul_cancel₀ _ (zpow_pos (by norm_num) _).ne'

theorem IsFloat.flp {p : Nat} {q : ℚ} (h : IsFloat (p + 1) q) : flp p q = q := by
  obtain ⟨m, e, hm, rfl⟩ := h
  exact flp_exact p e hm.le

/-- below the midpoint of two neighbours the rounding stays with the lower one -/
theorem flp_lt_mid (p : Nat) {n e : ℤ} {y : ℚ} (hn : 2 ^ p ≤ n) (hn' : n < 2 ^ (p + 1)) (hy : y < (n + 1 / 2) * 2 ^ e) :
    flp p y ≤ n * 2 ^ e := by
  have h2e : (0 : ℚ) < 2 ^ e := zpow_pos (by norm_num) _
  have hn0 : (0 : ℤ) < n := lt_of_lt_of_le (by positivity) hn
  have hex : flp p (n * 2 ^ e) = n * 2 ^ e := flp_exact p e (by rw [abs_of_pos hn0]; exact hn'.le)
  rcases le_total y (n * 2 ^ e) with h | h
  · rw [← hex]; exact flp_mono p h
  have hnq : (0 : ℚ) < n := by exact_mod_cast hn0
  have hy0 : 0 < y := lt_of_lt_of_le (mul_pos hnq h2e) h
  have hlog : Int.log 2 y = e + p := by
    apply le_antisymm
    · apply Int.lt_add_one_iff.1
      refine (Int.lt_zpow_iff_log_lt (by norm_num) hy0).1 ?_
      refine lt_of_lt_of_le hy ?_
      have : ((n + 1 : ℤ) : ℚ) ≤ ((2 ^ (p + 1) : ℤ) : ℚ) := by exact_mod_cast hn'
      push_cast at this
      calc ((n : ℚ) + 1 / 2) * 2 ^ e ≤ 2 ^ (p + 1) * 2 ^ e := mul_le_mul_of_nonneg_right (by linarith) h2e.le
        _ = 2 ^ (e + p + 1) := by
          rw [← zpow_natCast, ← zpow_add₀ (by norm_num)]; congr 1; push_cast; ring
    · refine (Int.zpow_le_iff_le_log (by norm_num) hy0).1 ?_
      refine le_trans ?_ h
      have : ((2 ^ p : ℤ) : ℚ) ≤ n := by exact_mod_cast hn
      push_cast at this
      calc (2 : ℚ) ^ (e + p) = 2 ^ p * 2 ^ e := by
            rw [← zpow_natCast, ← zpow_add₀ (by norm_num)]; congr 1; ring
        _ ≤ n * 2 ^ e := mul_le_mul_of_nonneg_right this h2e.le
  unfold flp
  rw [if_neg hy0.ne', abs_of_pos hy0, hlog, add_sub_cancel_right]
  refine mul_le_mul_of_nonneg_right ?_ h2e.le
  have b1 : (n : ℚ) ≤ y / 2 ^ e := (le_div_iff₀ h2e).2 h
  have b2 : y / 2 ^ e < n + 1 / 2 := (div_lt_iff₀ h2e).2 hy
  have hf : ⌊y / 2 ^ e⌋ = n := Int.floor_eq_iff.2 ⟨b1, by linarith⟩
  have : halfEven (y / 2 ^ e) = n := by
    unfold halfEven
    rw [hf, if_pos (by linarith)]
  rw [this]

/-- a rounded length, scaled by a draw and rounded again, is at most the exact length -/
theorem flp_shrink (p : Nat) {u x : ℚ} (hu : u ≤ 1 - 1 / 2 ^ (p + 1)) (hx : 0 ≤ x) : flp p (u * flp p x) ≤ x := by
  rcases hx.eq_or_lt with rfl | hx
  · simp [flp_zero]
  obtain ⟨l1, l2⟩ := log_bounds hx p
  obtain ⟨e, he⟩ : ∃ e : ℤ, e = Int.log 2 x - p := ⟨_, rfl⟩
  rw [← he] at l1 l2
  have h2e : (0 : ℚ) < 2 ^ e := zpow_pos (by norm_num) _
  obtain ⟨n, hn⟩ : ∃ n : ℤ, n = halfEven (x / 2 ^ e) := ⟨_, rfl⟩
  have hd : flp p x = n * 2 ^ e := by
    unfold flp
    rw [if_neg hx.ne', abs_of_pos hx, hn, he]
  have herr := abs_le.1 (halfEven_err (x / 2 ^ e))
  rw [← hn] at herr
  have n1 : (2 ^ p : ℤ) ≤ n := by
    rw [hn]
    have := halfEven_mono (a := ((2 ^ p : ℤ) : ℚ)) (by exact_mod_cast l1)
    rwa [halfEven_int] at this
  have n2 : n ≤ (2 ^ (p + 1) : ℤ) := by
    rw [hn]
    have := halfEven_mono (b := ((2 ^ (p + 1) : ℤ) : ℚ)) (by exact_mod_cast l2.le)
    rwa [halfEven_int] at this
  have n1q : (2 ^ p : ℚ) ≤ n := by exact_mod_cast n1
  have n0 : (0 : ℚ) < n := lt_of_lt_of_le (by positivity) n1q
  have hxe : x = x / 2 ^ e * 2 ^ e := (div_mul_cancel₀ _ h2e.ne').symm
  rw [hd]
  rcases n1.eq_or_lt with h | h
  · -- the length was a power of two: nothing was added by the first rounding
    have hle : (n : ℚ) * 2 ^ e ≤ x := by
      rw [hxe]; refine mul_le_mul_of_nonneg_right ?_ h2e.le
      rw [← h]; push_cast; exact l1
    refine le_trans (le_trans (flp_mono p ?_) (le_of_eq (flp_exact p (m := n) e ?_))) hle
    · have : u ≤ 1 := le_trans hu (by have : (0 : ℚ) < 1 / 2 ^ (p + 1) := by positivity
                                      linarith)
      nlinarith [mul_pos n0 h2e]
    · rw [abs_of_pos (by exact_mod_cast n0)]; exact n2
  · -- otherwise the second rounding gets at most the number before
    have hlow : ((n - 1 : ℤ) : ℚ) * 2 ^ e ≤ x := by
      rw [hxe]; refine mul_le_mul_of_nonneg_right ?_ h2e.le
      push_cast; linarith [herr.2]
    refine le_trans (flp_lt_mid p (by omega) (by omega) ?_) hlow
    have h2 : (2 ^ p : ℚ) < n := by exact_mod_cast h
    have h3 : u * (n * 2 ^ e) ≤ (1 - 1 / 2 ^ (p + 1)) * (n * 2 ^ e) :=
      mul_le_mul_of_nonneg_right hu (mul_pos n0 h2e).le
    refine lt_of_le_of_lt h3 ?_
    have h4 : (1 / 2 : ℚ) < n / 2 ^ (p + 1) := by
      rw [lt_div_iff₀ (by positivity), pow_succ]; linarith
    push_cast
    have : (1 - 1 / 2 ^ (p + 1) : ℚ) * (n * 2 ^ e) = (n - n / 2 ^ (p + 1)) * 2 ^ e := by ring
    rw [this]
    refine mul_lt_mul_of_pos_right ?_ h2e
    linarith

/-- a draw is at least one unit of the last place below 1 -/
theorem draw_le {u : ℚ} (h : Draw u) : u ≤ 1 - 1 / 2 ^ (52 + 1) := by
  obtain ⟨hf, h0, h1⟩ := h
  rcases lt_or_ge u (1 / 2) with hu | hu
  · refine le_trans hu.le ?_; norm_num
  have hu0 : 0 < u := by linarith
  have hl : Int.log 2 u = -1 := by
    apply le_antisymm
    · have : Int.log 2 u < 0 := (Int.lt_zpow_iff_log_lt (by norm_num) hu0).1 (by simpa using h1)
      omega
    · exact (Int.zpow_le_iff_le_log (by norm_num) hu0).1 (by norm_num; linarith)
  have he : flp 52 u = u := IsFloat.flp (p := 52) hf
  unfold flp at he
  rw [if_neg hu0.ne', abs_of_pos hu0, hl] at he
  obtain ⟨n, hn⟩ : ∃ n : ℤ, n = halfEven (u / 2 ^ ((-1 : ℤ) - (52 : ℕ))) := ⟨_, rfl⟩
  rw [← hn] at he
  have hz : (2 : ℚ) ^ ((-1 : ℤ) - (52 : ℕ)) = 1 / 2 ^ 53 := by
    rw [show ((-1 : ℤ) - (52 : ℕ)) = -((53 : ℕ) : ℤ) by norm_num, zpow_neg, zpow_natCast, one_div]
  rw [hz] at he
  have hlt : n < 2 ^ 53 := by
    have : (n : ℚ) < 2 ^ 53 := by
      have := he ▸ h1
      have h3 : (0 : ℚ) < 1 / 2 ^ 53 := by positivity
      by_contra hc
      have h4 := mul_le_mul_of_nonneg_right (not_lt.1 hc) h3.le
      have h5 : (2 ^ 53 : ℚ) * (1 / 2 ^ 53) = 1 := by norm_num
      linarith
    exact_mod_cast this
  have : (n : ℚ) ≤ 2 ^ 53 - 1 := by exact_mod_cast (by omega : n ≤ 2 ^ 53 - 1)
  rw [← he]
  have h3 : (0 : ℚ) < 1 / 2 ^ 53 := by positivity
  have := mul_le_mul_of_nonneg_right this h3.le
  refine le_trans this ?_
  norm_num

end Godeep
