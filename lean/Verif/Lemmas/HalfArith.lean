import Verif.Props.Half
import Verif.Spec.Rounding
import Mathlib.Tactic.Linarith
import Mathlib.Tactic.Ring
import Mathlib.Tactic.FieldSimp
/-
  Rounding to single and then to half precision.
-/
namespace Godeep.F16
open Godeep.Spec

/-- a half and its upper neighbour -/
theorem mag_split (k : Nat) : ∃ a g, a < 2048 ∧ mag k = a * 2 ^ g ∧ mag (k + 1) = (a + 1) * 2 ^ g ∧
    (g = 0 ∨ 1024 ≤ a) ∧ g * 1024 ≤ k ∧ (k < 1024 → g = 0) ∧ (1024 ≤ k → g + 1 = k / 1024) := by
  obtain ⟨e, m, hm, rfl⟩ : ∃ e m, m < 1024 ∧ k = e * 1024 + m := ⟨k / 1024, k % 1024, by omega, by omega⟩
  rw [mag_code hm]
  have h1 : mag (e * 1024 + m + 1) = if m + 1 < 1024 then mag (e * 1024 + (m + 1)) else mag ((e + 1) * 1024 + 0) := by
    split
    · exact congrArg mag (by omega)
    · exact congrArg mag (by omega)
  rw [h1, mag_code (show 0 < 1024 by omega), if_neg (show ¬ e + 1 = 0 by omega)]
  by_cases h0 : e = 0
  · subst h0
    refine ⟨m, 0, by omega, by simp, ?_, Or.inl rfl, by omega, fun _ => rfl, by omega⟩
    split
    · next h => rw [mag_code h]; simp
    · have : m = 1023 := by omega
      subst this; simp
  · refine ⟨1024 + m, e - 1, by omega, by simp [h0], ?_, Or.inr (by omega), by omega, by omega, by omega⟩
    split
    · next h => rw [mag_code h, if_neg h0]; ring
    · have : m = 1023 := by omega
      subst this
      obtain ⟨j, rfl⟩ : ∃ j, e = j + 1 := ⟨e - 1, by omega⟩
      simp only [Nat.add_sub_cancel, pow_succ]; ring

theorem single_of (j : Nat) : ∀ n, n < 2 ^ 24 → j ≤ 253 → ∃ E M, E < 255 ∧ M < 2 ^ 23 ∧ smag E M = n * 2 ^ j := by
  induction j with
  | zero =>
    intro n hn _
    by_cases h : n < 2 ^ 23
    · exact ⟨0, n, by omega, h, by simp [smag]⟩
    · exact ⟨1, n - 2 ^ 23, by omega, by omega, by simp [smag]; omega⟩
  | succ j ih =>
    intro n hn hj
    by_cases h : n < 2 ^ 23
    · obtain ⟨E, M, h1, h2, h3⟩ := ih (2 * n) (by omega) (by omega)
      exact ⟨E, M, h1, h2, by rw [h3, pow_succ]; ring⟩
    · refine ⟨j + 2, n - 2 ^ 23, by omega, by omega, ?_⟩
      rw [smag, if_neg (by omega), Nat.add_sub_cancel' (by omega)]
      rfl

/-- `z` is the value of a finite `float32` -/
def IsSingle (z : ℚ) : Prop := ∃ s e m, FiniteSingle s e m ∧ z = singleVal s e m

theorem IsSingle.neg {z : ℚ} (h : IsSingle z) : IsSingle (-z) := by
  obtain ⟨s, e, m, ⟨h1, h2, h3⟩, rfl⟩ := h
  refine ⟨1 - s, e, m, ⟨by omega, h2, h3⟩, ?_⟩
  rw [singleVal_eq, singleVal_eq]
  obtain rfl | rfl : s = 0 ∨ s = 1 := by omega
  all_goals simp

theorem isSingle_of {n j : Nat} (hn : n < 2 ^ 24) (hj : j ≤ 253) : IsSingle ((n * 2 ^ j : Nat) / 2 ^ 149) := by
  obtain ⟨E, M, h1, h2, h3⟩ := single_of j n hn hj
  exact ⟨0, E, M, ⟨by omega, h1, h2⟩, by rw [singleVal_eq, h3]; simp⟩

/-- midway between a half and its upper neighbour -/
def midv (k : Nat) : ℚ := ((mag k + mag (k + 1) : Nat) : ℚ) / 2 ^ 25

theorem isSingle_mid {k : Nat} (hk : k ≤ 31743) : IsSingle (midv k) := by
  obtain ⟨a, g, h1, h2, h3, h4, h5, _⟩ := mag_split k
  have := isSingle_of (n := 2 * a + 1) (j := g + 124) (by omega) (by omega)
  have e : midv k = (((2 * a + 1) * 2 ^ (g + 124) : Nat) : ℚ) / 2 ^ 149 := by
    rw [midv, h2, h3, show a * 2 ^ g + (a + 1) * 2 ^ g = (2 * a + 1) * 2 ^ g by ring, pow_add, ← mul_assoc, Nat.cast_mul _ (2 ^ 124),
      show (2 : ℚ) ^ 149 = 2 ^ 25 * 2 ^ 124 by norm_num, Nat.cast_pow]
    exact (mul_div_mul_right _ _ (by norm_num)).symm
  rw [e]; exact this

theorem isSingle_zero : IsSingle 0 := by
  have := isSingle_of (n := 0) (j := 0) (by omega) (by omega)
  simpa using this

/-- `y` is a nearest `float32` -/
def Near (y q : ℚ) : Prop := ∀ z, IsSingle z → |y - q| ≤ |z - q|

theorem Near.neg {y q : ℚ} (h : Near y q) : Near (-y) (-q) := fun z hz => by
  have := h (-z) hz.neg
  rw [show -y - -q = -(y - q) by ring, abs_neg, show z - -q = -(-z - q) by ring, abs_neg]
  exact this

theorem Near.lt {y q m : ℚ} (h : Near y q) (hm : IsSingle m) (hq : q < m) : y ≤ m := by
  by_contra hc
  have := h m hm
  rw [abs_of_pos (by linarith), abs_of_pos (by linarith)] at this
  linarith

theorem Near.gt {y q m : ℚ} (h : Near y q) (hm : IsSingle m) (hq : m < q) : m ≤ y := by
  by_contra hc
  have := h m hm
  rw [abs_of_neg (by linarith), abs_of_neg (by linarith)] at this
  linarith

theorem Near.eq {y q : ℚ} (h : Near y q) (hm : IsSingle q) : y = q := by
  have := h q hm
  rw [sub_self, abs_zero] at this
  have := abs_nonpos_iff.1 this
  linarith

/-- what narrowing computes, by comparison with the midpoints -/
theorem narrow_mid {s E M : Nat} (h : FiniteSingle s E M) :
    ∃ r ≤ 31744, narrow (single s E M) = BitVec.ofNat 16 (s * 2 ^ 15 + r) ∧
      (r = 0 ∨ midv (r - 1) ≤ smag E M / 2 ^ 149 ∧ (midv (r - 1) = smag E M / 2 ^ 149 → r % 2 = 0)) ∧
      (r = 31744 ∨ (smag E M : ℚ) / 2 ^ 149 ≤ midv r ∧ (midv r = smag E M / 2 ^ 149 → r % 2 = 0)) := by
  obtain ⟨hs, hE, hM⟩ := h
  have scale : ∀ k : Nat, midv k = (((mag k + mag (k + 1)) * 2 ^ 125 : Nat) : ℚ) / 2 ^ 150 := fun k => by
    rw [midv, Nat.cast_mul _ (2 ^ 125), show (2 : ℚ) ^ 150 = 2 ^ 25 * 2 ^ 125 by norm_num, Nat.cast_pow]
    exact (mul_div_mul_right _ _ (by norm_num)).symm
  have scale' : ((smag E M : Nat) : ℚ) / 2 ^ 149 = ((2 * smag E M : Nat) : ℚ) / 2 ^ 150 := by
    rw [Nat.cast_mul, show (2 : ℚ) ^ 150 = 2 * 2 ^ 149 by norm_num]
    exact (mul_div_mul_left _ _ (by norm_num)).symm
  have hp : (0 : ℚ) < 2 ^ 150 := by positivity
  have le1 : ∀ k, midv k ≤ smag E M / 2 ^ 149 ↔ (mag k + mag (k + 1)) * 2 ^ 125 ≤ 2 * smag E M := fun k => by
    rw [scale, scale', div_le_div_iff_of_pos_right hp, Nat.cast_le]
  have le2 : ∀ k, (smag E M : ℚ) / 2 ^ 149 ≤ midv k ↔ 2 * smag E M ≤ (mag k + mag (k + 1)) * 2 ^ 125 := fun k => by
    rw [scale, scale', div_le_div_iff_of_pos_right hp, Nat.cast_le]
  have eq1 : ∀ k, midv k = smag E M / 2 ^ 149 ↔ (mag k + mag (k + 1)) * 2 ^ 125 = 2 * smag E M := fun k => by
    rw [scale, scale', div_left_inj' (ne_of_gt hp), Nat.cast_inj]
  simp only [le1, le2, eq1]
  by_cases hb : 142 < E
  · exact ⟨31744, le_refl _, narrow_big hs hb hE hM, Or.inr ⟨big_exp M hb, fun _ => rfl⟩, Or.inl rfl⟩
  · obtain ⟨k, r, hk, hn, h1, h2, h3⟩ := narrow_code hs (show E ≤ 142 by omega) hM
    have hU : 0 < 2 ^ 125 := Nat.two_pow_pos _
    generalize 2 ^ 125 = U at *
    have mm : ∀ j, mag j * U < mag (j + 1) * U := fun j => Nat.mul_lt_mul_of_pos_right (mag_lt_succ j) hU
    rcases h3 with ⟨rfl, h3⟩ | ⟨rfl, h3⟩
    · refine ⟨r, by omega, hn, ?_, ?_⟩
      · rcases Nat.eq_zero_or_pos r with h | h
        · exact Or.inl h
        · right
          have := mm (r - 1)
          rw [Nat.sub_add_cancel h] at this ⊢
          rw [add_mul]
          constructor <;> omega
      · right
        rcases h3 with h3 | h3
        · exact ⟨le_of_lt h3, fun h => by omega⟩
        · exact ⟨le_of_eq h3.1, fun h => h3.2⟩
    · refine ⟨k + 1, by omega, hn, Or.inr ?_, ?_⟩
      · rw [Nat.add_sub_cancel]
        rcases h3 with h3 | h3
        · exact ⟨le_of_lt h3, fun h => by omega⟩
        · exact ⟨le_of_eq h3.1.symm, fun h => by omega⟩
      · rcases Nat.lt_or_ge k 31743 with h | h
        · right
          have := mm (k + 1)
          rw [add_mul]
          constructor <;> omega
        · left; omega

/-- the number with code `r` is nearest to `x` -/
theorem nearest_mid {x : ℚ} {r : Nat}
    (h1 : r = 0 ∨ midv (r - 1) ≤ x ∧ (midv (r - 1) = x → r % 2 = 0)) (h2 : x ≤ midv r ∧ (midv r = x → r % 2 = 0)) (c : Nat) :
    |(mag r : ℚ) / 2 ^ 24 - x| ≤ |(mag c : ℚ) / 2 ^ 24 - x| ∧
      (|(mag r : ℚ) / 2 ^ 24 - x| = |(mag c : ℚ) / 2 ^ 24 - x| → c = r ∨ r % 2 = 0) := by
  have mv : ∀ k, midv k = ((mag k : ℚ) / 2 ^ 24 + (mag (k + 1) : ℚ) / 2 ^ 24) / 2 := fun k => by
    rw [midv, Nat.cast_add]; ring
  have mono : ∀ i j, i < j → (mag i : ℚ) / 2 ^ 24 < (mag j : ℚ) / 2 ^ 24 := fun i j h => by
    have := lt_of_lt_of_le (mag_lt_succ i) (mag_mono (show i + 1 ≤ j from h))
    rw [div_lt_div_iff_of_pos_right (by positivity)]
    exact_mod_cast this
  have mono' : ∀ i j, i ≤ j → (mag i : ℚ) / 2 ^ 24 ≤ (mag j : ℚ) / 2 ^ 24 := fun i j h => by
    rcases Nat.lt_or_eq_of_le h with h | rfl
    · exact le_of_lt (mono i j h)
    · exact le_refl _
  generalize hf : (fun k => (mag k : ℚ) / 2 ^ 24) = f at *
  have hf' : ∀ k, (mag k : ℚ) / 2 ^ 24 = f k := fun k => by rw [← hf]
  simp only [hf'] at *
  rw [mv] at h2
  rcases Nat.lt_trichotomy c r with h | rfl | h
  · rcases h1 with rfl | h1
    · omega
    · obtain ⟨j, rfl⟩ : ∃ j, r = j + 1 := ⟨r - 1, by omega⟩
      rw [Nat.add_sub_cancel, mv] at h1
      have a1 := mono j (j + 1) (by omega)
      have a2 := mono' c j (by omega)
      have a3 := mono (j + 1) (j + 1 + 1) (by omega)
      have e : |f c - x| = x - f c := by rw [abs_of_nonpos (by linarith)]; ring
      rw [e]
      rcases abs_cases (f (j + 1) - x) with ⟨h5, h6⟩ | ⟨h5, h6⟩
      · rw [h5]
        refine ⟨by linarith, fun h => Or.inr (h1.2 (by linarith))⟩
      · rw [h5]
        refine ⟨by linarith, fun h => by linarith⟩
  · exact ⟨le_refl _, fun _ => Or.inl rfl⟩
  · have a1 := mono r (r + 1) (by omega)
    have a2 := mono' (r + 1) c (by omega)
    have e : |f c - x| = f c - x := abs_of_nonneg (by linarith)
    rw [e]
    rcases abs_cases (f r - x) with ⟨h5, h6⟩ | ⟨h5, h6⟩
    · rw [h5]
      refine ⟨by linarith, fun h => by linarith⟩
    · rw [h5]
      refine ⟨by linarith, fun h => Or.inr (h2.2 (by linarith))⟩

theorem midv_max : midv 31743 = 65520 := by
  have : mag 31743 + mag 31744 = 65520 * 2 ^ 25 := by decide +kernel
  rw [midv, this]; push_cast; norm_num

theorem sign_mul {s : Nat} (hs : s < 2) : ((-1 : ℚ) ^ s = 1 ∧ s = 0) ∨ ((-1 : ℚ) ^ s = -1 ∧ s = 1) := by
  obtain rfl | rfl : s = 0 ∨ s = 1 := by omega
  · exact Or.inl ⟨pow_zero _, rfl⟩
  · exact Or.inr ⟨pow_one _, rfl⟩

/-- If no midpoint between halves was reached by rounding, rounding twice is rounding once. -/
theorem round_twice {q : ℚ} {c : BitVec 32} (h : NearestSingle q c) (htiny : q ≠ 0 → 1 / 2 ^ 149 ≤ |q|)
    (hmid : ∀ k ≤ 31743, ∀ y, Near y q → (y = midv k ∨ y = -midv k) → y = q) : RoundedHalf q (narrow c) := by
  obtain ⟨s, E, M, hf, rfl, hn⟩ := h
  obtain ⟨r, hr, hc, h1, h2⟩ := narrow_mid hf
  have near : Near (singleVal s E M) q := fun z hz => by
    obtain ⟨s', e', m', h, rfl⟩ := hz
    exact hn s' e' m' h
  have hy : singleVal s E M = (-1) ^ s * ((smag E M : ℚ) / 2 ^ 149) := singleVal_eq s E M
  obtain ⟨y, hyd⟩ : ∃ y : ℚ, y = (smag E M : ℚ) / 2 ^ 149 := ⟨_, rfl⟩
  rw [← hyd] at hy h1 h2
  have y0 : 0 ≤ y := by rw [hyd]; positivity
  -- the signs agree
  obtain ⟨x, hx0, hqx, nx⟩ : ∃ x : ℚ, 0 ≤ x ∧ q = (-1) ^ s * x ∧ Near y x := by
    rcases sign_mul hf.1 with ⟨e, _⟩ | ⟨e, _⟩
    · rw [e, one_mul] at hy
      refine ⟨q, ?_, by rw [e, one_mul], hy ▸ near⟩
      by_contra hneg
      have hneg : q < 0 := lt_of_not_ge hneg
      have hle := near.lt isSingle_zero hneg
      rw [hy] at hle
      have hy0 : y = 0 := le_antisymm hle y0
      have ht := htiny (ne_of_lt hneg)
      rw [abs_of_neg hneg] at ht
      have := near _ (isSingle_of (n := 1) (j := 0) (by omega) (by omega)).neg
      rw [hy, hy0, zero_sub, abs_neg, abs_of_neg hneg] at this
      simp only [pow_zero, Nat.cast_one, mul_one] at this
      rw [abs_of_nonneg (by linarith)] at this
      have : (0 : ℚ) < 1 / 2 ^ 149 := by positivity
      linarith
    · rw [e, neg_one_mul] at hy
      refine ⟨-q, ?_, by rw [e]; ring, ?_⟩
      · by_contra hneg
        have hpos : 0 < q := by linarith
        have hle := near.gt isSingle_zero hpos
        rw [hy] at hle
        have hy0 : y = 0 := by linarith
        have ht := htiny (ne_of_gt hpos)
        rw [abs_of_pos hpos] at ht
        have := near _ (isSingle_of (n := 1) (j := 0) (by omega) (by omega))
        rw [hy, hy0, neg_zero, zero_sub, abs_neg, abs_of_pos hpos] at this
        simp only [pow_zero, Nat.cast_one, mul_one] at this
        rw [abs_of_nonpos (by linarith)] at this
        have : (0 : ℚ) < 1 / 2 ^ 149 := by positivity
        linarith
      · have := near.neg
        rw [hy, neg_neg] at this
        exact this
  have hmid' : ∀ k ≤ 31743, y = midv k → x = y := by
    intro k hk e
    have hq : y = (-1) ^ s * q := by
      rcases sign_mul hf.1 with ⟨e', _⟩ | ⟨e', _⟩
      · have := hmid k hk (singleVal s E M) near (Or.inl (by rw [hy, e', one_mul, e]))
        rw [e', one_mul, ← this, hy, e', one_mul]
      · have := hmid k hk (singleVal s E M) near (Or.inr (by rw [hy, e', neg_one_mul, e]))
        rw [e', neg_one_mul, ← this, hy, e', neg_one_mul, neg_neg]
    rw [hq, hqx, ← mul_assoc]
    rcases sign_mul hf.1 with ⟨e', _⟩ | ⟨e', _⟩ <;> rw [e'] <;> ring
  -- comparison with midpoints
  have lo : ∀ k ≤ 31743, midv k ≤ y → midv k ≤ x := fun k hk h => by
    by_contra hlt
    have hlt : x < midv k := lt_of_not_ge hlt
    have := nx.lt (isSingle_mid hk) hlt
    have := hmid' k hk (le_antisymm this h)
    linarith
  have hi : ∀ k ≤ 31743, y ≤ midv k → x ≤ midv k := fun k hk h => by
    by_contra hlt
    have hlt : midv k < x := lt_of_not_ge hlt
    have := nx.gt (isSingle_mid hk) hlt
    have := hmid' k hk (le_antisymm h this)
    linarith
  have ee : ∀ k ≤ 31743, midv k = x → midv k = y := fun k hk h => by
    rw [nx.eq (h ▸ isSingle_mid hk)]; exact h
  have h1' : r = 0 ∨ midv (r - 1) ≤ x ∧ (midv (r - 1) = x → r % 2 = 0) :=
    h1.imp id fun h => ⟨lo _ (by omega) h.1, fun e => h.2 (ee _ (by omega) e)⟩
  have hax : |q| = x := by
    rw [hqx, abs_mul, abs_of_nonneg hx0]
    rcases sign_mul hf.1 with ⟨e, _⟩ | ⟨e, _⟩ <;> rw [e] <;> simp
  unfold RoundedHalf
  rw [hax]
  rcases Nat.lt_or_ge 31743 r with hr' | hr'
  · have : r = 31744 := by omega
    subst this
    rcases h1' with h | ⟨h, _⟩
    · omega
    · rw [show 31744 - 1 = 31743 from rfl, midv_max] at h
      rw [if_neg (by linarith), hc]
      have hs : (if q < 0 then 1 else 0) = s := by
        rcases sign_mul hf.1 with ⟨e, e'⟩ | ⟨e, e'⟩
        · rw [hqx, e, one_mul, if_neg (by linarith), e']
        · rw [hqx, e, neg_one_mul, if_pos (by linarith), e']
      rw [hs]; rfl
  · have h2' : x ≤ midv r ∧ (midv r = x → r % 2 = 0) := by
      rcases h2 with h | h
      · omega
      · exact ⟨hi r hr' h.1, fun e => h.2 (ee r hr' e)⟩
    have hlt : x < 65520 := by
      rcases Nat.lt_or_ge r 31743 with h | h
      · have m1 : midv r < midv 31743 := by
          have a1 := mag_mono (show r + 1 ≤ 31743 by omega)
          have a2 := mag_lt_succ 31743
          have a3 := mag_lt_succ r
          unfold midv
          rw [div_lt_div_iff_of_pos_right (by positivity)]
          exact_mod_cast (show mag r + mag (r + 1) < mag 31743 + mag (31743 + 1) by omega)
        rw [midv_max] at m1
        linarith [h2'.1]
      · have : r = 31743 := by omega
        subst this
        rw [midv_max] at h2'
        rcases lt_or_eq_of_le h2'.1 with h | h
        · exact h
        · exact absurd (h2'.2 h.symm) (by omega)
    rw [if_pos hlt]
    obtain ⟨e, m, hm, rfl⟩ : ∃ e m, m < 1024 ∧ r = e * 1024 + m := ⟨r / 1024, r % 1024, by omega, by omega⟩
    refine ⟨s, e, m, ⟨hf.1, by omega, hm⟩, hc.trans (congrArg (BitVec.ofNat 16) (by omega)), fun h => ?_, fun h => ?_, fun s' e' m' h => ?_⟩
    · rcases sign_mul hf.1 with ⟨e, e'⟩ | ⟨e, e'⟩
      · exact e'
      · rw [hqx, e] at h; linarith
    · rcases sign_mul hf.1 with ⟨e, e'⟩ | ⟨e, e'⟩
      · rw [hqx, e] at h; linarith
      · exact e'
    · rw [halfVal_eq s hm, halfVal_eq s' h.2.2, hqx]
      have N := nearest_mid h1' h2'
      obtain ⟨v, hv⟩ : ∃ v : ℚ, v = (mag (e * 1024 + m) : ℚ) / 2 ^ 24 := ⟨_, rfl⟩
      obtain ⟨v', hv'⟩ : ∃ v : ℚ, v = (mag (e' * 1024 + m') : ℚ) / 2 ^ 24 := ⟨_, rfl⟩
      have hv0 : 0 ≤ v' := by rw [hv']; exact div_nonneg (Nat.cast_nonneg _) (by norm_num)
      have par : (e * 1024 + m) % 2 = m % 2 := by omega
      have d1 : |(-1 : ℚ) ^ s * v - (-1) ^ s * x| = |v - x| := by
        rw [← mul_sub, abs_mul]
        rcases sign_mul hf.1 with ⟨e, _⟩ | ⟨e, _⟩ <;> rw [e] <;> simp
      rw [← hv, ← hv', d1]
      by_cases hss : s' = s
      · subst hss
        have d2 : |(-1 : ℚ) ^ s' * v' - (-1) ^ s' * x| = |v' - x| := by
          rw [← mul_sub, abs_mul]
          rcases sign_mul hf.1 with ⟨e, _⟩ | ⟨e, _⟩ <;> rw [e] <;> simp
        rw [d2, hv, hv']
        obtain ⟨n1, n2⟩ := N (e' * 1024 + m')
        refine ⟨n1, fun h => ?_⟩
        rcases n2 h with h | h
        · left; rw [h]
        · right; omega
      · have d2 : |(-1 : ℚ) ^ s' * v' - (-1) ^ s * x| = v' + x := by
          rcases sign_mul hf.1 with ⟨e, e1⟩ | ⟨e, e1⟩ <;> rcases sign_mul h.1 with ⟨e', e1'⟩ | ⟨e', e1'⟩ <;> rw [e, e']
          · omega
          · rw [show -1 * v' - 1 * x = -(v' + x) by ring, abs_neg, abs_of_nonneg (by linarith)]
          · rw [show 1 * v' - -1 * x = v' + x by ring, abs_of_nonneg (by linarith)]
          · omega
        obtain ⟨n1, n2⟩ := N 0
        have m0 : mag 0 = 0 := mag_small (by omega)
        rw [m0, Nat.cast_zero, zero_div, zero_sub, abs_neg, abs_of_nonneg hx0, ← hv] at n1 n2
        rw [d2]
        refine ⟨by linarith, fun h => ?_⟩
        rcases n2 (by linarith) with h' | h'
        · right; omega
        · right; omega

/-- around a midpoint, single precision is finer than half precision -/
theorem near_mid {k : Nat} (hk : k ≤ 31743) {q : ℚ} (h : Near (midv k) q) :
    ∃ a g, a < 2048 ∧ mag k = a * 2 ^ g ∧ mag (k + 1) = (a + 1) * 2 ^ g ∧ (g = 0 ∨ 1024 ≤ a) ∧
      |q - midv k| ≤ 2 ^ g / 2 ^ 38 := by
  obtain ⟨a, g, h1, h2, h3, h4, h5, _⟩ := mag_split k
  refine ⟨a, g, h1, h2, h3, h4, ?_⟩
  have e : midv k = (2 * a + 1) * 2 ^ g / 2 ^ 25 := by
    rw [midv, h2, h3]; push_cast; ring
  have up := h _ (isSingle_of (n := (2 * a + 1) * 2 ^ 12 + 1) (j := g + 112) (by omega) (by omega))
  have dn := h _ (isSingle_of (n := (2 * a + 1) * 2 ^ 12 - 1) (j := g + 112) (by omega) (by omega))
  have c1 : ((((2 * a + 1) * 2 ^ 12 + 1) * 2 ^ (g + 112) : Nat) : ℚ) / 2 ^ 149 = midv k + 2 ^ g / 2 ^ 37 := by
    rw [e]; push_cast; rw [pow_add]; field_simp; ring
  have c2 : ((((2 * a + 1) * 2 ^ 12 - 1) * 2 ^ (g + 112) : Nat) : ℚ) / 2 ^ 149 = midv k - 2 ^ g / 2 ^ 37 := by
    rw [e, Nat.cast_mul, Nat.cast_sub (by omega)]; push_cast; rw [pow_add]; field_simp; ring
  rw [c1] at up
  rw [c2] at dn
  have hp : (0 : ℚ) < 2 ^ g / 2 ^ 37 := by positivity
  have h2 : (2 : ℚ) ^ g / 2 ^ 38 = (2 ^ g / 2 ^ 37) / 2 := by
    rw [div_div, show (2 : ℚ) ^ 38 = 2 ^ 37 * 2 by norm_num]
  rw [h2]
  generalize (2 : ℚ) ^ g / 2 ^ 37 = δ at *
  generalize midv k = m at *
  rcases le_total q m with hq | hq
  · rw [abs_of_nonpos (by linarith)]
    rw [abs_of_nonneg (show 0 ≤ m - q by linarith)] at dn
    rcases abs_cases (m - δ - q) with ⟨h5, h6⟩ | ⟨h5, h6⟩ <;> rw [h5] at dn <;> linarith
  · rw [abs_of_nonneg (by linarith)]
    rw [abs_of_nonpos (show m - q ≤ 0 by linarith)] at up
    rcases abs_cases (m + δ - q) with ⟨h5, h6⟩ | ⟨h5, h6⟩ <;> rw [h5] at up <;> linarith

/-- a number of magnitude a half -/
def HalfInt (A : ℤ) : Prop := ∃ i, i ≤ 31743 ∧ A.natAbs = mag i

theorem HalfInt.neg {A : ℤ} (h : HalfInt A) : HalfInt (-A) := by
  obtain ⟨i, hi, h⟩ := h
  exact ⟨i, hi, by rw [Int.natAbs_neg, h]⟩

theorem HalfInt.form {A : ℤ} (h : HalfInt A) : ∃ (a : ℤ) (α : Nat), A = a * 2 ^ α ∧ |a| < 2048 ∧ α ≤ 30 := by
  obtain ⟨i, hi, h⟩ := h
  obtain ⟨a, g, h1, h2, _, _, h5, _⟩ := mag_split i
  rw [h2] at h
  rcases Int.natAbs_eq A with e | e
  · exact ⟨a, g, by rw [e, h]; push_cast; rfl, by rw [abs_of_nonneg (by omega)]; omega, by omega⟩
  · exact ⟨-a, g, by rw [e, h]; push_cast; ring, by rw [abs_neg, abs_of_nonneg (by omega)]; omega, by omega⟩

theorem le_of_dvd {d x : ℤ} (h : d ∣ x) (hx : x ≠ 0) : d ≤ |x| :=
  Int.le_of_dvd (abs_pos.2 hx) ((dvd_abs d x).2 h)

/-- the sum of two halves comes close to a midpoint only by being it -/
theorem add_mid_aux {A B : ℤ} {k a g α β : Nat} {a' b' : ℤ} (hB : HalfInt B) (ha : a < 2048)
    (hk : mag k = a * 2 ^ g) (hk1 : mag (k + 1) = (a + 1) * 2 ^ g)
    (hA' : A = a' * 2 ^ α) (hB' : B = b' * 2 ^ β) (ha' : |a'| < 2048) (hle : α ≤ β)
    (hnear : 2 ^ 13 * |2 * (A + B) - (2 * a + 1) * 2 ^ g| ≤ 2 ^ g) : 2 * (A + B) = (2 * a + 1) * 2 ^ g := by
  by_contra hne
  obtain ⟨D, hD⟩ : ∃ D : ℤ, D = 2 * (A + B) - (2 * a + 1) * 2 ^ g := ⟨_, rfl⟩
  rw [← hD] at hnear
  have hD0 : D ≠ 0 := fun h => hne (by linarith)
  have hpg : (0 : ℤ) < 2 ^ g := by positivity
  have hg : α + 1 < g := by
    by_contra hc
    have h1 : (2 : ℤ) ^ g ∣ D := by
      rw [hD, hA', hB']
      have d1 : (2 : ℤ) ^ g ∣ 2 ^ (α + 1) := pow_dvd_pow 2 (by omega)
      have d2 : (2 : ℤ) ^ g ∣ 2 ^ (β + 1) := pow_dvd_pow 2 (by omega)
      have e : 2 * (a' * 2 ^ α + b' * 2 ^ β) - (2 * a + 1) * 2 ^ g = a' * 2 ^ (α + 1) + b' * 2 ^ (β + 1) - (2 * a + 1) * 2 ^ g := by ring
      rw [e]
      exact dvd_sub (dvd_add (d1.mul_left _) (d2.mul_left _)) (Dvd.intro_left _ rfl)
    have := le_of_dvd h1 hD0
    linarith
  have h1 : (2 : ℤ) ^ (α + 1) ∣ D := by
    rw [hD, hA', hB']
    have d1 : (2 : ℤ) ^ (α + 1) ∣ 2 ^ g := pow_dvd_pow 2 (by omega)
    have d2 : (2 : ℤ) ^ (α + 1) ∣ 2 ^ (β + 1) := pow_dvd_pow 2 (by omega)
    have e : 2 * (a' * 2 ^ α + b' * 2 ^ β) - (2 * a + 1) * 2 ^ g = a' * 2 ^ (α + 1) + b' * 2 ^ (β + 1) - (2 * a + 1) * 2 ^ g := by ring
    rw [e]
    exact dvd_sub (dvd_add (Dvd.intro_left _ rfl) (d2.mul_left _)) (d1.mul_left _)
  have h2 := le_of_dvd h1 hD0
  have hsum : 2 ^ 13 * (2 : ℤ) ^ (α + 1) ≤ 2 ^ g := by linarith
  have habs : |A| < 2048 * 2 ^ α := by
    rw [hA', abs_mul, abs_of_pos (show (0 : ℤ) < 2 ^ α by positivity)]
    exact mul_lt_mul_of_pos_right ha' (by positivity)
  have e1 : (2 : ℤ) ^ (α + 1) = 2 * 2 ^ α := by rw [pow_succ]; ring
  rw [e1] at hsum
  -- so the other one is strictly between two neighbours
  have b1 := abs_lt.1 habs
  have d1 := abs_le.1 (show |D| ≤ |D| from le_refl _)
  have hDg : |D| * 8192 ≤ 2 ^ g := by linarith
  have kk : (mag k : ℤ) = a * 2 ^ g := by exact_mod_cast hk
  have kk1 : (mag (k + 1) : ℤ) = (a + 1) * 2 ^ g := by exact_mod_cast hk1
  obtain ⟨j, _, hj⟩ := hB
  have ag : (0 : ℤ) ≤ a * 2 ^ g := by positivity
  generalize (2 : ℤ) ^ g = G at *
  generalize (2 : ℤ) ^ α = P at *
  have e2 : ((2 * a + 1) * G : ℤ) = 2 * (a * G) + G := by ring
  have e3 : ((a + 1) * G : ℤ) = a * G + G := by ring
  rw [e2] at hD
  rw [e3] at kk1
  generalize (a : ℤ) * G = X at *
  have lower : X < B := by linarith
  have upper : B < X + G := by linarith
  have hj' : (mag j : ℤ) = B := by omega
  have l1 : mag k < mag j := by omega
  have l2 : mag j < mag (k + 1) := by omega
  have j1 : k < j := by
    by_contra h
    have := mag_mono (show j ≤ k by omega)
    omega
  have := mag_mono (show k + 1 ≤ j by omega)
  omega

theorem add_mid {A B : ℤ} (hA : HalfInt A) (hB : HalfInt B) {k : Nat} (hk : k ≤ 31743)
    (h : Near (midv k) (((A + B : ℤ) : ℚ) / 2 ^ 24)) : midv k = ((A + B : ℤ) : ℚ) / 2 ^ 24 := by
  obtain ⟨a, g, h1, h2, h3, h4, h5⟩ := near_mid hk h
  have e : midv k = (2 * a + 1) * 2 ^ g / 2 ^ 25 := by
    rw [midv, h2, h3]; push_cast; ring
  rw [e] at h5 ⊢
  have e2 : ((A + B : ℤ) : ℚ) / 2 ^ 24 - (2 * a + 1) * 2 ^ g / 2 ^ 25 = ((2 * (A + B) - (2 * a + 1) * 2 ^ g : ℤ) : ℚ) / 2 ^ 25 := by
    push_cast; ring
  rw [e2, abs_div, abs_of_pos (show (0 : ℚ) < 2 ^ 25 by positivity), ← Int.cast_abs, div_le_div_iff₀ (by positivity) (by positivity)] at h5
  have h6 : 2 ^ 13 * |2 * (A + B) - (2 * a + 1) * 2 ^ g| ≤ 2 ^ g := by
    have : ((2 ^ 13 * |2 * (A + B) - (2 * a + 1) * 2 ^ g| : ℤ) : ℚ) * 2 ^ 25 ≤ ((2 ^ g : ℤ) : ℚ) * 2 ^ 25 := by
      rw [Int.cast_mul]
      push_cast at h5 ⊢
      linarith
    exact_mod_cast le_of_mul_le_mul_right this (by positivity)
  obtain ⟨a', α, fa, fa', _⟩ := hA.form
  obtain ⟨b', β, fb, fb', _⟩ := hB.form
  have key : 2 * (A + B) = (2 * a + 1) * 2 ^ g := by
    rcases le_total α β with hle | hle
    · exact add_mid_aux hB h1 h2 h3 fa fb fa' hle h6
    · have := add_mid_aux hA h1 h2 h3 fb fa fb' hle (by rw [add_comm B A]; exact h6)
      rw [add_comm]; exact this
  have : ((2 * (A + B) : ℤ) : ℚ) = (2 * a + 1) * 2 ^ g := by rw [key]; push_cast; ring
  rw [← this]; push_cast; ring

/-- the same for quotients -/
theorem div_mid_aux {A B : ℤ} {a g α β : Nat} {a' b' : ℤ} (ha : a < 2048) (hB : 0 < B)
    (hA' : A = a' * 2 ^ α) (hB' : B = b' * 2 ^ β) (ha' : |a'| < 2048) (hb' : |b'| < 2048)
    (hnear : 2 ^ 13 * |2 ^ 25 * A - (2 * a + 1) * 2 ^ g * B| ≤ 2 ^ g * B) : 2 ^ 25 * A = (2 * a + 1) * 2 ^ g * B := by
  by_contra hne
  obtain ⟨D, hD⟩ : ∃ D : ℤ, D = 2 ^ 25 * A - (2 * a + 1) * 2 ^ g * B := ⟨_, rfl⟩
  rw [← hD] at hnear
  have hD0 : D ≠ 0 := fun h => hne (by linarith)
  have e : D = a' * 2 ^ (α + 25) - (2 * a + 1) * b' * 2 ^ (g + β) := by rw [hD, hA', hB']; ring
  have b1 := abs_lt.1 hb'
  have a1 := abs_lt.1 ha'
  rcases Nat.lt_or_ge (α + 25) (g + β) with h | h
  · have h1 : (2 : ℤ) ^ (α + 25) ∣ D := by
      rw [e]
      exact dvd_sub (Dvd.intro_left _ rfl) ((pow_dvd_pow 2 (by omega)).mul_left _)
    have h2 := le_of_dvd h1 hD0
    have hAle : A ≤ 2047 * 2 ^ α := by
      rw [hA']; exact mul_le_mul_of_nonneg_right (by omega) (by positivity)
    have hX : (0 : ℤ) ≤ a * (2 ^ g * B) := by positivity
    have e2 : (2 * a + 1) * 2 ^ g * B = 2 * (a * (2 ^ g * B)) + 2 ^ g * B := by ring
    have e3 : (2 : ℤ) ^ (α + 25) = 2 ^ α * 33554432 := by rw [pow_add]; norm_num
    rw [e3] at h2
    rw [e2] at hD
    have hP : (0 : ℤ) < 2 ^ α := by positivity
    generalize (2 : ℤ) ^ g * B = GB at *
    generalize (a : ℤ) * GB = X at *
    generalize (2 : ℤ) ^ α = P at *
    have hn := neg_abs_le D
    norm_num at hnear hD
    linarith
  · have h1 : (2 : ℤ) ^ (g + β) ∣ D := by
      rw [e]
      exact dvd_sub ((pow_dvd_pow 2 (by omega)).mul_left _) (Dvd.intro_left _ rfl)
    have h2 := le_of_dvd h1 hD0
    have hBle : 2 ^ g * B ≤ 2047 * 2 ^ (g + β) := by
      rw [hB', pow_add]
      have : (0 : ℤ) < 2 ^ g * 2 ^ β := by positivity
      calc 2 ^ g * (b' * 2 ^ β) = b' * (2 ^ g * 2 ^ β) := by ring
        _ ≤ 2047 * (2 ^ g * 2 ^ β) := mul_le_mul_of_nonneg_right (by omega) (by positivity)
    have hP : (0 : ℤ) < 2 ^ (g + β) := by positivity
    linarith

theorem div_mid {A B : ℤ} (hA : HalfInt A) (hB : HalfInt B) (hB0 : 0 < B) {k : Nat} (hk : k ≤ 31743)
    (h : Near (midv k) ((A : ℚ) / B)) : midv k = (A : ℚ) / B := by
  obtain ⟨a, g, h1, h2, h3, h4, h5⟩ := near_mid hk h
  have e : midv k = (2 * a + 1) * 2 ^ g / 2 ^ 25 := by
    rw [midv, h2, h3]; push_cast; ring
  rw [e] at h5 ⊢
  have hBq : (0 : ℚ) < B := by exact_mod_cast hB0
  have e2 : (A : ℚ) / B - (2 * a + 1) * 2 ^ g / 2 ^ 25 = ((2 ^ 25 * A - (2 * a + 1) * 2 ^ g * B : ℤ) : ℚ) / (2 ^ 25 * B) := by
    push_cast; field_simp; norm_num
  rw [e2, abs_div, abs_of_pos (show (0 : ℚ) < 2 ^ 25 * B by positivity), ← Int.cast_abs, div_le_div_iff₀ (by positivity) (by positivity)] at h5
  have h6 : 2 ^ 13 * |2 ^ 25 * A - (2 * a + 1) * 2 ^ g * B| ≤ 2 ^ g * B := by
    have : ((2 ^ 13 * |2 ^ 25 * A - (2 * a + 1) * 2 ^ g * B| : ℤ) : ℚ) * 2 ^ 25 ≤ ((2 ^ g * B : ℤ) : ℚ) * 2 ^ 25 := by
      rw [Int.cast_mul, Int.cast_mul]
      push_cast at h5 ⊢
      linarith
    exact_mod_cast le_of_mul_le_mul_right this (by positivity)
  obtain ⟨a', α, fa, fa', _⟩ := hA.form
  obtain ⟨b', β, fb, fb', _⟩ := hB.form
  have key := div_mid_aux h1 hB0 fa fb fa' fb' h6
  have : (2 : ℚ) ^ 25 * A = (2 * a + 1) * 2 ^ g * B := by exact_mod_cast key
  rw [div_eq_div_iff (by positivity) (ne_of_gt hBq)]
  linarith

end Godeep.F16
