import Verif.Model.Float64
import Mathlib.Tactic.Linarith
import Mathlib.Tactic.Positivity
import Mathlib.Tactic.Ring
import Mathlib.Tactic.FieldSimp
import Mathlib.Tactic.NormNum
/-
  Rounding to 53 bits: monotone, exact on small integers, relative error at most 2^-53.
-/
namespace Godeep

theorem halfEven_mono {a b : ℚ} (h : a ≤ b) : halfEven a ≤ halfEven b := by
  have hf : ⌊a⌋ ≤ ⌊b⌋ := Int.floor_mono h
  have ha := Int.floor_le a
  have hb := Int.floor_le b
  by_cases he : ⌊a⌋ = ⌊b⌋
  · unfold halfEven
    rw [← he]
    split_ifs <;> first | omega | (exfalso; linarith)
  · have h1 : halfEven a ≤ ⌊a⌋ + 1 := by unfold halfEven; split_ifs <;> omega
    have h2 : ⌊b⌋ ≤ halfEven b := by unfold halfEven; split_ifs <;> omega
    omega

theorem halfEven_int (n : ℤ) : halfEven n = n := by
  unfold halfEven; simp

theorem halfEven_err (q : ℚ) : |(halfEven q : ℚ) - q| ≤ 1 / 2 := by
  have h1 := Int.floor_le q
  have h2 := Int.lt_floor_add_one q
  unfold halfEven
  rw [abs_le]
  split_ifs <;> push_cast <;> constructor <;> linarith

theorem fl64_zero : fl64 0 = 0 := by simp [fl64]

theorem pow52 (x : ℤ) : (2 : ℚ) ^ x / 2 ^ (x - 52) = 2 ^ (52 : ℕ) := by
  rw [← zpow_sub₀ (by norm_num), ← zpow_natCast]; congr 1; push_cast; ring

theorem fl64_err {q : ℚ} (hq : 0 ≤ q) : |fl64 q - q| ≤ q / 2 ^ 53 := by
  rcases hq.eq_or_lt with rfl | hq
  · simp [fl64_zero]
  unfold fl64
  rw [if_neg hq.ne', abs_of_pos hq]
  set e := Int.log 2 q - 52 with he
  have hp : (0 : ℚ) < 2 ^ e := zpow_pos (by norm_num) _
  have h1 := halfEven_err (q / 2 ^ e)
  have h2 : (halfEven (q / 2 ^ e) : ℚ) * 2 ^ e - q = ((halfEven (q / 2 ^ e) : ℚ) - q / 2 ^ e) * 2 ^ e := by
    field_simp
  rw [h2, abs_mul, abs_of_pos hp]
  have h3 : (2 : ℚ) ^ Int.log 2 q ≤ q := Int.zpow_log_le_self (b := 2) (by norm_num) hq
  have h4 : (2 : ℚ) ^ e * 2 ^ 52 = 2 ^ Int.log 2 q := by
    have := pow52 (Int.log 2 q)
    field_simp at this
    rw [he]; linarith
  calc _ ≤ 1 / 2 * (2 : ℚ) ^ e := by gcongr
    _ ≤ q / 2 ^ 53 := by
      rw [le_div_iff₀ (by positivity)]
      have : (2 : ℚ) ^ 53 = 2 * 2 ^ 52 := by norm_num
      rw [this]; linarith

theorem fl64_scaled {q : ℚ} (hq : 0 < q) :
    (2 : ℚ) ^ Int.log 2 q ≤ fl64 q ∧ fl64 q ≤ 2 ^ (Int.log 2 q + 1) := by
  unfold fl64
  rw [if_neg hq.ne', abs_of_pos hq]
  set e := Int.log 2 q - 52 with he
  have hp : (0 : ℚ) < 2 ^ e := zpow_pos (by norm_num) _
  have h3 : (2 : ℚ) ^ Int.log 2 q ≤ q := Int.zpow_log_le_self (b := 2) (by norm_num) hq
  have h4 : q < (2 : ℚ) ^ (Int.log 2 q + 1) := Int.lt_zpow_succ_log_self (b := 2) (by norm_num) q
  have e1 : (2 : ℚ) ^ Int.log 2 q = ((2 ^ 52 : ℤ) : ℚ) * 2 ^ e := by
    have := pow52 (Int.log 2 q)
    field_simp at this
    rw [he]; push_cast; linarith
  have e2 : (2 : ℚ) ^ (Int.log 2 q + 1) = ((2 ^ 53 : ℤ) : ℚ) * 2 ^ e := by
    rw [zpow_add₀ (by norm_num), e1]; push_cast; ring
  constructor
  · rw [e1]
    gcongr
    have : halfEven ((2 ^ 52 : ℤ) : ℚ) ≤ halfEven (q / 2 ^ e) :=
      halfEven_mono (by rw [le_div_iff₀ hp, ← e1]; exact h3)
    rwa [halfEven_int] at this
  · rw [e2]
    gcongr
    have : halfEven (q / 2 ^ e) ≤ halfEven ((2 ^ 53 : ℤ) : ℚ) :=
      halfEven_mono (by rw [div_le_iff₀ hp, ← e2]; exact h4.le)
    rwa [halfEven_int] at this

theorem fl64_nonneg {q : ℚ} (hq : 0 ≤ q) : 0 ≤ fl64 q := by
  rcases hq.eq_or_lt with rfl | hq
  · simp [fl64_zero]
  · exact le_trans (zpow_pos (by norm_num) _).le (fl64_scaled hq).1

theorem fl64_mono {a b : ℚ} (ha : 0 ≤ a) (h : a ≤ b) : fl64 a ≤ fl64 b := by
  rcases ha.eq_or_lt with rfl | ha
  · rw [fl64_zero]; exact fl64_nonneg h
  have hb : 0 < b := lt_of_lt_of_le ha h
  have hl : Int.log 2 a ≤ Int.log 2 b := Int.log_mono_right ha h
  rcases hl.eq_or_lt with hl | hl
  · unfold fl64
    rw [if_neg ha.ne', if_neg hb.ne', abs_of_pos ha, abs_of_pos hb, hl]
    have hp : (0 : ℚ) < 2 ^ (Int.log 2 b - 52) := zpow_pos (by norm_num) _
    have := halfEven_mono (div_le_div_of_nonneg_right h hp.le)
    exact mul_le_mul_of_nonneg_right (by exact_mod_cast this) hp.le
  · refine le_trans (fl64_scaled ha).2 (le_trans ?_ (fl64_scaled hb).1)
    exact zpow_le_zpow_right₀ (by norm_num) (by omega)

theorem fl64_nat {n : Nat} (hn : n ≤ 2 ^ 53) : fl64 n = n := by
  rcases Nat.eq_zero_or_pos n with rfl | hp
  · simp [fl64_zero]
  have hq : (0 : ℚ) < n := by exact_mod_cast hp
  rcases hn.eq_or_lt with rfl | hn
  · have := fl64_err (q := ((2 ^ 53 : ℕ) : ℚ)) (by positivity)
    unfold fl64
    rw [if_neg hq.ne', abs_of_pos hq]
    have hl : Int.log 2 ((2 ^ 53 : ℕ) : ℚ) = 53 := by
      rw [Int.log_natCast, Nat.log_pow (by norm_num)]; norm_num
    rw [hl]
    have : (((2 ^ 53 : ℕ) : ℚ)) / 2 ^ ((53 : ℤ) - 52) = ((2 ^ 52 : ℤ) : ℚ) := by norm_num
    rw [this, halfEven_int]; norm_num
  · have hl : Int.log 2 (n : ℚ) ≤ 52 := by
      rw [Int.log_natCast]
      have : Nat.log 2 n < 53 := Nat.log_lt_of_lt_pow hp.ne' hn
      exact_mod_cast (by omega : Nat.log 2 n ≤ 52)
    unfold fl64
    rw [if_neg hq.ne', abs_of_pos hq]
    obtain ⟨k, hk⟩ : ∃ k : ℕ, Int.log 2 (n : ℚ) - 52 = -(k : ℤ) := ⟨(52 - Int.log 2 (n : ℚ)).toNat, by omega⟩
    rw [hk]
    have : (n : ℚ) / 2 ^ (-(k : ℤ)) = ((n * 2 ^ k : ℤ) : ℚ) := by
      rw [zpow_neg]; push_cast; rw [zpow_natCast]; field_simp
    rw [this, halfEven_int, zpow_neg, zpow_natCast]; push_cast; field_simp

theorem fl64_err_abs (q : ℚ) : |fl64 q - q| ≤ |q| / 2 ^ 53 := by
  rcases eq_or_ne q 0 with rfl | hq
  · simp [fl64_zero]
  have ha : 0 < |q| := abs_pos.2 hq
  unfold fl64
  rw [if_neg hq]
  set e := Int.log 2 |q| - 52 with he
  have hp : (0 : ℚ) < 2 ^ e := zpow_pos (by norm_num) _
  have h1 := halfEven_err (q / 2 ^ e)
  have h2 : (halfEven (q / 2 ^ e) : ℚ) * 2 ^ e - q = ((halfEven (q / 2 ^ e) : ℚ) - q / 2 ^ e) * 2 ^ e := by
    field_simp
  rw [h2, abs_mul, abs_of_pos hp]
  have h3 : (2 : ℚ) ^ Int.log 2 |q| ≤ |q| := Int.zpow_log_le_self (by norm_num) ha
  have h4 : (2 : ℚ) ^ Int.log 2 |q| = 2 ^ e * 2 ^ 52 := by
    rw [he, zpow_sub₀ (by norm_num)]; norm_num
  rw [h4] at h3
  calc |(halfEven (q / 2 ^ e) : ℚ) - q / 2 ^ e| * 2 ^ e ≤ 1 / 2 * 2 ^ e := by gcongr
    _ ≤ |q| / 2 ^ 53 := by rw [le_div_iff₀ (by norm_num)]; nlinarith

/-- `x'` is `x` after `k` roundings, in units of `y` -/
def Near (k : Nat) (x' x y : ℚ) : Prop := |x| ≤ y ∧ |x' - x| ≤ ((1 + 1 / 2 ^ 53) ^ k - 1) * y

theorem near_pow (k : Nat) : (1 : ℚ) ≤ (1 + 1 / 2 ^ 53) ^ k := one_le_pow₀ (by norm_num)

theorem Near.exact (x : ℚ) {y : ℚ} (h : |x| ≤ y) : Near 0 x x y := ⟨h, by simp⟩

theorem Near.mono {j k : Nat} {x' x y : ℚ} (h : Near j x' x y) (hjk : j ≤ k) : Near k x' x y := by
  refine ⟨h.1, le_trans h.2 (mul_le_mul_of_nonneg_right ?_ (le_trans (abs_nonneg _) h.1))⟩
  have : (1 + 1 / 2 ^ 53 : ℚ) ^ j ≤ (1 + 1 / 2 ^ 53) ^ k := pow_le_pow_right₀ (by norm_num) hjk
  linarith

theorem Near.abs {k : Nat} {x' x y : ℚ} (h : Near k x' x y) : |x'| ≤ (1 + 1 / 2 ^ 53) ^ k * y := by
  have h1 : |x'| ≤ |x' - x| + |x| := by simpa using abs_add_le (x' - x) x
  have := h.1; have := h.2
  linarith

theorem Near.fl {k : Nat} {x' x y : ℚ} (h : Near k x' x y) : Near (k + 1) (fl64 x') x y := by
  refine ⟨h.1, ?_⟩
  have h1 := fl64_err_abs x'
  have h2 := h.abs
  have h3 : |fl64 x' - x| ≤ |fl64 x' - x'| + |x' - x| := by
    have := abs_add_le (fl64 x' - x') (x' - x); simpa using this
  have h4 : |x'| / 2 ^ 53 ≤ (1 + 1 / 2 ^ 53) ^ k * y / 2 ^ 53 := by gcongr
  have h5 := h.2
  rw [pow_succ]
  linarith

theorem Near.add {k : Nat} {a' a ya b' b yb : ℚ} (ha : Near k a' a ya) (hb : Near k b' b yb) :
    Near k (a' + b') (a + b) (ya + yb) := by
  refine ⟨le_trans (abs_add_le _ _) (add_le_add ha.1 hb.1), ?_⟩
  have : |a' + b' - (a + b)| ≤ |a' - a| + |b' - b| := by
    have := abs_add_le (a' - a) (b' - b); rwa [show a' - a + (b' - b) = a' + b' - (a + b) by ring] at this
  have := ha.2; have := hb.2
  linarith

theorem Near.mul {j k : Nat} {a' a ya b' b yb : ℚ} (ha : Near j a' a ya) (hb : Near k b' b yb) :
    Near (j + k) (a' * b') (a * b) (ya * yb) := by
  have y1 : 0 ≤ ya := le_trans (abs_nonneg _) ha.1
  have y2 : 0 ≤ yb := le_trans (abs_nonneg _) hb.1
  refine ⟨by rw [abs_mul]; exact mul_le_mul ha.1 hb.1 (abs_nonneg _) y1, ?_⟩
  have e : a' * b' - a * b = (a' - a) * b' + a * (b' - b) := by ring
  have h1 : |a' * b' - a * b| ≤ |a' - a| * |b'| + |a| * |b' - b| := by
    rw [e]; exact le_trans (abs_add_le _ _) (by rw [abs_mul, abs_mul])
  have p1 := near_pow j
  have p2 := near_pow k
  have h2 : |a' - a| * |b'| ≤ (((1 + 1 / 2 ^ 53) ^ j - 1) * ya) * ((1 + 1 / 2 ^ 53) ^ k * yb) :=
    mul_le_mul ha.2 hb.abs (abs_nonneg _) (mul_nonneg (by linarith) y1)
  have h3 : |a| * |b' - b| ≤ ya * (((1 + 1 / 2 ^ 53) ^ k - 1) * yb) :=
    mul_le_mul ha.1 hb.2 (abs_nonneg _) y1
  rw [pow_add]
  nlinarith

theorem Near.one_sub {k : Nat} {a' a : ℚ} (h : Near k a' a 1) (h0 : 0 ≤ a) : Near k (1 - a') (1 - a) 1 := by
  have := abs_le.1 h.1
  refine ⟨abs_le.2 ⟨by linarith, by linarith⟩, ?_⟩
  rw [show 1 - a' - (1 - a) = -(a' - a) by ring, abs_neg]
  exact h.2

end Godeep
