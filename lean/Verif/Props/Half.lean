import Verif.Lemmas.F16
/-
  Half-precision numbers: C35 (widening), C36 (narrowing), C37 (classification).
  `half s e m` / `single s e m` are the bit patterns with sign bit `s`, exponent field `e` and
  fraction field `m`; `halfVal` / `singleVal` are the numbers they stand for (`Spec/Half.lean`).
-/
namespace Godeep.F16
open Godeep.Spec

/-- Every 16-bit pattern is `half s e m` for exactly one triple of fields, so the theorems below
cover all patterns. -/
theorem C35_every_half (x : BitVec 16) :
    ∃! t : Nat × Nat × Nat, (t.1 < 2 ∧ t.2.1 < 32 ∧ t.2.2 < 1024) ∧ x = half t.1 t.2.1 t.2.2 := by
  obtain ⟨s, e, m, hs, he, hm, rfl⟩ := half_surj x
  refine ⟨(s, e, m), ⟨⟨hs, he, hm⟩, rfl⟩, ?_⟩
  rintro ⟨s', e', m'⟩ ⟨⟨hs', he', hm'⟩, h⟩
  obtain ⟨rfl, rfl, rfl⟩ := half_inj hs he hm hs' he' hm' h
  rfl

/-- Widening a finite number gives a finite number with the same sign and the same value. -/
theorem C35_widen_exact {s e m : Nat} (hs : s < 2) (he : e < 31) (hm : m < 1024) :
    ∃ E M, E < 255 ∧ M < 2 ^ 23 ∧ widen (half s e m) = single s E M ∧
      singleVal s E M = halfVal s e m := by
  have hval : ∀ E M, smag E M = mag (e * 1024 + m) * 2 ^ 125 → singleVal s E M = halfVal s e m := by
    intro E M h
    rw [singleVal_eq, halfVal_eq s hm, h]
    push_cast
    congr 1
    rw [show (2 : ℚ) ^ 149 = 2 ^ 24 * 2 ^ 125 by norm_num]
    exact mul_div_mul_right _ _ (by norm_num)
  by_cases h0 : e = 0
  · subst h0
    by_cases hm0 : m = 0
    · subst hm0
      refine ⟨0, 0, by omega, by omega, widen_zero hs, hval _ _ ?_⟩
      rw [mag_code (by omega), if_pos rfl, smag, if_pos rfl, zero_mul]
    · have h1 : 2 ^ m.log2 ≤ m := Nat.log2_self_le hm0
      have h2 : m < 2 ^ (m.log2 + 1) := Nat.lt_log2_self
      have hk : m.log2 < 10 := by rw [Nat.log2_lt hm0]; omega
      generalize m.log2 = k at *
      have e2 : 2 ^ 23 = 2 ^ k * 2 ^ (23 - k) := by rw [← pow_add]; congr 1; omega
      have e3 : 2 ^ 24 = 2 ^ (k + 1) * 2 ^ (23 - k) := by rw [← pow_add]; congr 1; omega
      have b1 : 2 ^ 23 ≤ m * 2 ^ (23 - k) := by rw [e2]; exact Nat.mul_le_mul_right _ h1
      have b2 : m * 2 ^ (23 - k) < 2 ^ 24 := by
        rw [e3]; exact Nat.mul_lt_mul_of_pos_right h2 (Nat.two_pow_pos _)
      refine ⟨k + 103, m * 2 ^ (23 - k) - 2 ^ 23, by omega, by omega, widen_sub hs hk h1 h2, hval _ _ ?_⟩
      rw [mag_code hm, if_pos rfl, smag, if_neg (by omega), Nat.add_sub_cancel' b1, mul_assoc]
      have : 2 ^ (23 - k) * 2 ^ (k + 103 - 1) = 2 ^ 125 :=
        calc 2 ^ (23 - k) * 2 ^ (k + 103 - 1) = 2 ^ (23 - k + (k + 103 - 1)) := (pow_add ..).symm
          _ = 2 ^ 125 := by rw [show 23 - k + (k + 103 - 1) = 125 by omega]
      rw [this]
  · refine ⟨e + 112, m * 2 ^ 13, by omega, by omega, widen_normal hs (by omega) he hm, hval _ _ ?_⟩
    obtain ⟨j, rfl⟩ : ∃ j, e = j + 1 := ⟨e - 1, by omega⟩
    rw [mag_code hm, if_neg (by omega), smag, if_neg (by omega)]
    calc (2 ^ 23 + m * 2 ^ 13) * 2 ^ (j + 1 + 112 - 1)
        = (1024 + m) * (2 ^ 13 * 2 ^ (j + 112)) := by
          rw [show j + 1 + 112 - 1 = j + 112 by omega]; ring
      _ = (1024 + m) * (2 ^ j * 2 ^ 125) := congrArg ((1024 + m) * ·)
          (calc 2 ^ 13 * 2 ^ (j + 112) = 2 ^ (13 + (j + 112)) := (pow_add ..).symm
            _ = 2 ^ (j + 125) := by rw [show 13 + (j + 112) = j + 125 by omega]
            _ = 2 ^ j * 2 ^ 125 := pow_add ..)
      _ = (1024 + m) * 2 ^ (j + 1 - 1) * 2 ^ 125 := by rw [mul_assoc]; rfl

/-- Widening an infinity gives the infinity of the same sign; widening a NaN gives a quiet NaN of
the same sign with the same payload bits. -/
theorem C35_widen_special {s m : Nat} (hs : s < 2) (hm : m < 1024) :
    widen (half s 31 m) = if m = 0 then single s 255 0 else single s 255 ((m ||| 512) * 2 ^ 13) := by
  by_cases h : m = 0
  · subst h; rw [if_pos rfl, widen_inf hs]
  · rw [if_neg h, widen_nan hs h hm]

/-- Widening and narrowing back gives the same bits, except that a signalling NaN comes back
quiet (bit 9 set). -/
theorem C35_round_trip (x : BitVec 16) :
    narrow (widen x) = if isNaN x then x ||| 0x0200#16 else x := by
  obtain ⟨s, e, m, hs, he, hm, rfl⟩ := half_surj x
  by_cases h31 : e = 31
  · subst h31
    by_cases h0 : m = 0
    · subst h0
      rw [widen_inf hs, narrow_inf_nan hs (by omega), if_pos rfl, if_neg]
      rw [isNaN, half_frac hs he hm]; simp
    · have hlt : m ||| 512 < 2 ^ 10 := Nat.or_lt_two_pow (by omega) (by omega)
      have hpos : (m ||| 512) ≠ 0 := by
        rw [Ne, Nat.or_eq_zero_iff]; omega
      rw [widen_nan hs h0 hm, narrow_inf_nan hs (by omega), if_neg (by omega), if_pos]
      · rw [Nat.mul_div_cancel _ (by omega), Nat.or_assoc, Nat.or_self]
        apply BitVec.eq_of_toNat_eq
        rw [half_toNat hs (by omega) hlt, BitVec.toNat_or, half_toNat hs he hm, BitVec.toNat_ofNat]
        have h1 := or_add (s * 2 ^ 5 + 31) m 10 hm
        have h2 := or_add (s * 2 ^ 5 + 31) (m ||| 512) 10 hlt
        rw [show s * 2 ^ 15 + 31 * 2 ^ 10 = (s * 2 ^ 5 + 31) * 2 ^ 10 by ring, ← h1, ← h2,
          Nat.or_assoc]
      · rw [isNaN, half_exp hs he hm, half_frac hs he hm]
        have : BitVec.ofNat 16 m ≠ 0#16 := by
          intro hc
          have := congrArg BitVec.toNat hc
          simp only [BitVec.toNat_ofNat] at this
          omega
        simp [this]
  · have hN : isNaN (half s e m) = false := by
      rw [isNaN, half_exp hs he hm]
      have : (BitVec.ofNat 16 (e * 2 ^ 10) == 0x7c00#16) = false := by
        rw [beq_eq_false_iff_ne]
        intro hc
        have := congrArg BitVec.toNat hc
        simp only [BitVec.toNat_ofNat] at this
        omega
      rw [this, Bool.false_and]
    rw [hN, if_neg (by simp)]
    by_cases he0 : e = 0
    · subst he0
      by_cases hm0 : m = 0
      · subst hm0
        rw [widen_zero hs, narrow_tiny hs (by omega) (by omega)]
      · have h1 : 2 ^ m.log2 ≤ m := Nat.log2_self_le hm0
        have h2 : m < 2 ^ (m.log2 + 1) := Nat.lt_log2_self
        have hk : m.log2 < 10 := by rw [Nat.log2_lt hm0]; omega
        generalize m.log2 = k at *
        have e2 : 2 ^ 23 = 2 ^ k * 2 ^ (23 - k) := by rw [← pow_add]; congr 1; omega
        have e3 : 2 ^ 24 = 2 ^ (k + 1) * 2 ^ (23 - k) := by rw [← pow_add]; congr 1; omega
        have b1 : 2 ^ 23 ≤ m * 2 ^ (23 - k) := by rw [e2]; exact Nat.mul_le_mul_right _ h1
        have b2 : m * 2 ^ (23 - k) < 2 ^ 24 := by
          rw [e3]; exact Nat.mul_lt_mul_of_pos_right h2 (Nat.two_pow_pos _)
        rw [widen_sub hs hk h1 h2, narrow_sub hs (by omega) (by omega) (by omega),
          Nat.add_sub_cancel' b1, show 126 - (k + 103) = 23 - k by omega]
        have : rne (m * 2 ^ (23 - k)) (23 - k) = m := by
          rw [rne, Nat.mul_div_cancel _ (Nat.two_pow_pos _), Nat.mul_mod_left, if_neg]
          · rfl
          · have := Nat.two_pow_pos (23 - k); omega
        rw [this, half, zero_mul, add_zero]
    · rw [widen_normal hs (by omega) (by omega) hm, narrow_normal hs (by omega) (by omega) (by omega)]
      have : rne (m * 2 ^ 13) 13 = m := by
        rw [rne, Nat.mul_div_cancel _ (Nat.two_pow_pos _), Nat.mul_mod_left, if_neg (by omega)]
        rfl
      rw [this, Nat.add_sub_cancel, half]

/-- non-trivial cases: the smallest subnormal, a normal number and a signalling NaN -/
example : widen (half 0 0 1) = single 0 103 0 ∧ widen (half 1 17 3) = single 1 129 (3 * 2 ^ 13) ∧
    narrow (widen (half 0 31 1)) = half 0 31 513 := by decide +kernel

/-! ### C36 -/

/-- Every 32-bit pattern is `single s e m` for exactly one triple of fields. -/
theorem C36_every_single (x : BitVec 32) :
    ∃! t : Nat × Nat × Nat, (t.1 < 2 ∧ t.2.1 < 256 ∧ t.2.2 < 2 ^ 23) ∧
      x = single t.1 t.2.1 t.2.2 := by
  obtain ⟨s, e, m, hs, he, hm, rfl⟩ := single_surj x
  refine ⟨(s, e, m), ⟨⟨hs, he, hm⟩, rfl⟩, ?_⟩
  rintro ⟨s', e', m'⟩ ⟨⟨hs', he', hm'⟩, h⟩
  obtain ⟨rfl, rfl, rfl⟩ := single_inj hs he hm hs' he' hm' h
  rfl

/-- 65520 is halfway between the largest finite half (65504) and the next step (65536) -/
theorem overflow_threshold (E M : Nat) (s : Nat) :
    (65520 : ℚ) ≤ |singleVal s E M| ↔ (mag 31743 + mag 31744) * 2 ^ 125 ≤ 2 * smag E M := by
  rw [singleVal_eq, abs_mul, abs_pow, abs_neg, abs_one, one_pow, one_mul,
    abs_of_nonneg (by positivity), le_div_iff₀ (by positivity)]
  have h : (mag 31743 + mag 31744) * 2 ^ 125 = 2 * (65520 * 2 ^ 149) := by decide +kernel
  rw [h]
  constructor
  · intro h
    have : ((65520 * 2 ^ 149 : Nat) : ℚ) ≤ (smag E M : ℚ) := by
      rw [Nat.cast_mul, Nat.cast_pow]; exact h
    exact Nat.mul_le_mul_left 2 (by exact_mod_cast this)
  · intro h
    have : ((65520 * 2 ^ 149 : Nat) : ℚ) ≤ (smag E M : ℚ) := by
      exact_mod_cast Nat.le_of_mul_le_mul_left h (by omega)
    rw [Nat.cast_mul, Nat.cast_pow] at this
    exact this

/-- Finite numbers of magnitude 65520 and more become the infinity of the same sign. -/
theorem C36_narrow_overflow {s E M : Nat} (hs : s < 2) (hE : E < 255) (hM : M < 2 ^ 23)
    (hbig : (65520 : ℚ) ≤ |singleVal s E M|) : narrow (single s E M) = half s 31 0 := by
  by_cases h : 143 ≤ E
  · exact narrow_big hs h hE hM
  · rw [overflow_threshold] at hbig
    obtain ⟨k, r, hk, hn, h1, h2, h3⟩ := narrow_code hs (show E ≤ 142 by omega) hM
    generalize 2 ^ 125 = U at *
    have hmm := mag_mono (Nat.le_succ 31743)
    have hk' : ¬ k + 1 ≤ 31743 := by
      intro hlt
      have m1 := mag_mono hlt
      have := Nat.mul_le_mul_right U (Nat.add_le_add m1 (le_trans m1 hmm))
      rw [add_mul] at this
      have hb := le_trans this hbig
      omega
    have hk'' : k = 31743 := by omega
    subst hk''
    rcases h3 with ⟨_, h | h⟩ | ⟨hr, _⟩
    · exact absurd hbig (Nat.not_le.2 h)
    · omega
    · rw [hn, hr]; rfl

/-- the nearer of two neighbours is nearest among all numbers outside the gap between them -/
theorem nearest_int {A B C x R : Int} (hA : A ≤ x) (hB : x < B) (hC : C ≤ A ∨ B ≤ C)
    (hR : (R = A ∧ 2 * x ≤ A + B) ∨ (R = B ∧ A + B ≤ 2 * x)) :
    |R - x| ≤ |C - x| ∧ (|R - x| = |C - x| → C = R ∨ 2 * x = A + B) := by
  rcases abs_cases (R - x) with h1 | h1 <;> rcases abs_cases (C - x) with h2 | h2 <;>
    rw [h1.1, h2.1] <;> constructor <;> omega

/-- distance between a half and a single, in units of `2^-149` -/
theorem dist_eq {s s' : Nat} (hs : s < 2) (hs' : s' < 2) {e m : Nat} (hm : m < 1024) (E M : Nat) :
    |halfVal s' e m - singleVal s E M| =
      ((if s' = s then |((mag (e * 1024 + m) * 2 ^ 125 : Nat) : Int) - (smag E M : Nat)|
        else ((mag (e * 1024 + m) * 2 ^ 125 : Nat) : Int) + (smag E M : Nat) : Int) : ℚ) / 2 ^ 149 := by
  rw [halfVal_eq s' hm, singleVal_eq]
  have h149 : (2 : ℚ) ^ 149 = 2 ^ 24 * 2 ^ 125 := by norm_num
  have h1 : (mag (e * 1024 + m) : ℚ) / 2 ^ 24
      = ((mag (e * 1024 + m) * 2 ^ 125 : Nat) : ℚ) / 2 ^ 149 := by
    rw [h149, Nat.cast_mul, Nat.cast_pow]
    exact (mul_div_mul_right _ _ (by norm_num)).symm
  rw [h1]
  generalize mag (e * 1024 + m) * 2 ^ 125 = a
  generalize smag E M = x
  have hp : (0 : ℚ) < 2 ^ 149 := by positivity
  generalize (2 : ℚ) ^ 149 = w at hp
  have key : ∀ σ τ : ℚ, (|σ| = 1) → |σ * τ| = |τ| := by
    intro σ τ h; rw [abs_mul, h, one_mul]
  split
  · rename_i h
    subst h
    rw [← mul_sub, key _ _ (by rw [abs_pow, abs_neg, abs_one, one_pow]), div_sub_div_same, abs_div,
      abs_of_pos hp]
    push_cast
    rfl
  · rename_i h
    have hx : (0 : ℚ) ≤ ((a : ℚ) + x) / w := by positivity
    have : (s' = 0 ∧ s = 1) ∨ (s' = 1 ∧ s = 0) := by omega
    rcases this with ⟨rfl, rfl⟩ | ⟨rfl, rfl⟩
    · push_cast
      rw [show (-1 : ℚ) ^ 0 * ((a : ℚ) / w) - (-1) ^ 1 * ((x : ℚ) / w) = ((a : ℚ) + x) / w by ring,
        abs_of_nonneg hx]
    · push_cast
      rw [show (-1 : ℚ) ^ 1 * ((a : ℚ) / w) - (-1) ^ 0 * ((x : ℚ) / w) = -(((a : ℚ) + x) / w) by ring,
        abs_neg, abs_of_nonneg hx]

theorem big_exp {E : Nat} (M : Nat) (h : 142 < E) :
    (mag 31743 + mag 31744) * 2 ^ 125 ≤ 2 * smag E M := by
  have h2 : 2 ^ 142 ≤ 2 ^ (E - 1) := Nat.pow_le_pow_right (by omega) (by omega)
  have h3 : 2 ^ 23 ≤ 2 ^ 23 + M := by omega
  rw [smag, if_neg (by omega)]
  have h1 : (mag 31743 + mag 31744) * 2 ^ 125 ≤ 2 * (2 ^ 23 * 2 ^ 142) := by decide +kernel
  exact le_trans h1 (Nat.mul_le_mul_left 2 (Nat.mul_le_mul h3 h2))

/-- Finite numbers of magnitude below 65520 become a finite half with the same sign bit, which is a
nearest one; if another half is equally near, the fraction field of the result is even. -/
theorem C36_narrow_nearest {s E M : Nat} (hs : s < 2) (hE : E < 255) (hM : M < 2 ^ 23)
    (hsmall : |singleVal s E M| < 65520) :
    ∃ e m, e < 31 ∧ m < 1024 ∧ narrow (single s E M) = half s e m ∧
      ∀ s' e' m', s' < 2 → e' < 31 → m' < 1024 →
        |halfVal s e m - singleVal s E M| ≤ |halfVal s' e' m' - singleVal s E M| ∧
        (|halfVal s e m - singleVal s E M| = |halfVal s' e' m' - singleVal s E M| →
          halfVal s' e' m' = halfVal s e m ∨ m % 2 = 0) := by
  rw [← not_le, overflow_threshold] at hsmall
  have hE' : E ≤ 142 := Nat.le_of_not_lt fun h => hsmall (big_exp M h)
  obtain ⟨k, r, hk, hn, h1, h2, h3⟩ := narrow_code hs hE' hM
  have hdist := fun (s' e m : Nat) (hs' : s' < 2) (hm : m < 1024) => dist_eq (e := e) hs hs' hm E M
  have hU : 0 < 2 ^ 125 := Nat.two_pow_pos _
  generalize 2 ^ 125 = U at *
  have hr : r ≤ 31743 := by
    rcases h3 with ⟨rfl, _⟩ | ⟨rfl, h⟩
    · exact hk
    · by_contra hc
      have : k = 31743 := by omega
      subst this
      apply hsmall
      rcases h with h | h
      · exact le_of_lt h
      · exact le_of_eq h.1.symm
  refine ⟨r / 1024, r % 1024, by omega, by omega, ?_, ?_⟩
  · have h : s * 2 ^ 15 + r = s * 2 ^ 15 + r / 1024 * 2 ^ 10 + r % 1024 := by omega
    rw [hn, half, h]
  intro s' e' m' hs' he' hm'
  have hcode : r / 1024 * 1024 + r % 1024 = r := by omega
  rw [hdist s _ _ hs (by omega), hdist s' _ _ hs' hm', hcode, if_pos rfl]
  obtain ⟨c, hc⟩ : ∃ c, c = e' * 1024 + m' := ⟨_, rfl⟩
  rw [← hc]
  have hpos : (0 : ℚ) < 2 ^ 149 := by positivity
  rw [div_le_div_iff_of_pos_right hpos, div_left_inj' (ne_of_gt hpos), Int.cast_le, Int.cast_inj]
  have hC : mag c * U ≤ mag k * U ∨ mag (k + 1) * U ≤ mag c * U := by
    rcases Nat.lt_or_ge k c with h | h
    · exact Or.inr (Nat.mul_le_mul_right _ (mag_mono h))
    · exact Or.inl (Nat.mul_le_mul_right _ (mag_mono h))
  have hinj : ∀ a b, mag a * U = mag b * U → a = b := fun a b h =>
    mag_inj (Nat.eq_of_mul_eq_mul_right hU h)
  have h0 : mag 0 * U = 0 := by rw [mag_small (by omega), zero_mul]
  rw [add_mul] at h3
  have main := nearest_int (A := ((mag k * U : Nat) : Int)) (B := ((mag (k + 1) * U : Nat) : Int))
    (C := ((mag c * U : Nat) : Int)) (x := (smag E M : Nat)) (R := ((mag r * U : Nat) : Int))
    (by exact_mod_cast h1) (by exact_mod_cast h2) (by exact_mod_cast hC)
    (by
      rcases h3 with ⟨rfl, h⟩ | ⟨rfl, h⟩
      · left; refine ⟨rfl, ?_⟩; rcases h with h | h
        · exact_mod_cast le_of_lt h
        · exact_mod_cast le_of_eq h.1
      · right; refine ⟨rfl, ?_⟩; rcases h with h | h
        · exact_mod_cast le_of_lt h
        · exact_mod_cast le_of_eq h.1.symm)
  have hsame : ∀ t, (c = r) → t = s → halfVal t e' m' = halfVal s (r / 1024) (r % 1024) := by
    rintro t hcr rfl
    rw [halfVal_eq _ hm', halfVal_eq _ (by omega), hcode, ← hc, hcr]
  have heven : (2 * (smag E M : Int) = ((mag k * U : Nat) : Int) + ((mag (k + 1) * U : Nat) : Int))
      → r % 1024 % 2 = 0 := by
    intro h
    have h' : 2 * smag E M = mag k * U + mag (k + 1) * U := by exact_mod_cast h
    rcases h3 with ⟨rfl, h3⟩ | ⟨rfl, h3⟩ <;> omega
  have hxz : ((smag E M : Nat) : Int) = 0 → ((mag r * U : Nat) : Int) = 0 := by
    intro h
    have h' : smag E M = 0 := by exact_mod_cast h
    rw [h'] at h1 h2 h3
    have : mag r * U = 0 := by
      rcases h3 with ⟨hr', _⟩ | ⟨_, h3⟩
      · rw [hr']; omega
      · omega
    exact_mod_cast this
  have hCr : ((mag c * U : Nat) : Int) = ((mag r * U : Nat) : Int) → c = r := fun h =>
    hinj _ _ (by exact_mod_cast h)
  have hr0 : ((mag r * U : Nat) : Int) = 0 → r = 0 := fun h =>
    hinj _ _ (by rw [h0]; exact_mod_cast h)
  have hc0 : (0 : Int) ≤ ((mag c * U : Nat) : Int) := Int.natCast_nonneg _
  have hrn : (0 : Int) ≤ ((mag r * U : Nat) : Int) := Int.natCast_nonneg _
  have hx0 : (0 : Int) ≤ (smag E M : Nat) := Int.natCast_nonneg _
  have hxk : ((mag k * U : Nat) : Int) ≤ (smag E M : Nat) := by exact_mod_cast h1
  generalize ((mag c * U : Nat) : Int) = C at *
  generalize ((mag r * U : Nat) : Int) = R at *
  generalize ((smag E M : Nat) : Int) = x at *
  split
  · rename_i hss
    refine ⟨main.1, fun h => ?_⟩
    rcases main.2 h with h | h
    · exact Or.inl (hsame s' (hCr h) hss)
    · exact Or.inr (heven h)
  · rename_i hss
    have hle : |C - x| ≤ C + x := by rcases abs_cases (C - x) with h | h <;> omega
    refine ⟨le_trans main.1 hle, fun h => ?_⟩
    rcases main.2 (le_antisymm main.1 (by omega)) with h' | h'
    · right
      -- `|R - x| = R + x` forces `R = 0` or `x = 0`; in both cases the result is zero
      have : R = 0 ∨ x = 0 := by
        rcases abs_cases (R - x) with h'' | h'' <;> omega
      have hz : r = 0 := by
        apply hr0
        rcases this with h0 | h0
        · exact h0
        · exact hxz h0
      omega
    · exact Or.inr (heven h')

/-- Infinities stay infinities of the same sign; NaNs become quiet NaNs of the same sign (fraction
field not zero, bit 9 set) with the upper payload bits. -/
theorem C36_narrow_special {s M : Nat} (hs : s < 2) (hM : M < 2 ^ 23) :
    ∃ m, narrow (single s 255 M) = half s 31 m ∧ m < 1024 ∧ (m = 0 ↔ M = 0) ∧
      (M ≠ 0 → m = M / 2 ^ 13 ||| 512 ∧ 512 ≤ m) := by
  refine ⟨_, narrow_inf_nan hs hM, ?_⟩
  by_cases h : M = 0
  · simp [h]
  · rw [if_neg h]
    have h1 : 512 ≤ M / 2 ^ 13 ||| 512 := Nat.right_le_or
    refine ⟨Nat.or_lt_two_pow (n := 10) (by omega) (by omega), ⟨fun h' => by omega, fun h' => absurd h' h⟩,
      fun _ => ⟨rfl, h1⟩⟩

/-- ties go to even, 65519.996 stays finite, 65520 overflows, tiny numbers vanish, `2^-25` is a tie
that goes to zero and anything above goes to the smallest subnormal -/
example : narrow (single 0 127 0x1000) = half 0 15 0 ∧ narrow (single 0 127 0x3000) = half 0 15 2 ∧
    narrow (single 0 142 0x7fefff) = half 0 30 1023 ∧ narrow (single 0 142 0x7ff000) = half 0 31 0 ∧
    narrow (single 1 102 0) = half 1 0 0 ∧ narrow (single 1 102 1) = half 1 0 1 := by decide +kernel

/-- the hypotheses of the two theorems on finite numbers are met by 1.5 and by 65536 -/
example : |singleVal 0 127 0x400000| < 65520 ∧ (65520 : ℚ) ≤ |singleVal 1 143 0| := by
  constructor
  · rw [← not_le, overflow_threshold]; decide +kernel
  · rw [overflow_threshold]; decide +kernel

/-! ### C37 -/

theorem ofNat16_beq {a b : Nat} (ha : a < 2 ^ 16) (hb : b < 2 ^ 16) :
    (BitVec.ofNat 16 a == BitVec.ofNat 16 b) = decide (a = b) := by
  by_cases h : a = b
  · subst h; simp
  · rw [decide_eq_false h, beq_eq_false_iff_ne]
    intro hc
    have := congrArg BitVec.toNat hc
    simp only [BitVec.toNat_ofNat] at this
    omega

/-- The classification functions read the fields as IEEE 754 says: all-ones exponent with zero
fraction is an infinity, with non-zero fraction a NaN (quiet if the top fraction bit is set), any
other exponent a finite number, normal if the exponent is not zero; the sign bit is the sign. -/
theorem C37_classification {s e m : Nat} (hs : s < 2) (he : e < 32) (hm : m < 1024) :
    isNaN (half s e m) = decide (e = 31 ∧ m ≠ 0) ∧
    isQuietNaN (half s e m) = decide (e = 31 ∧ 512 ≤ m) ∧
    (∀ sign, isInf (half s e m) sign =
      decide (e = 31 ∧ m = 0 ∧ ((s = 0 ∧ 0 ≤ sign) ∨ (s = 1 ∧ sign ≤ 0)))) ∧
    isFinite (half s e m) = decide (e < 31) ∧
    isNormal (half s e m) = decide (0 < e ∧ e < 31) ∧
    signbit (half s e m) = decide (s = 1) := by
  have h1 := half_exp hs he hm
  have h2 := half_frac hs he hm
  have h3 := half_sign hs he hm
  have h4 := half_quiet hs he hm
  have e31 : 0x7c00#16 = BitVec.ofNat 16 (31 * 2 ^ 10) := rfl
  refine ⟨?_, ?_, ?_, ?_, ?_, ?_⟩
  · rw [isNaN, h1, h2, bne, e31, ofNat16_beq (by omega) (by omega), ofNat16_beq (b := 0) (by omega) (by omega)]
    by_cases ha : e = 31 <;> by_cases hb : m = 0 <;> simp [ha, hb]
    omega
  · rw [isQuietNaN, h1, h2, h4, bne, bne, e31, ofNat16_beq (by omega) (by omega),
      ofNat16_beq (b := 0) (by omega) (by omega), ofNat16_beq (b := 0) (by omega) (by omega)]
    by_cases ha : e = 31
    · subst ha
      by_cases hb : 512 ≤ m
      · have : m / 512 = 1 := by omega
        have : m ≠ 0 := by omega
        simp [*]
      · have : m / 512 = 0 := by omega
        simp [*]
    · have : ¬ e * 2 ^ 10 = 31 * 2 ^ 10 := by omega
      simp [ha]
      omega
  · intro sign
    have c1 : 0x7c00#16 = BitVec.ofNat 16 31744 := rfl
    have c2 : 0xfc00#16 = BitVec.ofNat 16 64512 := rfl
    rw [isInf, half, c1, c2, ofNat16_beq (by omega) (by omega), ofNat16_beq (by omega) (by omega),
      ← Bool.decide_and, ← Bool.decide_and, ← Bool.decide_or, decide_eq_decide]
    omega
  · rw [isFinite, h1, bne, e31, ofNat16_beq (by omega) (by omega), ← decide_not, decide_eq_decide]
    omega
  · rw [isNormal]
    simp only [h1, bne]
    rw [e31, ofNat16_beq (by omega) (by omega), ofNat16_beq (b := 0) (by omega) (by omega), ← decide_not,
      ← decide_not, ← Bool.decide_and, decide_eq_decide]
    omega
  · rw [signbit, h3, bne, ofNat16_beq (b := 0) (by omega) (by omega), ← decide_not, decide_eq_decide]
    omega

/-- Every pattern is exactly one of NaN, infinity (of either sign) and finite; normal numbers are
finite and quiet NaNs are NaNs. -/
theorem C37_partition (x : BitVec 16) :
    ((isNaN x = true ∧ isInf x 0 = false ∧ isFinite x = false) ∨
      (isNaN x = false ∧ isInf x 0 = true ∧ isFinite x = false) ∨
      (isNaN x = false ∧ isInf x 0 = false ∧ isFinite x = true)) ∧
    (isNormal x = true → isFinite x = true) ∧ (isQuietNaN x = true → isNaN x = true) ∧
    (∀ sign, isInf x sign = true → isInf x 0 = true) := by
  obtain ⟨s, e, m, hs, he, hm, rfl⟩ := half_surj x
  obtain ⟨h1, h2, h3, h4, h5, h6⟩ := C37_classification hs he hm
  simp only [h1, h2, h3, h4, h5, decide_eq_true_eq, decide_eq_false_iff_not]
  refine ⟨?_, ?_, ?_, ?_⟩
  · omega
  · omega
  · omega
  · intro sign; omega

/-- The constructors for special values give what they say. -/
theorem C37_constants : isNaN nan = true ∧ isQuietNaN nan = true ∧
    (∀ sign, isInf (inf sign) sign = true) ∧ (∀ sign, signbit (inf sign) = decide (sign < 0)) := by
  refine ⟨by decide, by decide, ?_, ?_⟩ <;> intro sign <;> unfold inf
  · split
    · rename_i h; simp [isInf, h]
    · rename_i h; simp [isInf]; omega
  · split
    · rename_i h
      rw [decide_eq_false (by omega)]; rfl
    · rename_i h
      rw [decide_eq_true (by omega)]; rfl

/-- Narrowing a number that is not NaN never gives NaN, and narrowing NaN gives NaN. -/
theorem C37_narrow_nan {s E M : Nat} (hs : s < 2) (hE : E < 256) (hM : M < 2 ^ 23) :
    isNaN (narrow (single s E M)) = decide (E = 255 ∧ M ≠ 0) := by
  by_cases h : E = 255
  · subst h
    obtain ⟨m, hn, hm, h0, _⟩ := C36_narrow_special hs hM
    rw [hn, (C37_classification hs (by omega) hm).1, decide_eq_decide]
    omega
  · rw [decide_eq_false (by omega)]
    by_cases hb : (65520 : ℚ) ≤ |singleVal s E M|
    · rw [C36_narrow_overflow hs (by omega) hM hb, (C37_classification hs (by omega) (by omega)).1]
      simp
    · obtain ⟨e, m, he, hm, hn, _⟩ := C36_narrow_nearest hs (by omega) hM (not_le.1 hb)
      rw [hn, (C37_classification hs (by omega) hm).1, decide_eq_false (by omega)]

end Godeep.F16
