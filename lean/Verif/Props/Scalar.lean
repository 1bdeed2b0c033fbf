import Verif.Model.Scalar
import Verif.Lemmas.HalfArith
import Mathlib.Data.Finset.Max
import Mathlib.Data.Fintype.Prod
/-
  The `scalar` package: C74 (half-precision arithmetic), C75 (comparison), C76 (mixed precisions).
-/
namespace Godeep.Scal
open Godeep.Spec Godeep.F16

/-- What these theorems need of the machine's `float32` arithmetic: on finite operands, when the exact
result is not too large, the result is a nearest `float32`.  IEEE 754 asks for more (ties to even). -/
structure Rounds32 (hw : Machine) : Prop where
  add : ∀ s e m s' e' m', FiniteSingle s e m → FiniteSingle s' e' m' → |singleVal s e m + singleVal s' e' m'| < 2 ^ 127 →
    NearestSingle (singleVal s e m + singleVal s' e' m') (hw.add32 (single s e m) (single s' e' m'))
  sub : ∀ s e m s' e' m', FiniteSingle s e m → FiniteSingle s' e' m' → |singleVal s e m - singleVal s' e' m'| < 2 ^ 127 →
    NearestSingle (singleVal s e m - singleVal s' e' m') (hw.sub32 (single s e m) (single s' e' m'))
  mul : ∀ s e m s' e' m', FiniteSingle s e m → FiniteSingle s' e' m' → |singleVal s e m * singleVal s' e' m'| < 2 ^ 127 →
    NearestSingle (singleVal s e m * singleVal s' e' m') (hw.mul32 (single s e m) (single s' e' m'))
  div : ∀ s e m s' e' m', FiniteSingle s e m → FiniteSingle s' e' m' → singleVal s' e' m' ≠ 0 →
    |singleVal s e m / singleVal s' e' m'| < 2 ^ 127 →
    NearestSingle (singleVal s e m / singleVal s' e' m') (hw.div32 (single s e m) (single s' e' m'))

/-- What they need of comparisons: they compare the values, and NaN is not less than anything. -/
structure Compares (hw : Machine) : Prop where
  lt32 : ∀ s e m s' e' m', FiniteSingle s e m → FiniteSingle s' e' m' →
    (hw.lt32 (single s e m) (single s' e' m') = true ↔ singleVal s e m < singleVal s' e' m')
  nan32 : ∀ s m c, s < 2 → m ≠ 0 → m < 2 ^ 23 → hw.lt32 (single s 255 m) c = false ∧ hw.lt32 c (single s 255 m) = false
  lt64 : ∀ s e m s' e' m', FiniteDouble s e m → FiniteDouble s' e' m' →
    (hw.lt64 (double s e m) (double s' e' m') = true ↔ doubleVal s e m < doubleVal s' e' m')

/-- What they need of conversions: widening is exact, narrowing gives a nearest `float32`. -/
structure Converts (hw : Machine) : Prop where
  to64 : ∀ s e m, FiniteSingle s e m → ∃ s' e' m', FiniteDouble s' e' m' ∧ hw.to64 (single s e m) = double s' e' m' ∧
    doubleVal s' e' m' = singleVal s e m
  to32 : ∀ s e m, FiniteDouble s e m → |doubleVal s e m| < 2 ^ 127 → NearestSingle (doubleVal s e m) (hw.to32 (double s e m))

/-! A machine that meets these assumptions exists. -/

theorem exists_least {A B N : Nat} (hA : 0 < A) (hB : 0 < B) (hN : 0 < N) (f : Nat → Nat → Nat → ℚ) :
    ∃ s e m, s < A ∧ e < B ∧ m < N ∧ ∀ s' e' m', s' < A → e' < B → m' < N → f s e m ≤ f s' e' m' := by
  obtain ⟨⟨s, e, m⟩, _, h⟩ := Finset.exists_min_image (Finset.univ : Finset (Fin A × Fin B × Fin N))
    (fun t => f t.1 t.2.1 t.2.2) ⟨(⟨0, hA⟩, ⟨0, hB⟩, ⟨0, hN⟩), Finset.mem_univ _⟩
  exact ⟨s, e, m, s.2, e.2, m.2, fun s' e' m' h1 h2 h3 => h (⟨s', h1⟩, ⟨e', h2⟩, ⟨m', h3⟩) (Finset.mem_univ _)⟩

theorem exists_nearest (q : ℚ) : ∃ c, NearestSingle q c := by
  obtain ⟨s, e, m, h1, h2, h3, h⟩ := exists_least (A := 2) (B := 255) (N := 2 ^ 23) (by omega) (by omega) (by omega)
    fun s e m => |singleVal s e m - q|
  exact ⟨_, s, e, m, ⟨h1, h2, h3⟩, rfl, fun s' e' m' h' => h s' e' m' h'.1 h'.2.1 h'.2.2⟩

theorem exists_double {s e m : Nat} (h : FiniteSingle s e m) : ∃ s' e' m', FiniteDouble s' e' m' ∧
    doubleVal s' e' m' = singleVal s e m := by
  obtain ⟨h1, h2, h3⟩ := h
  by_cases h0 : e = 0
  · by_cases hm : m = 0
    · exact ⟨s, 0, 0, ⟨h1, by omega, by norm_num⟩, by rw [h0, hm, doubleVal, singleVal, ieee, ieee]; simp⟩
    · have l1 : 2 ^ m.log2 ≤ m := Nat.log2_self_le hm
      have l2 : m < 2 ^ (m.log2 + 1) := Nat.lt_log2_self
      have hk : m.log2 < 23 := by rw [Nat.log2_lt hm]; exact h3
      generalize m.log2 = k at *
      obtain ⟨d, rfl⟩ : ∃ d, m = 2 ^ k + d := ⟨m - 2 ^ k, by omega⟩
      have hd : d < 2 ^ k := by rw [pow_succ] at l2; omega
      have e1 : 2 ^ 52 = 2 ^ k * 2 ^ (52 - k) := by rw [← pow_add]; congr 1; omega
      refine ⟨s, k + 874, d * 2 ^ (52 - k), ⟨h1, by omega, ?_⟩, ?_⟩
      · rw [e1]; exact Nat.mul_lt_mul_of_pos_right hd (Nat.two_pow_pos _)
      · rw [doubleVal, singleVal, ieee, ieee, if_neg (by omega), if_pos h0]
        congr 1
        have e2 : (2 : ℚ) ^ 52 = 2 ^ k * 2 ^ (52 - k) := by exact_mod_cast e1
        have e3 : (((k + 874 : Nat) : Int) - 1023) = (k : Int) + (-149) := by push_cast; ring
        rw [e2, e3, zpow_add₀ (by norm_num), zpow_natCast, show (1 - 127 : Int) = -126 by rfl]
        push_cast
        have p1 : (2 : ℚ) ^ (52 - k) ≠ 0 := by positivity
        have p2 : (2 : ℚ) ^ k ≠ 0 := by positivity
        rw [mul_div_mul_right _ _ p1]
        field_simp
  · refine ⟨s, e + 896, m * 2 ^ 29, ⟨h1, by omega, by omega⟩, ?_⟩
    rw [doubleVal, singleVal, ieee, ieee, if_neg (by omega), if_neg h0]
    have e1 : ((m * 2 ^ 29 : Nat) : ℚ) / 2 ^ 52 = (m : ℚ) / 2 ^ 23 := by
      rw [Nat.cast_mul, show (2 : ℚ) ^ 52 = 2 ^ 23 * 2 ^ 29 by norm_num, Nat.cast_pow, Nat.cast_ofNat, mul_div_mul_right _ _ (by norm_num)]
    have e2 : ((e + 896 : Nat) : Int) - 1023 = (e : Int) - 127 := by push_cast; omega
    rw [e1, e2]

/-- value of a pattern by its fields -/
noncomputable def val32 (c : BitVec 32) : ℚ := singleVal (c.toNat / 2 ^ 31) (c.toNat / 2 ^ 23 % 256) (c.toNat % 2 ^ 23)
noncomputable def val64 (c : BitVec 64) : ℚ := doubleVal (c.toNat / 2 ^ 63) (c.toNat / 2 ^ 52 % 2048) (c.toNat % 2 ^ 52)
def nan32 (c : BitVec 32) : Prop := c.toNat / 2 ^ 23 % 256 = 255 ∧ c.toNat % 2 ^ 23 ≠ 0

open Classical in
/-- a double with the same value, if there is one -/
noncomputable def wide (a : BitVec 32) : BitVec 64 :=
  if h : ∃ c, val64 c = val32 a ∧ ∃ s e m, FiniteDouble s e m ∧ c = double s e m then choose h else 0#64

theorem wide_spec {a : BitVec 32} (h : ∃ c, val64 c = val32 a ∧ ∃ s e m, FiniteDouble s e m ∧ c = double s e m) :
    val64 (wide a) = val32 a ∧ ∃ s e m, FiniteDouble s e m ∧ wide a = double s e m := by
  have e : wide a = Classical.choose h := by unfold wide; rw [dif_pos h]
  rw [e]
  exact Classical.choose_spec h

open Classical in
/-- a machine that rounds to nearest -/
noncomputable def exampleMachine : Machine where
  add32 a b := choose (exists_nearest (val32 a + val32 b))
  sub32 a b := choose (exists_nearest (val32 a - val32 b))
  mul32 a b := choose (exists_nearest (val32 a * val32 b))
  div32 a b := choose (exists_nearest (val32 a / val32 b))
  lt32 a b := decide (¬ nan32 a ∧ ¬ nan32 b ∧ val32 a < val32 b)
  add64 a _ := a
  sub64 a _ := a
  mul64 a _ := a
  div64 a _ := a
  lt64 a b := decide (val64 a < val64 b)
  to32 a := choose (exists_nearest (val64 a))
  to64 := wide

theorem val32_single {s e m : Nat} (h1 : s < 2) (h2 : e < 256) (h3 : m < 2 ^ 23) : val32 (single s e m) = singleVal s e m := by
  have h := single_toNat h1 h2 h3
  unfold val32
  rw [h]
  congr 1 <;> omega

theorem val64_double {s e m : Nat} (h : FiniteDouble s e m) : val64 (double s e m) = doubleVal s e m := by
  obtain ⟨h1, h2, h3⟩ := h
  have h : (double s e m).toNat = s * 2 ^ 63 + e * 2 ^ 52 + m := by
    rw [double, BitVec.toNat_ofNat]
    exact Nat.mod_eq_of_lt (by omega)
  unfold val64
  rw [h]
  congr 1 <;> omega

theorem exampleMachine_to64 : exampleMachine.to64 = wide := by
  simp only [exampleMachine]

open Classical in
theorem exampleMachine_good : Rounds32 exampleMachine ∧ Compares exampleMachine ∧ Converts exampleMachine := by
  have v : ∀ {s e m : Nat}, FiniteSingle s e m → val32 (single s e m) = singleVal s e m := fun h =>
    val32_single h.1 (lt_trans h.2.1 (by omega)) h.2.2
  have nn : ∀ {s e m : Nat}, FiniteSingle s e m → ¬ nan32 (single s e m) := fun h hc => by
    have e1 := single_toNat h.1 (lt_trans h.2.1 (by omega)) h.2.2
    unfold nan32 at hc
    rw [e1] at hc
    have := h.1
    have := h.2.1
    have := h.2.2
    omega
  refine ⟨⟨?_, ?_, ?_, ?_⟩, ⟨?_, ?_, ?_⟩, ⟨?_, ?_⟩⟩
  · intro s e m s' e' m' h h' _
    rw [← v h, ← v h']
    exact Classical.choose_spec (exists_nearest _)
  · intro s e m s' e' m' h h' _
    rw [← v h, ← v h']
    exact Classical.choose_spec (exists_nearest _)
  · intro s e m s' e' m' h h' _
    rw [← v h, ← v h']
    exact Classical.choose_spec (exists_nearest _)
  · intro s e m s' e' m' h h' _ _
    rw [← v h, ← v h']
    exact Classical.choose_spec (exists_nearest _)
  · intro s e m s' e' m' h h'
    rw [← v h, ← v h']
    exact decide_eq_true_iff.trans ⟨fun h => h.2.2, fun hl => ⟨nn h, nn h', hl⟩⟩
  · intro s m c hs h0 hm
    have hn : nan32 (single s 255 m) := by
      have e1 := single_toNat hs (show 255 < 256 by omega) hm
      unfold nan32
      rw [e1]
      omega
    exact ⟨decide_eq_false fun h => h.1 hn, decide_eq_false fun h => h.2.1 hn⟩
  · intro s e m s' e' m' h h'
    rw [← val64_double h, ← val64_double h']
    exact decide_eq_true_iff
  · intro s e m h
    obtain ⟨s', e', m', h1, h2⟩ := exists_double h
    have hex : ∃ c, val64 c = val32 (single s e m) ∧ ∃ s e m, FiniteDouble s e m ∧ c = double s e m :=
      ⟨double s' e' m', by rw [val64_double h1, v h, h2], s', e', m', h1, rfl⟩
    obtain ⟨c1, s2, e2, m2, c2, c3⟩ := wide_spec hex
    refine ⟨s2, e2, m2, c2, by rw [exampleMachine_to64]; exact c3, ?_⟩
    rw [← val64_double c2, ← c3, c1, v h]
  · intro s e m h _
    rw [← val64_double h]
    exact Classical.choose_spec (exists_nearest _)

/-! ### halves as integers -/

theorem halfInt_of {s e m : Nat} (h : FiniteHalf s e m) : ∃ A : ℤ, HalfInt A ∧ halfVal s e m = (A : ℚ) / 2 ^ 24 := by
  obtain ⟨hs, he, hm⟩ := h
  have hi : e * 1024 + m ≤ 31743 := by omega
  rw [halfVal_eq s hm]
  rcases sign_mul hs with ⟨e1, _⟩ | ⟨e1, _⟩
  · exact ⟨mag (e * 1024 + m), ⟨_, hi, by simp⟩, by rw [e1]; simp⟩
  · exact ⟨-mag (e * 1024 + m), ⟨_, hi, by simp⟩, by rw [e1]; push_cast; ring⟩

theorem halfInt_bound {A : ℤ} (h : HalfInt A) : |(A : ℚ)| < 2 ^ 41 := by
  obtain ⟨a, α, rfl, h1, h2⟩ := h.form
  have : |a * 2 ^ α| < 2 ^ 41 := by
    rw [abs_mul, abs_of_pos (show (0 : ℤ) < 2 ^ α by positivity)]
    have : (2 : ℤ) ^ α ≤ 2 ^ 30 := pow_le_pow_right₀ (by norm_num) h2
    nlinarith [abs_nonneg a]
  rw [← Int.cast_abs]
  exact_mod_cast this

theorem widened {s e m : Nat} (h : FiniteHalf s e m) : ∃ E M, FiniteSingle s E M ∧ widen (half s e m) = single s E M ∧
    singleVal s E M = halfVal s e m := by
  obtain ⟨E, M, h1, h2, h3, h4⟩ := C35_widen_exact h.1 h.2.1 h.2.2
  exact ⟨E, M, ⟨h.1, h1, h2⟩, h3, h4⟩

theorem add_rounded {A B : ℤ} (hA : HalfInt A) (hB : HalfInt B) {c : BitVec 32}
    (h : NearestSingle (((A + B : ℤ) : ℚ) / 2 ^ 24) c) : RoundedHalf (((A + B : ℤ) : ℚ) / 2 ^ 24) (narrow c) := by
  refine round_twice h (fun h0 => ?_) fun k hk y hy he => ?_
  · have hn : A + B ≠ 0 := fun hz => h0 (by rw [hz]; simp)
    have h1 : (1 : ℚ) ≤ |((A + B : ℤ) : ℚ)| := by
      rw [← Int.cast_abs]; exact_mod_cast Int.one_le_abs hn
    rw [abs_div, abs_of_pos (show (0 : ℚ) < 2 ^ 24 by positivity), div_le_div_iff₀ (by positivity) (by positivity)]
    nlinarith
  · rcases he with rfl | rfl
    · exact add_mid hA hB hk hy
    · have := hy.neg
      rw [neg_neg, ← neg_div, ← Int.cast_neg, neg_add] at this
      have := add_mid hA.neg hB.neg hk this
      rw [this]; push_cast; ring

theorem mul_rounded {A B : ℤ} (hA : HalfInt A) (hB : HalfInt B) {c : BitVec 32}
    (h : NearestSingle ((A : ℚ) / 2 ^ 24 * (B / 2 ^ 24)) c) : RoundedHalf ((A : ℚ) / 2 ^ 24 * (B / 2 ^ 24)) (narrow c) := by
  have e : (A : ℚ) / 2 ^ 24 * (B / 2 ^ 24) = ((A * B : ℤ) : ℚ) / 2 ^ 48 := by push_cast; ring
  have hs : IsSingle ((A : ℚ) / 2 ^ 24 * (B / 2 ^ 24)) := by
    obtain ⟨a, α, rfl, a1, a2⟩ := hA.form
    obtain ⟨b, β, rfl, b1, b2⟩ := hB.form
    have hn : (a * b).natAbs < 2 ^ 24 := by
      have : |a * b| < 2 ^ 24 := by
        rw [abs_mul]; nlinarith [abs_nonneg a, abs_nonneg b]
      rw [Int.abs_eq_natAbs] at this
      exact_mod_cast this
    have hi := isSingle_of (j := α + β + 101) hn (by omega)
    have e3 : (((a * b).natAbs * 2 ^ (α + β + 101) : Nat) : ℚ) / 2 ^ 149 = ((a * b).natAbs : ℚ) * 2 ^ α * 2 ^ β / 2 ^ 48 := by
      push_cast; rw [pow_add, pow_add]; field_simp
    rw [e3] at hi
    rw [e]
    have e4 : (((a * 2 ^ α * (b * 2 ^ β) : ℤ)) : ℚ) / 2 ^ 48 = ((a * b : ℤ) : ℚ) * 2 ^ α * 2 ^ β / 2 ^ 48 := by push_cast; ring
    rw [e4]
    generalize a * b = ab at *
    rcases Int.natAbs_eq ab with h | h
    · have h' : (ab : ℚ) = (ab.natAbs : ℚ) := by
        have := congrArg (Int.cast (R := ℚ)) h
        rwa [Int.cast_natCast] at this
      rw [h']; exact hi
    · have h' : (ab : ℚ) = -(ab.natAbs : ℚ) := by
        have := congrArg (Int.cast (R := ℚ)) h
        rwa [Int.cast_neg, Int.cast_natCast] at this
      rw [h', show -(ab.natAbs : ℚ) * 2 ^ α * 2 ^ β / 2 ^ 48 = -((ab.natAbs : ℚ) * 2 ^ α * 2 ^ β / 2 ^ 48) by ring]
      exact hi.neg
  refine round_twice h (fun h0 => ?_) fun k hk y hy _ => hy.eq hs
  rw [e] at h0 ⊢
  have hn : A * B ≠ 0 := fun hz => h0 (by rw [hz]; simp)
  have h1 : (1 : ℚ) ≤ |((A * B : ℤ) : ℚ)| := by
    rw [← Int.cast_abs]; exact_mod_cast Int.one_le_abs hn
  rw [abs_div, abs_of_pos (show (0 : ℚ) < 2 ^ 48 by positivity), div_le_div_iff₀ (by positivity) (by positivity)]
  nlinarith

theorem div_rounded {A B : ℤ} (hA : HalfInt A) (hB : HalfInt B) (h0 : B ≠ 0) {c : BitVec 32}
    (h : NearestSingle ((A : ℚ) / B) c) : RoundedHalf ((A : ℚ) / B) (narrow c) := by
  have main : ∀ {A B : ℤ}, HalfInt A → HalfInt B → 0 < B → NearestSingle ((A : ℚ) / B) c → RoundedHalf ((A : ℚ) / B) (narrow c) := by
    intro A B hA hB h0 h
    have hBq : (0 : ℚ) < B := by exact_mod_cast h0
    refine round_twice h (fun hne => ?_) fun k hk y hy he => ?_
    · have hn : A ≠ 0 := fun hz => hne (by rw [hz]; simp)
      have h1 : (1 : ℚ) ≤ |(A : ℚ)| := by
        rw [← Int.cast_abs]; exact_mod_cast Int.one_le_abs hn
      have h2 := halfInt_bound hB
      rw [abs_of_pos hBq] at h2
      rw [abs_div, abs_of_pos hBq, div_le_div_iff₀ (by positivity) hBq]
      nlinarith
    · rcases he with rfl | rfl
      · exact div_mid hA hB h0 hk hy
      · have := hy.neg
        rw [neg_neg, ← neg_div, ← Int.cast_neg] at this
        have := div_mid hA.neg hB h0 hk this
        rw [this]; push_cast; ring
  rcases lt_or_gt_of_ne h0 with hl | hl
  · have e : (A : ℚ) / B = ((-A : ℤ) : ℚ) / ((-B : ℤ) : ℚ) := by push_cast; rw [neg_div_neg_eq]
    rw [e] at h ⊢
    exact main hA.neg hB.neg (by omega) h
  · exact main hA hB hl h

/-! ### C74 -/

section
variable {hw : Machine} {s e m s' e' m' : Nat}

/-- `Add` of two finite half-precision numbers is their exact sum, rounded to half precision. -/
theorem C74_add (R : Rounds32 hw) (ha : FiniteHalf s e m) (hb : FiniteHalf s' e' m') :
    ∃ c, (Scalar.f16 (half s e m)).add hw (.f16 (half s' e' m')) = .f16 c ∧
      RoundedHalf (halfVal s e m + halfVal s' e' m') c := by
  obtain ⟨E, M, f1, w1, v1⟩ := widened ha
  obtain ⟨E', M', f2, w2, v2⟩ := widened hb
  obtain ⟨A, hA, eA⟩ := halfInt_of ha
  obtain ⟨B, hB, eB⟩ := halfInt_of hb
  refine ⟨_, rfl, ?_⟩
  show RoundedHalf _ (narrow (hw.add32 (widen (half s e m)) (widen (half s' e' m'))))
  have b1 := abs_lt.1 (halfInt_bound hA)
  have b2 := abs_lt.1 (halfInt_bound hB)
  have eq : halfVal s e m + halfVal s' e' m' = ((A + B : ℤ) : ℚ) / 2 ^ 24 := by rw [eA, eB]; push_cast; ring
  have N := R.add _ _ _ _ _ _ f1 f2 (by
    rw [v1, v2, eq, abs_lt]; push_cast
    constructor
    · rw [lt_div_iff₀ (by positivity)]; norm_num at b1 b2 ⊢; linarith
    · rw [div_lt_iff₀ (by positivity)]; norm_num at b1 b2 ⊢; linarith)
  rw [w1, w2]
  rw [v1, v2, eq] at N
  rw [eq]
  exact add_rounded hA hB N

/-- `Sub` of two finite half-precision numbers is their exact difference, rounded to half precision. -/
theorem C74_sub (R : Rounds32 hw) (ha : FiniteHalf s e m) (hb : FiniteHalf s' e' m') :
    ∃ c, (Scalar.f16 (half s e m)).sub hw (.f16 (half s' e' m')) = .f16 c ∧
      RoundedHalf (halfVal s e m - halfVal s' e' m') c := by
  obtain ⟨E, M, f1, w1, v1⟩ := widened ha
  obtain ⟨E', M', f2, w2, v2⟩ := widened hb
  obtain ⟨A, hA, eA⟩ := halfInt_of ha
  obtain ⟨B, hB, eB⟩ := halfInt_of hb
  refine ⟨_, rfl, ?_⟩
  show RoundedHalf _ (narrow (hw.sub32 (widen (half s e m)) (widen (half s' e' m'))))
  have b1 := abs_lt.1 (halfInt_bound hA)
  have b2 := abs_lt.1 (halfInt_bound hB)
  have eq : halfVal s e m - halfVal s' e' m' = ((A + -B : ℤ) : ℚ) / 2 ^ 24 := by rw [eA, eB]; push_cast; ring
  have N := R.sub _ _ _ _ _ _ f1 f2 (by
    rw [v1, v2, eq, abs_lt]; push_cast
    constructor
    · rw [lt_div_iff₀ (by positivity)]; norm_num at b1 b2 ⊢; linarith
    · rw [div_lt_iff₀ (by positivity)]; norm_num at b1 b2 ⊢; linarith)
  rw [w1, w2]
  rw [v1, v2, eq] at N
  rw [eq]
  exact add_rounded hA hB.neg N

/-- `Mul` of two finite half-precision numbers is their exact product, rounded to half precision. -/
theorem C74_mul (R : Rounds32 hw) (ha : FiniteHalf s e m) (hb : FiniteHalf s' e' m') :
    ∃ c, (Scalar.f16 (half s e m)).mul hw (.f16 (half s' e' m')) = .f16 c ∧
      RoundedHalf (halfVal s e m * halfVal s' e' m') c := by
  obtain ⟨E, M, f1, w1, v1⟩ := widened ha
  obtain ⟨E', M', f2, w2, v2⟩ := widened hb
  obtain ⟨A, hA, eA⟩ := halfInt_of ha
  obtain ⟨B, hB, eB⟩ := halfInt_of hb
  refine ⟨_, rfl, ?_⟩
  show RoundedHalf _ (narrow (hw.mul32 (widen (half s e m)) (widen (half s' e' m'))))
  have b1 := halfInt_bound hA
  have b2 := halfInt_bound hB
  have N := R.mul _ _ _ _ _ _ f1 f2 (by
    rw [v1, v2, eA, eB, abs_mul, abs_div, abs_div, abs_of_pos (show (0 : ℚ) < 2 ^ 24 by positivity)]
    have x1 : |(A : ℚ)| / 2 ^ 24 < 2 ^ 17 := by rw [div_lt_iff₀ (by positivity)]; norm_num at b1 ⊢; linarith
    have x2 : |(B : ℚ)| / 2 ^ 24 < 2 ^ 17 := by rw [div_lt_iff₀ (by positivity)]; norm_num at b2 ⊢; linarith
    have p1 : 0 ≤ |(A : ℚ)| / 2 ^ 24 := by positivity
    have p2 : 0 ≤ |(B : ℚ)| / 2 ^ 24 := by positivity
    calc |(A : ℚ)| / 2 ^ 24 * (|(B : ℚ)| / 2 ^ 24) ≤ 2 ^ 17 * 2 ^ 17 := mul_le_mul (le_of_lt x1) (le_of_lt x2) p2 (by positivity)
      _ < 2 ^ 127 := by norm_num)
  rw [w1, w2]
  rw [v1, v2, eA, eB] at N
  rw [eA, eB]
  exact mul_rounded hA hB N

/-- `Div` of two finite half-precision numbers, the second not zero, is their exact quotient, rounded
to half precision. -/
theorem C74_div (R : Rounds32 hw) (ha : FiniteHalf s e m) (hb : FiniteHalf s' e' m') (h0 : halfVal s' e' m' ≠ 0) :
    ∃ c, (Scalar.f16 (half s e m)).div hw (.f16 (half s' e' m')) = .f16 c ∧
      RoundedHalf (halfVal s e m / halfVal s' e' m') c := by
  obtain ⟨E, M, f1, w1, v1⟩ := widened ha
  obtain ⟨E', M', f2, w2, v2⟩ := widened hb
  obtain ⟨A, hA, eA⟩ := halfInt_of ha
  obtain ⟨B, hB, eB⟩ := halfInt_of hb
  refine ⟨_, rfl, ?_⟩
  show RoundedHalf _ (narrow (hw.div32 (widen (half s e m)) (widen (half s' e' m'))))
  have hB0 : B ≠ 0 := fun hz => h0 (by rw [eB, hz]; simp)
  have eq : halfVal s e m / halfVal s' e' m' = (A : ℚ) / B := by
    rw [eA, eB]; exact div_div_div_cancel_right₀ (by norm_num) _ _
  have b1 := halfInt_bound hA
  have b2 : (1 : ℚ) ≤ |(B : ℚ)| := by rw [← Int.cast_abs]; exact_mod_cast Int.one_le_abs hB0
  have N := R.div _ _ _ _ _ _ f1 f2 (by rw [v2]; exact h0) (by
    rw [v1, v2, eq, abs_div, div_lt_iff₀ (by linarith)]
    norm_num at b1 ⊢
    linarith)
  rw [w1, w2]
  rw [v1, v2, eq] at N
  rw [eq]
  exact div_rounded hA hB hB0 N

end

/-- The operations that change their receiver store what the others return, in every precision; a copy
has the same bits. -/
theorem C74_self (hw : Machine) (p v : Scalar) :
    p.selfAdd hw v = p.add hw v ∧ p.selfSub hw v = p.sub hw v ∧ p.selfMul hw v = p.mul hw v ∧
      p.selfDiv hw v = p.div hw v ∧ p.copy = p := by
  cases p <;> exact ⟨rfl, rfl, rfl, rfl, rfl⟩

/-- the theorems apply to the quotient of 1 and -3 and to the sum of 1 and the smallest subnormal -/
example : (∃ c, (Scalar.f16 (half 0 15 0)).div exampleMachine (.f16 (half 1 16 512)) = .f16 c ∧ RoundedHalf (1 / -3) c) ∧
    ∃ c, (Scalar.f16 (half 0 15 0)).add exampleMachine (.f16 (half 0 0 1)) = .f16 c ∧ RoundedHalf (1 + 1 / 2 ^ 24) c := by
  have e0 : halfVal 0 15 0 = 1 := by rw [halfVal, ieee]; norm_num
  have e1 : halfVal 1 16 512 = -3 := by rw [halfVal, ieee]; norm_num
  have e2 : halfVal 0 0 1 = 1 / 2 ^ 24 := by rw [halfVal, ieee]; norm_num
  have h0 : FiniteHalf 0 15 0 := ⟨by omega, by omega, by omega⟩
  constructor
  · have := C74_div exampleMachine_good.1 h0 (s' := 1) (e' := 16) (m' := 512) ⟨by omega, by omega, by omega⟩ (by rw [e1]; norm_num)
    rwa [e0, e1] at this
  · have := C74_add exampleMachine_good.1 h0 (s' := 0) (e' := 0) (m' := 1) ⟨by omega, by omega, by omega⟩
    rwa [e0, e2] at this

theorem between {s i j i' : Nat} {q : ℚ} (hs : s < 2) (h1 : i < j) (h2 : j < i')
    (d : |(-1) ^ s * ((mag i : ℚ) / 2 ^ 24) - q| = |(-1) ^ s * ((mag i' : ℚ) / 2 ^ 24) - q|) :
    |(-1) ^ s * ((mag j : ℚ) / 2 ^ 24) - q| < |(-1) ^ s * ((mag i : ℚ) / 2 ^ 24) - q| := by
  have mono : ∀ i j, i < j → (mag i : ℚ) / 2 ^ 24 < (mag j : ℚ) / 2 ^ 24 := fun i j h => by
    have := lt_of_lt_of_le (mag_lt_succ i) (mag_mono (show i + 1 ≤ j from h))
    rw [div_lt_div_iff_of_pos_right (by positivity)]
    exact_mod_cast this
  have a1 := mono i j h1
  have a2 := mono j i' h2
  generalize (mag i : ℚ) / 2 ^ 24 = x at *
  generalize (mag j : ℚ) / 2 ^ 24 = y at *
  generalize (mag i' : ℚ) / 2 ^ 24 = z at *
  rcases sign_mul hs with ⟨e, _⟩ | ⟨e, _⟩ <;> rw [e] at d ⊢
  · rcases abs_cases (1 * x - q) with ⟨h5, h5'⟩ | ⟨h5, h5'⟩ <;> rcases abs_cases (1 * z - q) with ⟨h6, h6'⟩ | ⟨h6, h6'⟩ <;>
      rcases abs_cases (1 * y - q) with ⟨h7, h7'⟩ | ⟨h7, h7'⟩ <;> rw [h5] at d ⊢ <;> rw [h6] at d <;> rw [h7] <;> linarith
  · rcases abs_cases (-1 * x - q) with ⟨h5, h5'⟩ | ⟨h5, h5'⟩ <;> rcases abs_cases (-1 * z - q) with ⟨h6, h6'⟩ | ⟨h6, h6'⟩ <;>
      rcases abs_cases (-1 * y - q) with ⟨h7, h7'⟩ | ⟨h7, h7'⟩ <;> rw [h5] at d ⊢ <;> rw [h6] at d <;> rw [h7] <;> linarith

theorem two_even {s e m e' m' : Nat} {q : ℚ} (f : FiniteHalf s e m) (f' : FiniteHalf s e' m') (hev : m % 2 = 0) (hev' : m' % 2 = 0)
    (hne : halfVal s e m ≠ halfVal s e' m') (d : |halfVal s e m - q| = |halfVal s e' m' - q|)
    (k : ∀ t, FiniteHalf s (t / 1024) (t % 1024) → |halfVal s e m - q| ≤ |halfVal s (t / 1024) (t % 1024) - q|) : False := by
  obtain ⟨hs, he, hm⟩ := f
  obtain ⟨-, he', hm'⟩ := f'
  have hi : e * 1024 + m ≠ e' * 1024 + m' := fun h => hne (by
    rw [halfVal_eq s hm, halfVal_eq s hm', h])
  have key : ∀ t, t ≤ 31743 → |(-1) ^ s * ((mag (e * 1024 + m) : ℚ) / 2 ^ 24) - q| ≤ |(-1) ^ s * ((mag t : ℚ) / 2 ^ 24) - q| := fun t ht => by
    have := k t ⟨hs, by omega, by omega⟩
    rw [halfVal_eq s hm, halfVal_eq s (by omega), show t / 1024 * 1024 + t % 1024 = t by omega] at this
    exact this
  rw [halfVal_eq s hm, halfVal_eq s hm'] at d
  obtain ⟨i, hie⟩ : ∃ i, i = e * 1024 + m := ⟨_, rfl⟩
  obtain ⟨j, hje⟩ : ∃ j, j = e' * 1024 + m' := ⟨_, rfl⟩
  rw [← hie, ← hje] at d
  rw [← hie] at key
  rcases Nat.lt_or_gt_of_ne hi with h | h
  · have := between hs (show i < i + 1 by omega) (show i + 1 < j by omega) d
    exact absurd (key (i + 1) (by omega)) (not_le.2 this)
  · have := between hs (show j < j + 1 by omega) (show j + 1 < i by omega) d.symm
    rw [← d] at this
    exact absurd (key (j + 1) (by omega)) (not_le.2 this)

/-- The specification of rounding determines the bits, except for the sign of zero. -/
theorem C74_determined {q : ℚ} {c c' : BitVec 16} (hq : q ≠ 0) (h : RoundedHalf q c) (h' : RoundedHalf q c') : c = c' := by
  unfold RoundedHalf at h h'
  split at h
  · next hlt =>
    rw [if_pos hlt] at h'
    obtain ⟨s, e, m, f, rfl, p1, n1, k⟩ := h
    obtain ⟨s', e', m', f', rfl, p2, n2, k'⟩ := h'
    have hs : s = s' := by
      rcases lt_or_gt_of_ne hq with hl | hl
      · rw [n1 hl, n2 hl]
      · rw [p1 hl, p2 hl]
    subst hs
    have d : |halfVal s e m - q| = |halfVal s e' m' - q| :=
      le_antisymm (k _ _ _ f').1 (k' _ _ _ f).1
    have same : halfVal s e m = halfVal s e' m' → e = e' ∧ m = m' := by
      intro hv
      rw [halfVal_eq s f.2.2, halfVal_eq s f'.2.2] at hv
      have hv2 := mul_left_cancel₀ (pow_ne_zero s (by norm_num : (-1 : ℚ) ≠ 0)) hv
      have hv3 : mag (e * 1024 + m) = mag (e' * 1024 + m') := by
        have := (div_left_inj' (show (2 : ℚ) ^ 24 ≠ 0 by norm_num)).1 hv2
        exact_mod_cast this
      have := mag_inj hv3
      have a := f.2.2
      have b := f'.2.2
      omega
    rcases (k _ _ _ f').2 d with hv | hev
    · obtain ⟨rfl, rfl⟩ := same hv.symm
      rfl
    · rcases (k' _ _ _ f).2 d.symm with hv | hev'
      · obtain ⟨rfl, rfl⟩ := same hv
        rfl
      · -- two even neighbours at the same distance are the same
        by_contra hne
        have hne' : halfVal s e m ≠ halfVal s e' m' := fun hv => by
          obtain ⟨rfl, rfl⟩ := same hv
          exact hne rfl
        exact two_even f f' hev hev' hne' d fun t ht => (k s (t / 1024) (t % 1024) ht).1
  · next hge =>
    rw [if_neg hge] at h'
    rw [h, h']

/-! ### C75 -/

/-- `p` is the finite number `x` -/
inductive IsNumber : Scalar → ℚ → Prop where
  | f16 {s e m : Nat} : FiniteHalf s e m → IsNumber (.f16 (half s e m)) (halfVal s e m)
  | f32 {s e m : Nat} : FiniteSingle s e m → IsNumber (.f32 (single s e m)) (singleVal s e m)
  | f64 {s e m : Nat} : FiniteDouble s e m → IsNumber (.f64 (double s e m)) (doubleVal s e m)

/-- the answer that agrees with the order of the numbers -/
def Agrees (c : CmpRes) (x y : ℚ) : Prop :=
  (c = .less ↔ x < y) ∧ (c = .equal ↔ x = y) ∧ (c = .greater ↔ y < x)

theorem agrees_of {a b : Bool} {x y : ℚ} (h1 : a = true ↔ x < y) (h2 : b = true ↔ y < x) :
    Agrees (if a then .less else if b then .greater else .equal) x y := by
  cases a
  · cases b
    · have e : x = y := le_antisymm (not_lt.1 fun h => by simp [h] at h2) (not_lt.1 fun h => by simp [h] at h1)
      subst e
      exact ⟨by simp, by simp, by simp⟩
    · have e : y < x := h2.1 rfl
      refine ⟨⟨by simp, fun h => absurd h (not_lt.2 (le_of_lt e))⟩, ⟨by simp, fun h => absurd h (ne_of_gt e)⟩, ⟨fun _ => e, fun _ => rfl⟩⟩
  · have e : x < y := h1.1 rfl
    refine ⟨⟨fun _ => e, fun _ => rfl⟩, ⟨by simp, fun h => absurd h (ne_of_lt e)⟩, ⟨by simp, fun h => absurd h (not_lt.2 (le_of_lt e))⟩⟩

theorem single_of_number {hw : Machine} {p : Scalar} {x : ℚ} (h : IsNumber p x) (h64 : ∀ v, p ≠ .f64 v) :
    ∃ s e m, FiniteSingle s e m ∧ p.g32 hw = single s e m ∧ singleVal s e m = x := by
  cases h with
  | f16 h =>
    obtain ⟨E, M, f1, w1, v1⟩ := widened h
    exact ⟨_, E, M, f1, w1, v1⟩
  | f32 h => exact ⟨_, _, _, h, rfl, rfl⟩
  | f64 h => exact absurd rfl (h64 _)

theorem double_of_number {hw : Machine} (C : Converts hw) {p : Scalar} {x : ℚ} (h : IsNumber p x) :
    ∃ s e m, FiniteDouble s e m ∧ p.g64 hw = double s e m ∧ doubleVal s e m = x := by
  cases h with
  | f16 h =>
    obtain ⟨E, M, f1, w1, v1⟩ := widened h
    obtain ⟨s', e', m', h1, h2, h3⟩ := C.to64 _ _ _ f1
    exact ⟨s', e', m', h1, by show hw.to64 (widen _) = _; rw [w1, h2], h3.trans v1⟩
  | f32 h => exact C.to64 _ _ _ h
  | f64 h => exact ⟨_, _, _, h, rfl, rfl⟩

/-- `Cmp` agrees with the order of the numbers when the receiver is a double, or neither is. -/
theorem C75_cmp_partial {hw : Machine} (L : Compares hw) (C : Converts hw) {p v : Scalar} {x y : ℚ} (hp : IsNumber p x)
    (hv : IsNumber v y) (h : (∃ u, p = .f64 u) ∨ ∀ u, v ≠ .f64 u) : Agrees (p.cmp hw v) x y := by
  by_cases hd : ∃ u, p = .f64 u
  · obtain ⟨s, e, m, f1, w1, v1⟩ := double_of_number C hp
    obtain ⟨s', e', m', f2, w2, v2⟩ := double_of_number C hv
    obtain ⟨u, rfl⟩ := hd
    show Agrees (if hw.lt64 (Scalar.g64 hw (.f64 u)) (v.g64 hw) then _ else _) x y
    rw [w1, w2, ← v1, ← v2]
    exact agrees_of (L.lt64 _ _ _ _ _ _ f1 f2) (L.lt64 _ _ _ _ _ _ f2 f1)
  · have hv' : ∀ u, v ≠ .f64 u := h.resolve_left hd
    obtain ⟨s, e, m, f1, w1, v1⟩ := single_of_number (hw := hw) hp fun u hu => hd ⟨u, hu⟩
    obtain ⟨s', e', m', f2, w2, v2⟩ := single_of_number (hw := hw) hv hv'
    have e : p.cmp hw v = if hw.lt32 (p.g32 hw) (v.g32 hw) then .less else if hw.lt32 (v.g32 hw) (p.g32 hw) then .greater else .equal := by
      cases p with
      | f64 u => exact absurd ⟨u, rfl⟩ hd
      | _ => rfl
    rw [e, w1, w2, ← v1, ← v2]
    exact agrees_of (L.lt32 _ _ _ _ _ _ f1 f2) (L.lt32 _ _ _ _ _ _ f2 f1)

/-- A half-precision NaN compares equal to everything of half or single precision. -/
theorem C75_nan {hw : Machine} (L : Compares hw) {s m : Nat} (hs : s < 2) (h0 : m ≠ 0) (hm : m < 1024) {v : Scalar}
    (h : ∀ u, v ≠ .f64 u) :
    (Scalar.f16 (half s 31 m)).cmp hw v = .equal ∧ v.cmp hw (.f16 (half s 31 m)) = .equal := by
  have e : widen (half s 31 m) = single s 255 ((m ||| 512) * 2 ^ 13) := by
    rw [C35_widen_special hs hm, if_neg h0]
  have h1 : (m ||| 512) < 1024 := Nat.or_lt_two_pow (n := 10) hm (by omega)
  have h2 : 512 ≤ (m ||| 512) := Nat.right_le_or
  have N := fun c => L.nan32 s ((m ||| 512) * 2 ^ 13) c hs (by omega) (by omega)
  have e1 : (Scalar.f16 (half s 31 m)).cmp hw v = if hw.lt32 (widen (half s 31 m)) (v.g32 hw) then .less
      else if hw.lt32 (v.g32 hw) (widen (half s 31 m)) then .greater else .equal := rfl
  have e2 : v.cmp hw (.f16 (half s 31 m)) = if hw.lt32 (v.g32 hw) (widen (half s 31 m)) then .less
      else if hw.lt32 (widen (half s 31 m)) (v.g32 hw) then .greater else .equal := by
    cases v with
    | f64 u => exact absurd rfl (h u)
    | _ => rfl
  rw [e1, e2, e, (N _).1, (N _).2]
  exact ⟨rfl, rfl⟩

/-! ### a number just above a midpoint -/

theorem near_one {q : ℚ} {c : BitVec 32} (h : NearestSingle q c) (hq : |q - (1 + 1 / 2 ^ 11)| ≤ 1 / 2 ^ 31) :
    c = single 0 127 0x1000 := by
  obtain ⟨s, E, M, ⟨hs, hE, hM⟩, rfl, hn⟩ := h
  have h0 := hn 0 127 0x1000 ⟨by omega, by omega, by omega⟩
  have e0 : singleVal 0 127 0x1000 = 1 + 1 / 2 ^ 11 := by
    rw [singleVal, ieee]; norm_num
  rw [e0, abs_sub_comm (1 + 1 / 2 ^ 11)] at h0
  have hd : |singleVal s E M - (1 + 1 / 2 ^ 11)| ≤ 1 / 2 ^ 30 := by
    have e : singleVal s E M - (1 + 1 / 2 ^ 11) = (singleVal s E M - q) + (q - (1 + 1 / 2 ^ 11)) := by ring
    rw [e]
    refine le_trans (abs_add_le _ _) ?_
    have : (1 : ℚ) / 2 ^ 30 = 1 / 2 ^ 31 + 1 / 2 ^ 31 := by norm_num
    rw [this]
    linarith
  obtain ⟨d1, d2⟩ := abs_le.1 hd
  rw [singleVal_eq] at d1 d2
  have hsm : (0 : ℚ) ≤ (smag E M : ℚ) / 2 ^ 149 := by positivity
  have hs0 : s = 0 := by
    rcases sign_mul hs with ⟨_, h⟩ | ⟨h, _⟩
    · exact h
    · rw [h] at d1; norm_num at d1 hsm; linarith
  subst hs0
  rw [pow_zero, one_mul] at d1 d2
  have u1 : smag E M ≤ 2 ^ 149 + 2 ^ 138 + 2 ^ 119 := by
    have : (smag E M : ℚ) ≤ ((2 ^ 149 + 2 ^ 138 + 2 ^ 119 : Nat) : ℚ) := by
      have : (smag E M : ℚ) / 2 ^ 149 ≤ 1 + 1 / 2 ^ 11 + 1 / 2 ^ 30 := by linarith
      rw [div_le_iff₀ (by positivity)] at this
      norm_num at this ⊢
      linarith
    exact_mod_cast this
  have u2 : 2 ^ 149 + 2 ^ 138 ≤ smag E M + 2 ^ 119 := by
    have : ((2 ^ 149 + 2 ^ 138 : Nat) : ℚ) ≤ ((smag E M + 2 ^ 119 : Nat) : ℚ) := by
      have : 1 + 1 / 2 ^ 11 - 1 / 2 ^ 30 ≤ (smag E M : ℚ) / 2 ^ 149 := by linarith
      rw [le_div_iff₀ (by positivity)] at this
      push_cast
      norm_num at this ⊢
      linarith
    exact_mod_cast this
  have hE127 : E = 127 := by
    rw [smag] at u1 u2
    by_cases hE0 : E = 0
    · rw [if_pos hE0] at u2; omega
    · rw [if_neg hE0] at u1 u2
      by_contra hne
      rcases Nat.lt_or_ge E 127 with hl | hl
      · have : 2 ^ (E - 1) ≤ 2 ^ 125 := Nat.pow_le_pow_right (by omega) (by omega)
        have := Nat.mul_le_mul_left (2 ^ 23 + M) this
        omega
      · have : 2 ^ 127 ≤ 2 ^ (E - 1) := Nat.pow_le_pow_right (by omega) (by omega)
        have := Nat.mul_le_mul_left (2 ^ 23 + M) this
        omega
  subst hE127
  rw [smag, if_neg (by omega)] at u1 u2
  have : M = 0x1000 := by omega
  rw [this]

theorem not_rounded_one {q : ℚ} (h1 : 1 + 1 / 2 ^ 11 < q) (h2 : q < 2) : ¬ RoundedHalf q (half 0 15 0) := by
  intro h
  unfold RoundedHalf at h
  rw [if_pos (by rw [abs_of_pos (by norm_num at h1; linarith)]; linarith)] at h
  obtain ⟨s, e, m, ⟨f1, f2, f3⟩, hc, _, _, hn⟩ := h
  obtain ⟨rfl, rfl, rfl⟩ := half_inj (by omega) (by omega) (by omega) f1 (by omega) f3 hc
  have := (hn 0 15 1 ⟨by omega, by omega, by omega⟩).1
  have e1 : halfVal 0 15 0 = 1 := by rw [halfVal, ieee]; norm_num
  have e2 : halfVal 0 15 1 = 1 + 1 / 2 ^ 10 := by rw [halfVal, ieee]; norm_num
  rw [e1, e2] at this
  rw [abs_of_neg (by norm_num at h1; linarith)] at this
  rcases abs_cases (1 + 1 / 2 ^ 10 - q) with ⟨h5, _⟩ | ⟨h5, _⟩ <;> rw [h5] at this <;> norm_num at h1 this <;> linarith

/-- Comparing a single with a double is not the order of the numbers, and depends on which of the two
is the receiver: some number equals a larger one in one direction and is less in the other. -/
theorem C75_double_argument {hw : Machine} (L : Compares hw) (C : Converts hw) :
    ∃ p v : Scalar, ∃ x y, IsNumber p x ∧ IsNumber v y ∧ x < y ∧ p.cmp hw v = .equal ∧ v.cmp hw p = .greater := by
  have f1 : FiniteSingle 0 127 0x1000 := ⟨by omega, by omega, by omega⟩
  have f2 : FiniteDouble 0 1023 (2 ^ 41 + 2 ^ 12) := ⟨by omega, by omega, by norm_num⟩
  have e1 : singleVal 0 127 0x1000 = 1 + 1 / 2 ^ 11 := by rw [singleVal, ieee]; norm_num
  have e2 : doubleVal 0 1023 (2 ^ 41 + 2 ^ 12) = 1 + 1 / 2 ^ 11 + 1 / 2 ^ 40 := by rw [doubleVal, ieee]; norm_num
  have lt : singleVal 0 127 0x1000 < doubleVal 0 1023 (2 ^ 41 + 2 ^ 12) := by rw [e1, e2]; norm_num
  refine ⟨.f32 (single 0 127 0x1000), .f64 (double 0 1023 (2 ^ 41 + 2 ^ 12)), _, _, .f32 f1, .f64 f2, lt, ?_, ?_⟩
  · have N := C.to32 _ _ _ f2 (by rw [e2]; rw [abs_of_pos (by norm_num)]; norm_num)
    have hc := near_one N (by rw [e2]; rw [abs_of_pos (by norm_num)]; norm_num)
    have h : hw.lt32 (single 0 127 0x1000) (single 0 127 0x1000) ≠ true := fun h =>
      lt_irrefl _ ((L.lt32 _ _ _ _ _ _ f1 f1).1 h)
    show (if hw.lt32 (single 0 127 0x1000) (hw.to32 (double 0 1023 (2 ^ 41 + 2 ^ 12))) then CmpRes.less else
      if hw.lt32 (hw.to32 (double 0 1023 (2 ^ 41 + 2 ^ 12))) (single 0 127 0x1000) then .greater else .equal) = _
    rw [hc, if_neg h, if_neg h]
  · exact (C75_cmp_partial L C (.f64 f2) (.f32 f1) (Or.inl ⟨_, rfl⟩)).2.2.2 lt

/-! ### C76 -/

/-- Making a half-precision number from a double rounds twice: a double just above the midpoint of 1 and
its upper neighbour becomes 1, although the neighbour is nearer. -/
theorem C76_from_double {hw : Machine} (C : Converts hw) :
    ∃ s e m c, FiniteDouble s e m ∧ f16fromF64 hw (double s e m) = .f16 c ∧
      (∀ p, Scalar.s64 hw (.f16 p) (double s e m) = .f16 c) ∧ ¬ RoundedHalf (doubleVal s e m) c := by
  have f2 : FiniteDouble 0 1023 (2 ^ 41 + 2 ^ 12) := ⟨by omega, by omega, by norm_num⟩
  have e2 : doubleVal 0 1023 (2 ^ 41 + 2 ^ 12) = 1 + 1 / 2 ^ 11 + 1 / 2 ^ 40 := by rw [doubleVal, ieee]; norm_num
  have N := C.to32 _ _ _ f2 (by rw [e2]; rw [abs_of_pos (by norm_num)]; norm_num)
  have hc := near_one N (by rw [e2]; rw [abs_of_pos (by norm_num)]; norm_num)
  have hk : narrow (single 0 127 0x1000) = half 0 15 0 := by decide +kernel
  refine ⟨0, 1023, 2 ^ 41 + 2 ^ 12, half 0 15 0, f2, ?_, fun p => ?_, ?_⟩
  · show Scalar.f16 (narrow (hw.to32 _)) = _
    rw [hc, hk]
  · show Scalar.f16 (narrow (hw.to32 _)) = _
    rw [hc, hk]
  · rw [e2]
    exact not_rounded_one (by norm_num) (by norm_num)

/-- So does adding a single-precision number to a half-precision one. -/
theorem C76_mixed_sum {hw : Machine} (R : Rounds32 hw) :
    ∃ s e m s' e' m' c, FiniteHalf s e m ∧ FiniteSingle s' e' m' ∧
      (Scalar.f16 (half s e m)).add hw (.f32 (single s' e' m')) = .f16 c ∧
      ¬ RoundedHalf (halfVal s e m + singleVal s' e' m') c := by
  have f1 : FiniteHalf 0 15 0 := ⟨by omega, by omega, by omega⟩
  have f2 : FiniteSingle 0 116 8 := ⟨by omega, by omega, by omega⟩
  have e1 : halfVal 0 15 0 = 1 := by rw [halfVal, ieee]; norm_num
  have e2 : singleVal 0 116 8 = 1 / 2 ^ 11 + 1 / 2 ^ 31 := by rw [singleVal, ieee]; norm_num
  obtain ⟨E, M, g1, w1, v1⟩ := widened f1
  have N := R.add _ _ _ _ _ _ g1 f2 (by rw [v1, e1, e2]; rw [abs_of_pos (by norm_num)]; norm_num)
  have hc := near_one N (by rw [v1, e1, e2]; rw [abs_of_pos (by norm_num)]; norm_num)
  have hk : narrow (single 0 127 0x1000) = half 0 15 0 := by decide +kernel
  refine ⟨0, 15, 0, 0, 116, 8, half 0 15 0, f1, f2, ?_, ?_⟩
  · show Scalar.f16 (narrow (hw.add32 (widen (half 0 15 0)) (single 0 116 8))) = _
    rw [w1, hc, hk]
  · rw [e1, e2]
    exact not_rounded_one (by norm_num) (by norm_num)

/-- A double that is exactly a `float32` is converted with one rounding. -/
theorem C76_exact_partial {hw : Machine} (C : Converts hw) {s e m s' e' m' : Nat} (h : FiniteDouble s e m)
    (h' : FiniteSingle s' e' m') (heq : doubleVal s e m = singleVal s' e' m') (hb : |doubleVal s e m| < 2 ^ 127) :
    ∃ c, f16fromF64 hw (double s e m) = .f16 c ∧ RoundedHalf (doubleVal s e m) c := by
  refine ⟨_, rfl, round_twice (C.to32 _ _ _ h hb) (fun h0 => ?_) fun k hk y hy _ => hy.eq ⟨_, _, _, h', heq⟩⟩
  rw [heq, singleVal_eq] at h0 ⊢
  have hn : smag e' m' ≠ 0 := fun hz => h0 (by rw [hz]; simp)
  rw [abs_mul, abs_pow, abs_neg, abs_one, one_pow, one_mul, abs_of_nonneg (by positivity),
    div_le_div_iff_of_pos_right (by positivity)]
  exact_mod_cast Nat.one_le_iff_ne_zero.2 hn

end Godeep.Scal
