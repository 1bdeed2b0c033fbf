import Verif.Model.Random
import Verif.Lemmas.Rounding
import Verif.Props.MatBasic
import Verif.Props.Picture
/-
  C79: the elements of a random tensor lie in the range asked for.
  C82: a random scalar lies in the range, and the whole range can be drawn.
-/
namespace Godeep.Props
open Godeep Spec GoNum

/-- the rounded expression stays in the range although each of its three steps rounds -/
theorem randIn_range {u a b : ℚ} (hu : Draw u) (ha : IsFloat 53 a) (hb : IsFloat 53 b) (hab : a ≤ b) :
    a ≤ randIn u a b ∧ randIn u a b ≤ b := by
  have hd : 0 ≤ b - a := sub_nonneg.2 hab
  have h1 : 0 ≤ flp 52 (u * flp 52 (b - a)) := flp_nonneg 52 (mul_nonneg hu.2.1 (flp_nonneg 52 hd))
  have h2 : flp 52 (u * flp 52 (b - a)) ≤ b - a := flp_shrink 52 (draw_le hu) hd
  have ea : flp 52 a = a := IsFloat.flp (p := 52) ha
  have eb : flp 52 b = b := IsFloat.flp (p := 52) hb
  unfold randIn
  simp only [fl64_flp]
  constructor
  · calc a = flp 52 a := ea.symm
      _ ≤ _ := flp_mono 52 (by linarith)
  · calc _ ≤ flp 52 b := flp_mono 52 (by linarith)
      _ = b := eb

theorem isFloat_mono {j k : Nat} (h : j ≤ k) {q : ℚ} (hq : IsFloat j q) : IsFloat k q := by
  obtain ⟨m, e, hm, rfl⟩ := hq
  exact ⟨m, e, lt_of_lt_of_le hm (pow_le_pow_right₀ (by norm_num) h), rfl⟩

theorem newRandIn_new {T : Type} [GoNum T] [Conv T] (u : Nat → ℚ) (a b : ℚ) (shape : List Nat) (h : Heap T) (hpos : 0 < h.next) :
    ∃ r h', Mat.newRandIn u a b shape h = .ok r h' ∧
      NewTensor h h' r ⟨shape, fun idx => Conv.ofF (randIn (u (offset shape idx)) a b)⟩ :=
  C05_newRand (fun i => Conv.ofF (randIn (u i) a b)) shape h hpos

/-- C79 for `float64`: `NewRand(a, b, shape)` makes a new tensor of that shape whose elements all lie in [a, b] -/
theorem C79_newRand_float64 (u : Nat → ℚ) (hu : ∀ i, Draw (u i)) (a b : ℚ) (ha : IsFloat 53 a) (hb : IsFloat 53 b) (hab : a ≤ b)
    (shape : List Nat) (h : Heap F64) (hpos : 0 < h.next) :
    ∃ r h' t, Mat.newRandIn u a b shape h = .ok r h' ∧ NewTensor h h' r ⟨shape, t⟩ ∧ ∀ idx, a ≤ (t idx).val ∧ (t idx).val ≤ b := by
  obtain ⟨r, h', e, N⟩ := newRandIn_new u a b shape h hpos
  exact ⟨r, h', _, e, N, fun idx => randIn_range (hu _) ha hb hab⟩

/-- C79 for `float32`: the same, if the ends of the range are `float32` numbers -/
theorem C79_newRand_float32 (u : Nat → ℚ) (hu : ∀ i, Draw (u i)) (a b : ℚ) (ha : IsFloat 24 a) (hb : IsFloat 24 b) (hab : a ≤ b)
    (shape : List Nat) (h : Heap F32) (hpos : 0 < h.next) :
    ∃ r h' t, Mat.newRandIn u a b shape h = .ok r h' ∧ NewTensor h h' r ⟨shape, t⟩ ∧ ∀ idx, a ≤ (t idx).val ∧ (t idx).val ≤ b := by
  obtain ⟨r, h', e, N⟩ := newRandIn_new u a b shape h hpos
  refine ⟨r, h', _, e, N, fun idx => ?_⟩
  obtain ⟨h1, h2⟩ := randIn_range (hu (offset shape idx)) (isFloat_mono (by norm_num) ha) (isFloat_mono (by norm_num) hb) hab
  have ea : flp 23 a = a := IsFloat.flp (p := 23) ha
  have eb : flp 23 b = b := IsFloat.flp (p := 23) hb
  have g1 := flp_mono 23 h1
  have g2 := flp_mono 23 h2
  rw [ea] at g1; rw [eb] at g2
  exact ⟨g1, g2⟩

/-- C79 for integer element types: the same, if the ends are integers (and `float64` numbers, as every argument of `NewRand`) -/
theorem C79_newRand_int (u : Nat → ℚ) (hu : ∀ i, Draw (u i)) (a b : ℤ) (ha : IsFloat 53 a) (hb : IsFloat 53 b) (hab : a ≤ b)
    (shape : List Nat) (h : Heap ℤ) (hpos : 0 < h.next) :
    ∃ r h' t, Mat.newRandIn u a b shape h = .ok r h' ∧ NewTensor h h' r ⟨shape, t⟩ ∧ ∀ idx, a ≤ t idx ∧ t idx ≤ b := by
  obtain ⟨r, h', e, N⟩ := newRandIn_new u a b shape h hpos
  refine ⟨r, h', _, e, N, fun idx => ?_⟩
  obtain ⟨h1, h2⟩ := randIn_range (hu (offset shape idx)) ha hb (by exact_mod_cast hab)
  show a ≤ truncInt _ ∧ truncInt _ ≤ b
  unfold truncInt
  split
  · exact ⟨Int.le_floor.2 h1, Int.cast_le.1 (le_trans (Int.floor_le _) h2)⟩
  · exact ⟨Int.cast_le.1 (le_trans h1 (Int.le_ceil _)), Int.ceil_le.2 h2⟩

/-- C82, as far as it holds: `ScalarRand(a, b)` with `float64` lies in [a, b].
False for `float32` (`C82_scalarRand_float32_above`); with integers the result is always `a` (`C82_scalarRand_int_constant`). -/
theorem C82_scalarRand_float64_partial (u : ℚ) (hu : Draw u) (a b : F64) (ha : IsFloat 53 a.val) (hb : IsFloat 53 b.val) (hab : a.val ≤ b.val)
    (h : Heap F64) :
    ∃ p h', Number.scalarRand u a b h = (p, h') ∧ p = h.next ∧ Extends h h' ∧ a.val ≤ (h'.val p).val ∧ (h'.val p).val ≤ b.val := by
  refine ⟨_, _, rfl, rfl, ⟨Nat.le_succ _, fun p hp => if_neg (Nat.ne_of_lt hp)⟩, ?_⟩
  have e : ((Number.scalarRand u a b h).2.val h.next) = ⟨randIn u a.val b.val⟩ := if_pos rfl
  exact e ▸ randIn_range hu ha hb hab

/-- with an integer element type `ScalarRand(a, b)` is `a`, whatever is drawn: the draw is converted to the
element type, that is to 0, before it is scaled -/
theorem C82_scalarRand_int_constant (u : ℚ) (hu : Draw u) (a b : ℤ) : Number.randBetween u a b = a := by
  have : truncInt u = 0 := by
    unfold truncInt
    rw [if_pos hu.2.1, Int.floor_eq_iff]
    simpa using ⟨hu.2.1, hu.2.2⟩
  show truncInt u * (b - a) + a = a
  rw [this]; ring

/-- with `float32` it can return a number above the range: the largest draw is converted to 1, and the
rounded length of the range is too long -/
theorem C82_scalarRand_float32_above : ∃ (u : ℚ) (a b : F32), Draw u ∧ IsFloat 24 a.val ∧ IsFloat 24 b.val ∧ a.val ≤ b.val ∧
    b.val < (Number.randBetween u a b).val := by
  refine ⟨1 - 1 / 2 ^ 53, ⟨-5⟩, ⟨3 / 2 ^ 22⟩, ⟨⟨2 ^ 53 - 1, -53, ?_, ?_⟩, ?_, ?_⟩, ⟨-5, 0, ?_, ?_⟩, ⟨3, -22, ?_, ?_⟩, ?_, ?_⟩
  · norm_num
  · norm_num
  · norm_num
  · norm_num
  · norm_num
  · norm_num
  · norm_num
  · norm_num
  · norm_num
  · decide +kernel

/-- the upper end itself can be returned, so the range is not half open -/
theorem C79_newRand_reaches_max : ∃ u a b : ℚ, Draw u ∧ IsFloat 53 a ∧ IsFloat 53 b ∧ a < b ∧ randIn u a b = b := by
  refine ⟨3 / 4, 1, 1 + 1 / 2 ^ 52, ⟨⟨3, -2, ?_, ?_⟩, ?_, ?_⟩, ⟨1, 0, ?_, ?_⟩, ⟨2 ^ 52 + 1, -52, ?_, ?_⟩, ?_, ?_⟩
  · norm_num
  · norm_num
  · norm_num
  · norm_num
  · norm_num
  · norm_num
  · norm_num
  · norm_num
  · norm_num
  · decide +kernel

/-- the hypotheses are met: the range [-1, 1] and the draw 3/4 -/
example : Draw (3 / 4) ∧ IsFloat 53 (-1) ∧ IsFloat 53 1 ∧ IsFloat 24 (-1) ∧ IsFloat 24 1 ∧ randIn (3 / 4) (-1) 1 = 1 / 2 :=
  ⟨⟨⟨3, -2, by norm_num, by norm_num⟩, by norm_num, by norm_num⟩, ⟨-1, 0, by norm_num, by norm_num⟩, ⟨1, 0, by norm_num, by norm_num⟩,
    ⟨-1, 0, by norm_num, by norm_num⟩, ⟨1, 0, by norm_num, by norm_num⟩, by decide +kernel⟩

end Godeep.Props
