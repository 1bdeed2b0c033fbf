import Verif.Lemmas.Index
import Verif.Model.Tools64
/-
  Helper facts: 64-bit index arithmetic against the mathematical one.
-/
namespace Godeep.W64
open Godeep Spec

/-- the mathematical value of a list of machine words -/
def nats (l : List UInt64) : List Nat := l.map UInt64.toNat

theorem foldl_toNat (l : List UInt64) (a : UInt64) :
    (l.foldl (fun m s => m * s) a).toNat = (a.toNat * (l.foldl (fun m s => m * s.toNat) 1)) % 2 ^ 64 := by
  induction l generalizing a with
  | nil => simp [Nat.mod_eq_of_lt a.toNat_lt]
  | cons x xs ih =>
    simp only [List.foldl_cons]
    rw [ih]
    have : xs.foldl (fun m s => m * s.toNat) (1 * x.toNat)
        = x.toNat * xs.foldl (fun m s => m * s.toNat) 1 := by
      have := foldl_mul_acc (nats xs) (1 * x.toNat)
      simp only [nats, List.foldl_map] at this
      rw [this]; ring
    rw [this, UInt64.toNat_mul, Nat.mod_mul_mod, Nat.mul_assoc]

theorem dataSize_toNat (shape : List UInt64) :
    (dataSize shape).toNat = size (nats shape) % 2 ^ 64 := by
  unfold dataSize
  rw [foldl_toNat, ← dataSize_eq]
  unfold Godeep.dataSize nats
  rw [← List.map_reverse, List.foldl_map]
  simp

/-- suffix sizes reduced modulo 2^64 -/
theorem indexMulLoop_toNat (r : List UInt64) (mul : UInt64) (acc : List UInt64)
    (mul' : Nat) (acc' : List Nat) (hm : mul.toNat = mul' % 2 ^ 64)
    (ha : nats acc = acc'.map (· % 2 ^ 64)) :
    nats (indexMulLoop r mul acc) = (Godeep.indexMulLoop (nats r) mul' acc').map (· % 2 ^ 64) := by
  induction r generalizing mul acc mul' acc' with
  | nil => simpa [indexMulLoop, Godeep.indexMulLoop, nats] using ha
  | cons s rest ih =>
    cases rest with
    | nil => simpa [indexMulLoop, Godeep.indexMulLoop, nats] using ha
    | cons s' rest =>
      simp only [indexMulLoop]
      have e : nats (s :: s' :: rest) = s.toNat :: s'.toNat :: nats rest := rfl
      rw [e]
      simp only [Godeep.indexMulLoop]
      have hms : (mul * s).toNat = (mul' * s.toNat) % 2 ^ 64 := by
        rw [UInt64.toNat_mul, hm, Nat.mod_mul_mod]
      apply ih
      · exact hms
      · simp only [nats, List.map_cons, hms]
        congr 1

theorem indexMul_toNat (shape : List UInt64) :
    nats (indexMul shape) = (strides (nats shape)).map (· % 2 ^ 64) := by
  rw [← indexMul_eq]
  unfold indexMul Godeep.indexMul
  have hl : (nats shape).length = shape.length := by simp [nats]
  rw [hl]
  split
  · simp [nats]
  · rw [indexMulLoop_toNat shape.reverse 1 [1] 1 [1] (by simp) (by simp [nats])]
    simp [nats]

theorem dotIndex_toNat (is ms : List UInt64) (acc : UInt64) :
    (dotIndex is ms acc).toNat = (Godeep.dotIndex (nats is) (nats ms) acc.toNat) % 2 ^ 64 := by
  induction is generalizing ms acc with
  | nil => simp [dotIndex, Godeep.dotIndex, nats, Nat.mod_eq_of_lt acc.toNat_lt]
  | cons i is ih =>
    cases ms with
    | nil => simp [dotIndex, Godeep.dotIndex, nats, Nat.mod_eq_of_lt acc.toNat_lt]
    | cons m ms =>
      simp only [dotIndex, nats, List.map_cons, Godeep.dotIndex]
      rw [ih, dotIndex_acc, dotIndex_acc _ _ (acc.toNat + _)]
      simp only [nats, UInt64.toNat_add, UInt64.toNat_mul]
      simp [Nat.add_mod]

theorem strides_mod {shape : List Nat} (h : ∀ m ∈ strides shape, m < 2 ^ 64) :
    (strides shape).map (· % 2 ^ 64) = strides shape := by
  conv_rhs => rw [← List.map_id (strides shape)]
  exact List.map_congr_left fun m hm => Nat.mod_eq_of_lt (h m hm)

theorem checkRange_toNat (ss is : List UInt64) (pos : Nat) :
    checkRange ss is pos = Godeep.checkRange (nats ss) (nats is) pos := by
  induction ss generalizing is pos with
  | nil => simp [checkRange, Godeep.checkRange, nats]
  | cons s ss ih =>
    cases is with
    | nil => simp [checkRange, Godeep.checkRange, nats]
    | cons i is =>
      simp only [checkRange, nats, List.map_cons, Godeep.checkRange]
      rw [ih]
      simp only [ge_iff_le, UInt64.le_iff_toNat_le, nats]

theorem reverseIndex_toNat (ms ss : List UInt64) (k : UInt64) :
    (reverseIndex ms ss k).map nats = Godeep.reverseIndex (nats ms) (nats ss) k.toNat := by
  induction ss generalizing ms k with
  | nil => cases ms <;> simp [reverseIndex, Godeep.reverseIndex, nats]
  | cons s ss ih =>
    cases ms with
    | nil => simp [reverseIndex, Godeep.reverseIndex, nats]
    | cons m ms =>
      simp only [reverseIndex, nats, List.map_cons, Godeep.reverseIndex]
      have hz : (m = 0) ↔ (m.toNat = 0) := by
        rw [← UInt64.toNat_inj]; simp
      by_cases h0 : m = 0
      · rw [if_pos h0, if_pos (hz.1 h0)]; rfl
      · rw [if_neg h0, if_neg (fun h => h0 (hz.2 h))]
        have := ih ms (k % m)
        rw [UInt64.toNat_mod] at this
        simp only [nats] at this
        rw [← this]
        cases reverseIndex ms ss (k % m) <;> simp [nats, UInt64.toNat_div]

theorem stride_le_size {shape : List Nat} (hp : 0 < size shape) :
    ∀ m ∈ strides shape, m ≤ size shape := by
  induction shape with
  | nil => simp [strides]
  | cons s ss ih =>
    intro m hm
    simp only [size] at hp ⊢
    have h1 : 0 < s := Nat.pos_of_mul_pos_right hp
    have h2 : 0 < size ss := Nat.pos_of_mul_pos_left hp
    simp only [strides, List.mem_cons] at hm
    have hle : size ss ≤ s * size ss := Nat.le_mul_of_pos_left _ h1
    rcases hm with rfl | hm
    · exact hle
    · exact le_trans (ih h2 m hm) hle

end Godeep.W64
