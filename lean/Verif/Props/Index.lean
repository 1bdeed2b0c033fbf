import Verif.Lemmas.Index
import Verif.Lemmas.Heap
import Verif.Lemmas.Index64
/-
  C01, C02, C03, C04, C59: index arithmetic.
-/
namespace Godeep.Props
open Godeep Spec

/-! ### C01: multi-index and flat offset are inverse -/

/-- index → offset → index, and the offset is below the number of elements -/
theorem C01_index_offset_index (shape idx : List Nat) (h : InRange shape idx) :
    ∃ k, getIndex (indexMul shape) shape idx = .ok k ∧ k < dataSize shape ∧
      reverseIndex (indexMul shape) shape k = .ok idx :=
  ⟨offset shape idx, by simp [getIndex_ok h], by simpa using offset_lt h,
    by simpa using reverseIndex_offset h⟩

/-- offset → index → offset, and the index is in range -/
theorem C01_offset_index_offset (shape : List Nat) (k : Nat) (h : k < dataSize shape) :
    ∃ idx, reverseIndex (indexMul shape) shape k = .ok idx ∧ InRange shape idx ∧
      getIndex (indexMul shape) shape idx = .ok k := by
  have hk : k < size shape := by simpa using h
  refine ⟨unflat shape k, by simpa using reverseIndex_unflat hk, unflat_inRange hk, ?_⟩
  simp [getIndex_ok (unflat_inRange hk), offset_unflat hk]

/-- the number of elements is the product of the extents -/
theorem C01_size_is_product (shape : List Nat) : dataSize shape = shape.prod := by
  rw [dataSize_eq]
  induction shape with
  | nil => rfl
  | cons s ss ih => simp [size, ih]

example : InRange [2, 3, 4] [1, 2, 3] ∧
    getIndex (indexMul [2, 3, 4]) [2, 3, 4] [1, 2, 3] = .ok 23 ∧
    reverseIndex (indexMul [2, 3, 4]) [2, 3, 4] 23 = .ok [1, 2, 3] ∧ dataSize [2, 3, 4] = 24 := by
  decide

/-! ### C02: addressing accepts exactly the valid indices -/

/-- in range: succeeds, with the row-major element -/
theorem C02_valid_index (m : Mat) (idx : List Nat) (hm : m.mul = indexMul m.shape)
    (hl : m.ops.length = dataSize m.shape) (h : InRange m.shape idx) :
    ∃ p, m.getOperand idx = .ok p ∧ m.ops[offset m.shape idx]? = some p := by
  have hk : offset m.shape idx < m.ops.length := by
    rw [hl, dataSize_eq]; exact offset_lt h
  have hp := List.getElem?_eq_getElem hk
  exact ⟨_, getOperand_ok (by rw [hm]; simp) h hp, hp⟩

/-- wrong number of components: the program aborts -/
theorem C02_wrong_rank (m : Mat) (idx : List Nat) (hm : m.mul = indexMul m.shape)
    (h : idx.length ≠ m.shape.length) : m.getOperand idx = .panic := by
  have hm' : m.mul.length = m.shape.length := by rw [hm]; simp
  unfold Mat.getOperand getIndex
  rw [if_neg (by omega), if_pos (by omega)]; rfl

theorem checkRange_some (shape idx : List Nat) (pos : Nat) (hl : idx.length = shape.length)
    (h : ¬ InRange shape idx) :
    ∃ j i s, checkRange shape idx pos = some (.indexRange i (pos + j) s) ∧ idx[j]? = some i ∧
      shape[j]? = some s ∧ s ≤ i ∧ InRange (shape.take j) (idx.take j) := by
  induction shape generalizing idx pos with
  | nil =>
    cases idx with
    | nil => exact absurd (by simp) h
    | cons i is => simp at hl
  | cons s ss ih =>
    cases idx with
    | nil => simp at hl
    | cons i is =>
      by_cases hi : i < s
      · obtain ⟨j, i', s', e1, e2, e3, e4, e5⟩ := ih is (pos + 1) (by simpa using hl)
          (fun hr => h (inRange_cons.2 ⟨hi, hr⟩))
        refine ⟨j + 1, i', s', ?_, by simpa using e2, by simpa using e3, e4, ?_⟩
        · simp only [checkRange]
          rw [if_neg (by omega), e1]
          congr 2; omega
        · simpa using ⟨hi, e5⟩
      · refine ⟨0, i, s, ?_, by simp, by simp, by omega, by simp⟩
        simp only [checkRange]; rw [if_pos (by omega)]; simp

/-- right number of components but not in range: an error naming the first bad component -/
theorem C02_out_of_range (m : Mat) (idx : List Nat) (hm : m.mul = indexMul m.shape)
    (hl : idx.length = m.shape.length) (h : ¬ InRange m.shape idx) :
    ∃ pos i s, m.getOperand idx = .err (.indexRange i pos s) ∧ idx[pos]? = some i ∧
      m.shape[pos]? = some s ∧ s ≤ i ∧ InRange (m.shape.take pos) (idx.take pos) := by
  obtain ⟨j, i, s, e1, e2⟩ := checkRange_some m.shape idx 0 hl h
  refine ⟨j, i, s, ?_, e2⟩
  have hm' : m.mul.length = m.shape.length := by rw [hm]; simp
  unfold Mat.getOperand getIndex
  rw [if_neg (by omega), if_neg (by omega), e1]
  simp

/-- so: success exactly for in-range indices -/
theorem C02_success_iff (m : Mat) (idx : List Nat) (hm : m.mul = indexMul m.shape)
    (hl : m.ops.length = dataSize m.shape) :
    (∃ p, m.getOperand idx = .ok p) ↔ InRange m.shape idx := by
  constructor
  · rintro ⟨p, hp⟩
    by_contra hr
    by_cases hlen : idx.length = m.shape.length
    · obtain ⟨_, _, _, e, _⟩ := C02_out_of_range m idx hm hlen hr
      rw [e] at hp; cases hp
    · rw [C02_wrong_rank m idx hm hlen] at hp; cases hp
  · intro h
    obtain ⟨p, hp, _⟩ := C02_valid_index m idx hm hl h
    exact ⟨p, hp⟩

example : (⟨[2, 2], [2, 1], [5, 6, 7, 8]⟩ : Mat).getOperand [1, 0] = .ok 7 ∧
    (⟨[2, 2], [2, 1], [5, 6, 7, 8]⟩ : Mat).getOperand [1, 2] = .err (.indexRange 2 1 2) ∧
    (⟨[2, 2], [2, 1], [5, 6, 7, 8]⟩ : Mat).getOperand [1] = .panic := by decide

/-! ### C03: row-major order -/

/-- offsets 0,1,2,... enumerate `allIdx`, the nested enumeration of indices with the last
component fastest, -/
theorem C03_enumeration (shape : List Nat) :
    Res.mapM (reverseIndex (indexMul shape) shape) (List.range (dataSize shape)) =
      .ok (allIdx shape) := by
  rw [allIdx_eq_map, dataSize_eq, indexMul_eq]
  exact mapM_ok fun k hk => reverseIndex_unflat (List.mem_range.1 hk)

/-- which lists exactly the in-range indices, each once, in increasing lexicographic order -/
theorem C03_allIdx_lexicographic (shape : List Nat) :
    (∀ idx, idx ∈ allIdx shape ↔ InRange shape idx) ∧ (allIdx shape).Pairwise (· < ·) :=
  ⟨fun _ => mem_allIdx, allIdx_sorted shape⟩

/-- the offset is strictly monotone for the lexicographic order on indices -/
theorem C03_offset_monotone (shape i j : List Nat) (a b : Nat) (hi : InRange shape i)
    (hj : InRange shape j) (ha : getIndex (indexMul shape) shape i = .ok a)
    (hb : getIndex (indexMul shape) shape j = .ok b) : a < b ↔ i < j := by
  rw [indexMul_eq, getIndex_ok hi] at ha
  rw [indexMul_eq, getIndex_ok hj] at hb
  injection ha with ha; injection hb with hb
  subst ha; subst hb
  have hs := List.pairwise_iff_getElem.1 (allIdx_sorted shape)
  have la : offset shape i < (allIdx shape).length := by simpa using offset_lt hi
  have lb : offset shape j < (allIdx shape).length := by simpa using offset_lt hj
  have ga : (allIdx shape)[offset shape i] = i := by
    have := allIdx_offset hi
    rw [List.getElem?_eq_getElem la] at this; injection this
  have gb : (allIdx shape)[offset shape j] = j := by
    have := allIdx_offset hj
    rw [List.getElem?_eq_getElem lb] at this; injection this
  constructor
  · intro h
    have := hs _ _ la lb h
    rwa [ga, gb] at this
  · intro h
    rcases Nat.lt_trichotomy (offset shape i) (offset shape j) with hlt | heq | hgt
    · exact hlt
    · rw [offset_inj hi hj heq] at h; exact absurd h (List.lt_irrefl _)
    · have := hs _ _ lb la hgt
      rw [ga, gb] at this
      exact absurd (List.lt_trans h this) (List.lt_irrefl _)

example : allIdx [2, 3] = [[0, 0], [0, 1], [0, 2], [1, 0], [1, 1], [1, 2]] := by decide
example : InRange [2, 3] [0, 2] ∧ InRange [2, 3] [1, 0] ∧ [0, 2] < [1, 0] := by decide

/-! ### C04: 64-bit arithmetic -/

open W64 in
/-- sizes, strides are the mathematical ones modulo 2^64 -/
theorem C04_wraps (shape : List UInt64) :
    (W64.dataSize shape).toNat = (nats shape).prod % 2 ^ 64 ∧
    nats (W64.indexMul shape) = (Godeep.indexMul (nats shape)).map (· % 2 ^ 64) := by
  refine ⟨?_, ?_⟩
  · rw [dataSize_toNat, ← C01_size_is_product, dataSize_eq]
  · rw [indexMul_toNat, indexMul_eq]

open W64 in
/-- When the tensor is not empty and its number of elements fits in 64 bits, all the
64-bit index functions compute the mathematical result. -/
theorem C04_agrees_when_it_fits (shape : List UInt64) (hpos : 0 < Godeep.dataSize (nats shape))
    (hfit : Godeep.dataSize (nats shape) < 2 ^ 64) :
    (W64.dataSize shape).toNat = Godeep.dataSize (nats shape) ∧
    nats (W64.indexMul shape) = Godeep.indexMul (nats shape) ∧
    (∀ idx : List UInt64, (W64.getIndex (W64.indexMul shape) shape idx).map UInt64.toNat =
      Godeep.getIndex (Godeep.indexMul (nats shape)) (nats shape) (nats idx)) ∧
    (∀ k : UInt64, (W64.reverseIndex (W64.indexMul shape) shape k).map nats =
      Godeep.reverseIndex (Godeep.indexMul (nats shape)) (nats shape) k.toNat) := by
  rw [dataSize_eq] at hpos hfit
  have hst : nats (W64.indexMul shape) = Godeep.indexMul (nats shape) := by
    rw [indexMul_toNat, indexMul_eq, strides_mod]
    intro m hm
    exact lt_of_le_of_lt (stride_le_size hpos m hm) hfit
  refine ⟨?_, hst, ?_, ?_⟩
  · rw [dataSize_toNat, dataSize_eq, Nat.mod_eq_of_lt hfit]
  · intro idx
    unfold W64.getIndex Godeep.getIndex
    have l1 : (W64.indexMul shape).length = (nats (W64.indexMul shape)).length := by simp [nats]
    have l2 : shape.length = (nats shape).length := by simp [nats]
    have l3 : idx.length = (nats idx).length := by simp [nats]
    rw [l1, l2, l3, hst, checkRange_toNat]
    split
    · rfl
    · split
      · rfl
      · rename_i hl
        cases hc : Godeep.checkRange (nats shape) (nats idx) 0 with
        | some e => rfl
        | none =>
          simp only [Res.map_ok, Res.ok.injEq]
          rw [dotIndex_toNat, hst, indexMul_eq]
          have hr := (checkRange_none (nats shape) (nats idx) 0 (by omega)).1 hc
          simp only [UInt64.toNat_zero]
          rw [dotIndex_strides _ _ (inRange_length hr)]
          exact Nat.mod_eq_of_lt (lt_of_lt_of_le (offset_lt hr) (Nat.le_of_lt hfit))
  · intro k
    rw [reverseIndex_toNat, hst]

/-- the hypotheses are met by a 1000×1000 shape -/
example : 0 < Godeep.dataSize (W64.nats [1000, 1000]) ∧
    Godeep.dataSize (W64.nats [1000, 1000]) < 2 ^ 64 := by decide

/-- Without the bound the size wraps: 2^32 × 2^32 has no elements, although index
(0,0) is in range. -/
theorem C04_overflow : W64.dataSize [4294967296, 4294967296] = 0 ∧
    Godeep.dataSize (W64.nats [4294967296, 4294967296]) = 2 ^ 64 ∧
    W64.getIndex (W64.indexMul [4294967296, 4294967296]) [4294967296, 4294967296] [0, 0] = .ok 0 := by
  decide

/-- and two different in-range indices can get the same offset -/
theorem C04_overflow_collision :
    W64.getIndex (W64.indexMul [3, 9223372036854775808]) [3, 9223372036854775808] [0, 0] =
    W64.getIndex (W64.indexMul [3, 9223372036854775808]) [3, 9223372036854775808] [2, 0] ∧
    W64.getIndex (W64.indexMul [3, 9223372036854775808]) [3, 9223372036854775808] [2, 0] = .ok 0 := by
  decide

/-! ### C59: shape comparison -/

/-- no error exactly for equal shapes -/
theorem C59_no_error_iff (s t : List Nat) : eqShapeErr s t = none ↔ s = t := eqShapeErr_none

theorem firstDiff_spec (s t : List Nat) (pos : Nat) (h : s.length = t.length) (hne : s ≠ t) :
    ∃ k a b, firstDiff s t pos = ((pos + k : Nat) : Int) ∧ s.take k = t.take k ∧
      s[k]? = some a ∧ t[k]? = some b ∧ a ≠ b := by
  induction s generalizing t pos with
  | nil => cases t <;> simp_all
  | cons a s ih =>
    cases t with
    | nil => simp at h
    | cons b t =>
      by_cases hab : a = b
      · subst hab
        obtain ⟨k, x, y, e1, e2, e3, e4, e5⟩ := ih t (pos + 1) (by simpa using h) (by simpa using hne)
        refine ⟨k + 1, x, y, ?_, by simpa using e2, by simpa using e3, by simpa using e4, e5⟩
        simp only [firstDiff]
        rw [if_neg (by simp), e1]; congr 1; omega
      · refine ⟨0, a, b, ?_, by simp, by simp, by simp, hab⟩
        simp only [firstDiff]
        rw [if_pos (fun h => hab h.symm)]; simp

/-- ranks differ: reported with both ranks -/
theorem C59_rank (s t : List Nat) (h : s.length ≠ t.length) :
    shapeEquals s t = -2 ∧ eqShapeErr s t = some (.rank s.length t.length) := by
  simp [shapeEquals, eqShapeErr, h]

/-- same rank, different extents: the first difference is reported -/
theorem C59_extent (s t : List Nat) (h : s.length = t.length) (hne : s ≠ t) :
    ∃ k a b : Nat, shapeEquals s t = (k : Int) ∧ eqShapeErr s t = some (.extent a b k) ∧
      s.take k = t.take k ∧ s[k]? = some a ∧ t[k]? = some b ∧ a ≠ b := by
  obtain ⟨k, a, b, e1, e2, e3, e4, e5⟩ := firstDiff_spec s t 0 h hne
  rw [Nat.zero_add] at e1
  have he : shapeEquals s t = (k : Int) := by simp [shapeEquals, h, e1]
  refine ⟨k, a, b, he, ?_, e2, e3, e4, e5⟩
  unfold eqShapeErr
  rw [he]
  rw [if_neg (by omega), if_pos (by omega)]
  simp [List.getD, e3, e4]

example : shapeEquals [2, 3, 4] [2, 5, 6] = 1 ∧ shapeEquals [2] [2, 2] = -2 ∧
    shapeEquals [2, 3] [2, 3] = -1 := by decide

end Godeep.Props
