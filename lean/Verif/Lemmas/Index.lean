import Verif.Model.Tools
import Verif.Spec.Index
import Mathlib.Tactic.Ring
import Mathlib.Tactic.Linarith
/-
  Helper facts relating the index arithmetic of the model to the specification.
-/
namespace Godeep
open Spec

/-- suffix products: what `indexMul` computes -/
def strides : List Nat → List Nat
  | [] => []
  | _ :: ss => size ss :: strides ss

theorem foldl_mul_acc (l : List Nat) (a : Nat) :
    l.foldl (fun mul s => mul * s) a = a * l.foldl (fun mul s => mul * s) 1 := by
  induction l generalizing a with
  | nil => simp
  | cons x xs ih => simp only [List.foldl_cons]; rw [ih, ih (1 * x)]; ring

theorem dataSize_cons (s : Nat) (ss : List Nat) : dataSize (s :: ss) = s * dataSize ss := by
  simp only [dataSize, List.reverse_cons, List.foldl_append, List.foldl_cons, List.foldl_nil]
  ring

@[simp] theorem dataSize_eq (shape : List Nat) : dataSize shape = size shape := by
  induction shape with
  | nil => rfl
  | cons s ss ih => rw [dataSize_cons, ih]; rfl

theorem size_append (a b : List Nat) : size (a ++ b) = size a * size b := by
  induction a with
  | nil => simp [size]
  | cons x xs ih => simp [size, ih, Nat.mul_assoc]

theorem strides_append (a b : List Nat) :
    strides (a ++ b) = (strides a).map (· * size b) ++ strides b := by
  induction a with
  | nil => simp [strides]
  | cons x xs ih => simp [strides, ih, size_append]

theorem indexMulLoop_eq (r : List Nat) (mul : Nat) (acc : List Nat) (suf : List Nat)
    (hm : mul = size suf) (hr : r ≠ []) :
    indexMulLoop r mul acc =
      ((strides r.reverse).dropLast.map (· * size suf)) ++ acc := by
  induction r generalizing mul acc suf with
  | nil => exact absurd rfl hr
  | cons s rest ih =>
    cases rest with
    | nil => simp [indexMulLoop, strides]
    | cons s' rest =>
      have hsuf : mul * s = size (s :: suf) := by rw [hm]; simp [size, Nat.mul_comm]
      rw [indexMulLoop, ih (mul * s) _ (s :: suf) hsuf (by simp)]
      rw [hsuf]
      have e : (s :: s' :: rest).reverse = (s' :: rest).reverse ++ [s] := by simp
      rw [e, strides_append]
      simp only [strides, size, Nat.mul_one]
      rw [List.dropLast_concat]
      have hne : strides (s' :: rest).reverse ≠ [] := by
        have : (s' :: rest).reverse ≠ [] := by simp
        cases hh : (s' :: rest).reverse with
        | nil => exact absurd hh this
        | cons a b => simp [strides]
      generalize hq : strides (s' :: rest).reverse = q at *
      have hlast : q.getLast hne = 1 := by
        subst hq
        have : (s' :: rest).reverse = rest.reverse ++ [s'] := by simp
        simp [this, strides_append, strides, size]
      conv_rhs => rw [← List.dropLast_append_getLast hne, hlast]
      simp [Nat.mul_assoc]

@[simp] theorem indexMul_eq (shape : List Nat) : indexMul shape = strides shape := by
  unfold indexMul
  split
  · rename_i h; have := List.length_eq_zero_iff.mp h; subst this; rfl
  · rename_i h
    have hne : shape.reverse ≠ [] := by
      intro hh; apply h; have := congrArg List.length hh; simpa using this
    rw [indexMulLoop_eq shape.reverse 1 [1] [] rfl hne]
    simp only [size, Nat.mul_one, List.map_id', List.reverse_reverse]
    have hs : shape ≠ [] := by simpa using hne
    have hst : strides shape ≠ [] := by cases shape <;> simp_all [strides]
    conv_rhs => rw [← List.dropLast_append_getLast hst]
    congr 1
    obtain ⟨a, x, rfl⟩ := List.eq_nil_or_concat shape |>.resolve_left hs
    simp [strides_append, strides, size]

@[simp] theorem strides_length (shape : List Nat) : (strides shape).length = shape.length := by
  induction shape <;> simp_all [strides]

theorem dotIndex_acc (is ms : List Nat) (acc : Nat) :
    dotIndex is ms acc = acc + dotIndex is ms 0 := by
  induction is generalizing ms acc with
  | nil => simp [dotIndex]
  | cons i is ih =>
    cases ms with
    | nil => simp [dotIndex]
    | cons m ms => simp only [dotIndex]; rw [ih, ih ms (0 + i * m)]; ring

theorem dotIndex_strides (shape idx : List Nat) (h : idx.length = shape.length) :
    dotIndex idx (strides shape) 0 = offset shape idx := by
  induction shape generalizing idx with
  | nil => cases idx <;> simp_all [dotIndex, offset, strides]
  | cons s ss ih =>
    cases idx with
    | nil => simp at h
    | cons i is =>
      simp only [strides, dotIndex, offset]
      rw [dotIndex_acc, ih is (by simpa using h)]; ring

theorem inRange_length {shape idx : List Nat} (h : InRange shape idx) :
    idx.length = shape.length := List.Forall₂.length_eq h

@[simp] theorem inRange_nil : InRange [] [] := List.Forall₂.nil

@[simp] theorem inRange_cons {s i : Nat} {ss is : List Nat} :
    InRange (s :: ss) (i :: is) ↔ i < s ∧ InRange ss is := List.forall₂_cons

instance (shape idx : List Nat) : Decidable (InRange shape idx) := by
  unfold InRange; infer_instance

theorem inRange_cons_left {s : Nat} {ss idx : List Nat} (h : InRange (s :: ss) idx) :
    ∃ i is, idx = i :: is ∧ i < s ∧ InRange ss is := by
  cases idx with
  | nil => have := inRange_length h; simp at this
  | cons i is => exact ⟨i, is, rfl, inRange_cons.1 h⟩

theorem inRange_nil_left {idx : List Nat} : InRange [] idx ↔ idx = [] := by
  constructor
  · intro h; have := inRange_length h; simpa using this
  · rintro rfl; simp

theorem checkRange_none (shape idx : List Nat) (pos : Nat) (h : idx.length = shape.length) :
    checkRange shape idx pos = none ↔ InRange shape idx := by
  induction shape generalizing idx pos with
  | nil => cases idx <;> simp_all [checkRange]
  | cons s ss ih =>
    cases idx with
    | nil => simp at h
    | cons i is =>
      have hl : is.length = ss.length := by simpa using h
      simp only [checkRange, inRange_cons]
      split
      · rename_i hge; simp; omega
      · rename_i hge; rw [ih is (pos + 1) hl]; simp; omega

theorem size_pos_of_inRange {shape idx : List Nat} (h : InRange shape idx) : 0 < size shape := by
  induction shape generalizing idx with
  | nil => simp [size]
  | cons s ss ih =>
    obtain ⟨i, is, rfl, hi, hr⟩ := inRange_cons_left h
    have := ih hr
    simp only [size]
    exact Nat.mul_pos (by omega) this

theorem offset_lt {shape idx : List Nat} (h : InRange shape idx) : offset shape idx < size shape := by
  induction shape generalizing idx with
  | nil => rw [inRange_nil_left] at h; subst h; simp [offset, size]
  | cons s ss ih =>
    obtain ⟨i, is, rfl, hi, hr⟩ := inRange_cons_left h
    have := ih hr
    simp only [offset, size]
    calc i * size ss + offset ss is < i * size ss + size ss := by omega
      _ = (i + 1) * size ss := by ring
      _ ≤ s * size ss := Nat.mul_le_mul_right _ hi

theorem getIndex_ok {shape idx : List Nat} (h : InRange shape idx) :
    getIndex (strides shape) shape idx = .ok (offset shape idx) := by
  have hl := inRange_length h
  unfold getIndex
  simp only [strides_length, ne_eq, not_true_eq_false, if_false, hl]
  rw [(checkRange_none shape idx 0 hl).2 h]
  simp [dotIndex_strides shape idx hl]

theorem reverseIndex_offset {shape idx : List Nat} (h : InRange shape idx) :
    reverseIndex (strides shape) shape (offset shape idx) = .ok idx := by
  induction shape generalizing idx with
  | nil => rw [inRange_nil_left] at h; subst h; simp [reverseIndex]
  | cons s ss ih =>
    obtain ⟨i, is, rfl, hi, hr⟩ := inRange_cons_left h
    have hp := size_pos_of_inRange hr
    have hlt := offset_lt hr
    simp only [strides, reverseIndex, offset]
    rw [if_neg (by omega)]
    have e1 : (i * size ss + offset ss is) % size ss = offset ss is := by
      rw [Nat.mul_comm, Nat.mul_add_mod, Nat.mod_eq_of_lt hlt]
    have e2 : (i * size ss + offset ss is) / size ss = i := by
      rw [Nat.mul_comm, Nat.mul_add_div hp, Nat.div_eq_of_lt hlt]; simp
    rw [e1, e2, ih hr]; rfl

theorem exists_idx {shape : List Nat} {k : Nat} (h : k < size shape) :
    ∃ idx, InRange shape idx ∧ offset shape idx = k := by
  induction shape generalizing k with
  | nil => exact ⟨[], by simp, by simp [size] at h; simp [offset, h]⟩
  | cons s ss ih =>
    simp only [size] at h
    have hp : 0 < size ss := by
      rcases Nat.eq_zero_or_pos (size ss) with h0 | h0
      · rw [h0] at h; simp at h
      · exact h0
    obtain ⟨is, hr, ho⟩ := ih (Nat.mod_lt k hp)
    refine ⟨k / size ss :: is, ?_, ?_⟩
    · rw [inRange_cons]; exact ⟨by rw [Nat.div_lt_iff_lt_mul hp]; exact h, hr⟩
    · simp only [offset, ho]; rw [Nat.mul_comm]; exact Nat.div_add_mod k (size ss)

theorem offset_inj {shape i j : List Nat} (hi : InRange shape i) (hj : InRange shape j)
    (h : offset shape i = offset shape j) : i = j := by
  have a := reverseIndex_offset hi
  rw [h, reverseIndex_offset hj] at a
  injection a with a; exact a.symm

theorem unflat_offset {shape idx : List Nat} (h : InRange shape idx) :
    unflat shape (offset shape idx) = idx := by
  induction shape generalizing idx with
  | nil => rw [inRange_nil_left] at h; subst h; rfl
  | cons s ss ih =>
    obtain ⟨i, is, rfl, hi, hr⟩ := inRange_cons_left h
    have hp := size_pos_of_inRange hr
    have hlt := offset_lt hr
    simp only [unflat, offset]
    have e1 : (i * size ss + offset ss is) % size ss = offset ss is := by
      rw [Nat.mul_comm, Nat.mul_add_mod, Nat.mod_eq_of_lt hlt]
    have e2 : (i * size ss + offset ss is) / size ss = i := by
      rw [Nat.mul_comm, Nat.mul_add_div hp, Nat.div_eq_of_lt hlt]; simp
    rw [e1, e2, ih hr]

theorem unflat_inRange {shape : List Nat} {k : Nat} (h : k < size shape) :
    InRange shape (unflat shape k) := by
  obtain ⟨idx, hr, ho⟩ := exists_idx h
  rw [← ho, unflat_offset hr]; exact hr

theorem offset_unflat {shape : List Nat} {k : Nat} (h : k < size shape) :
    offset shape (unflat shape k) = k := by
  obtain ⟨idx, hr, ho⟩ := exists_idx h
  rw [← ho, unflat_offset hr]

theorem reverseIndex_unflat {shape : List Nat} {k : Nat} (h : k < size shape) :
    reverseIndex (strides shape) shape k = .ok (unflat shape k) := by
  conv_lhs => rw [← offset_unflat h]
  exact reverseIndex_offset (unflat_inRange h)

theorem mem_allIdx {shape idx : List Nat} : idx ∈ allIdx shape ↔ InRange shape idx := by
  induction shape generalizing idx with
  | nil => simp [allIdx, inRange_nil_left]
  | cons s ss ih =>
    simp only [allIdx, List.mem_flatMap, List.mem_range, List.mem_map]
    constructor
    · rintro ⟨i, hi, is, his, rfl⟩; exact inRange_cons.2 ⟨hi, ih.1 his⟩
    · intro h
      obtain ⟨i, is, rfl, hi, hr⟩ := inRange_cons_left h
      exact ⟨i, hi, is, ih.2 hr, rfl⟩

theorem range_mul_flatMap (s n : Nat) {β : Type} (f : Nat → β) :
    (List.range (s * n)).map f =
      (List.range s).flatMap fun i => (List.range n).map fun k => f (i * n + k) := by
  induction s with
  | zero => simp
  | succ s ih =>
    rw [Nat.succ_mul, List.range_add, List.map_append, ih, List.range_succ, List.flatMap_append]
    simp [Function.comp_def]

theorem allIdx_eq_map (shape : List Nat) :
    allIdx shape = (List.range (size shape)).map (unflat shape) := by
  induction shape with
  | nil => simp [allIdx, size, unflat]
  | cons s ss ih =>
    simp only [allIdx, size]
    rw [range_mul_flatMap]
    congr 1
    funext i
    rw [ih, List.map_map]
    apply List.map_congr_left
    intro k hk
    have hk' : k < size ss := List.mem_range.1 hk
    have hp : 0 < size ss := by omega
    have e1 : (i * size ss + k) % size ss = k := by
      rw [Nat.mul_comm, Nat.mul_add_mod, Nat.mod_eq_of_lt hk']
    have e2 : (i * size ss + k) / size ss = i := by
      rw [Nat.mul_comm, Nat.mul_add_div hp, Nat.div_eq_of_lt hk']; simp
    simp [unflat, e1, e2]

@[simp] theorem allIdx_length (shape : List Nat) : (allIdx shape).length = size shape := by
  rw [allIdx_eq_map]; simp

theorem allIdx_getElem? {shape : List Nat} {k : Nat} (h : k < size shape) :
    (allIdx shape)[k]? = some (unflat shape k) := by
  rw [allIdx_eq_map]; simp [h]

theorem allIdx_offset {shape idx : List Nat} (h : InRange shape idx) :
    (allIdx shape)[offset shape idx]? = some idx := by
  rw [allIdx_getElem? (offset_lt h), unflat_offset h]

theorem allIdx_sorted (shape : List Nat) : (allIdx shape).Pairwise (· < ·) := by
  induction shape with
  | nil => simp [allIdx]
  | cons s ss ih =>
    simp only [allIdx]
    rw [List.pairwise_flatMap]
    refine ⟨fun i _ => ?_, ?_⟩
    · rw [List.pairwise_map]
      exact ih.imp (fun {a b} hab => List.cons_lt_cons_iff.2 (Or.inr ⟨rfl, hab⟩))
    · refine List.pairwise_lt_range.imp ?_
      intro i j hij x hx y hy
      simp only [List.mem_map] at hx hy
      obtain ⟨a, _, rfl⟩ := hx
      obtain ⟨b, _, rfl⟩ := hy
      exact List.cons_lt_cons_iff.2 (Or.inl hij)

theorem invertLoop_eq (index : List Nat) (n : Nat) (h : n ≤ index.length) :
    invertLoop index (index.length - 1) n = index.reverse.take n := by
  induction n with
  | zero => simp [invertLoop]
  | succ k ih =>
    rw [invertLoop, ih (by omega), List.take_add_one]
    congr 1
    have hk : k < index.reverse.length := by simp; omega
    rw [List.getElem?_eq_getElem hk]
    simp [List.getElem_reverse]
    rw [List.getElem?_eq_getElem (by omega)]; simp

@[simp] theorem invertedIndex_eq (index : List Nat) : invertedIndex index = index.reverse := by
  unfold invertedIndex
  rw [invertLoop_eq _ _ (le_refl _)]
  rw [List.take_of_length_le (by simp)]

theorem inRange_reverse {shape idx : List Nat} :
    InRange shape.reverse idx.reverse ↔ InRange shape idx := by
  unfold InRange
  exact List.forall₂_reverse_iff

theorem size_reverse (shape : List Nat) : size shape.reverse = size shape := by
  induction shape with
  | nil => rfl
  | cons s ss ih => simp [size_append, size, ih, Nat.mul_comm]

theorem firstDiff_neg {s t : List Nat} (h : s.length = t.length) (pos : Nat) :
    firstDiff s t pos = -1 ↔ s = t := by
  induction s generalizing t pos with
  | nil => cases t <;> simp_all [firstDiff]
  | cons a s ih =>
    cases t with
    | nil => simp at h
    | cons b t =>
      simp only [firstDiff]
      split
      · rename_i hne
        constructor
        · intro hh; omega
        · intro hh; injection hh with h1 h2; exact absurd h1.symm hne
      · rename_i hne
        push Not at hne
        rw [ih (by simpa using h)]; simp [hne]

theorem firstDiff_nonneg_or {s t : List Nat} (pos : Nat) :
    firstDiff s t pos = -1 ∨ (pos : Int) ≤ firstDiff s t pos := by
  induction s generalizing t pos with
  | nil => simp [firstDiff]
  | cons a s ih =>
    cases t with
    | nil => simp [firstDiff]
    | cons b t =>
      simp only [firstDiff]
      split
      · right; omega
      · rcases ih (t := t) (pos + 1) with h | h
        · left; exact h
        · right; push_cast at h; omega

theorem eqShapeErr_none {s t : List Nat} : eqShapeErr s t = none ↔ s = t := by
  unfold eqShapeErr shapeEquals
  by_cases hl : s.length = t.length
  · simp only [hl, ne_eq, not_true_eq_false, if_false]
    have h1 := firstDiff_neg hl 0
    rcases firstDiff_nonneg_or (s := s) (t := t) 0 with h | h
    · simp [h]; exact h1.1 h
    · simp only [Nat.cast_zero] at h
      rw [if_neg (by omega), if_pos (by omega)]
      simp
      intro hst; have := h1.2 hst; omega
  · simp only [ne_eq, hl, not_false_eq_true, if_true]
    simp
    intro hst; exact hl (by rw [hst])

@[simp] theorem eqShapeErr_self (s : List Nat) : eqShapeErr s s = none := eqShapeErr_none.2 rfl

end Godeep
