import Verif.Lemmas.Struct
import Verif.Props.MatOps
import Mathlib.Algebra.Order.Field.Basic
import Mathlib.Algebra.BigOperators.Group.List.Basic
/-
  C18 reductions, C19 SoftMax (immediate versions).
-/
set_option linter.unusedSectionVars false

namespace Godeep.Props
open Godeep Spec GoNum

variable {T : Type} [GoNum T]

/-! ### C18: whole-tensor reductions -/

theorem reduce_ok (r : List T → Res T) (r' : List T → T) (a : Mat) (A : STensor T) (h : Heap T)
    (ha : Holds h a A) (hpos : 0 < h.next) (hr : r A.flat = .ok (r' A.flat)) :
    ∃ m h', Mat.reduce r a h = .ok m h' ∧ NewTensor h h' m (A.reduce r') := by
  obtain ⟨h', e1, e2, e3, e4⟩ := allocEach_ok (f := fun (_ : Unit) h => (h.loadAll a.ops).bind r)
    (v := fun _ => r' A.flat) (l := [()]) (h := h)
    (fun i _ h' he => by rw [holds_loadAll ha he, Res.bind_ok, hr])
  refine ⟨_, h', by unfold Mat.reduce; rw [e1]; rfl, ?_⟩
  exact newTensor_of_alloc (shape := [1]) (t := A.reduce r') rfl e2 e3 hpos (by rw [e4]; rfl)

theorem C18_sum (a : Mat) (A : STensor T) (h : Heap T) (ha : Holds h a A) (hpos : 0 < h.next) :
    ∃ m h', a.sum h = .ok m h' ∧ NewTensor h h' m (A.reduce sum0) :=
  reduce_ok _ sum0 a A h ha hpos rfl

theorem C18_avg (a : Mat) (A : STensor T) (h : Heap T) (ha : Holds h a A) (hpos : 0 < h.next)
    (hd : divPanics (sum0 A.flat) (ofNat (size A.shape)) = false) :
    ∃ m h', a.avg h = .ok m h' ∧
      NewTensor h h' m (A.reduce fun vs => GoNum.div (sum0 vs) (ofNat vs.length)) := by
  refine reduce_ok _ (fun vs => GoNum.div (sum0 vs) (ofNat vs.length)) a A h ha hpos ?_
  have hd' : divPanics (List.foldl GoNum.add zero A.flat) (ofNat A.flat.length) = false := by
    rw [flat_length]; exact hd
  simp [Mat.toolsAvg, divR, hd', sum0]

theorem flat_ne_nil {A : STensor T} (hne : 0 < size A.shape) : ∃ v vs, A.flat = v :: vs := by
  have := flat_length A
  cases hf : A.flat with
  | nil => rw [hf] at this; simp at this; omega
  | cons v vs => exact ⟨v, vs, rfl⟩

theorem C18_max (a : Mat) (A : STensor T) (h : Heap T) (ha : Holds h a A) (hpos : 0 < h.next)
    (hne : 0 < size A.shape) :
    ∃ m h', a.max h = .ok m h' ∧ NewTensor h h' m (A.reduce max1) := by
  obtain ⟨v, vs, hf⟩ := flat_ne_nil hne
  exact reduce_ok _ max1 a A h ha hpos (by rw [hf]; rfl)

theorem C18_min (a : Mat) (A : STensor T) (h : Heap T) (ha : Holds h a A) (hpos : 0 < h.next)
    (hne : 0 < size A.shape) :
    ∃ m h', a.min h = .ok m h' ∧ NewTensor h h' m (A.reduce min1) := by
  obtain ⟨v, vs, hf⟩ := flat_ne_nil hne
  exact reduce_ok _ min1 a A h ha hpos (by rw [hf]; rfl)

/-- the maximum or minimum of a tensor with no element aborts -/
theorem C18_max_min_empty (a : Mat) (A : STensor T) (h : Heap T) (ha : Holds h a A)
    (hz : size A.shape = 0) : a.max h = .panic ∧ a.min h = .panic := by
  have hn : A.flat = [] := List.eq_nil_of_length_eq_zero (by rw [flat_length, hz])
  constructor
  · simp only [Mat.max, Mat.reduce, Heap.allocEach, holds_loadAll ha (Extends.refl h), Res.bind_ok,
      hn, Mat.toolsMax]; rfl
  · simp only [Mat.min, Mat.reduce, Heap.allocEach, holds_loadAll ha (Extends.refl h), Res.bind_ok,
      hn, Mat.toolsMin]; rfl

/-- `<` of the element type is a strict weak order (true of integers, and of floating-point
numbers that are not NaN) -/
structure WeakOrder (T : Type) [GoNum T] : Prop where
  irrefl : ∀ a : T, lt a a = false
  ntrans : ∀ a b c : T, lt a b = false → lt b c = false → lt a c = false
  asymm : ∀ a b : T, lt a b = true → lt b a = false

theorem max1_spec (w : WeakOrder T) : ∀ vs : List T, vs ≠ [] →
    max1 vs ∈ vs ∧ ∀ v ∈ vs, lt (max1 vs) v = false := by
  have key : ∀ (vs : List T) (m : T),
      let r := vs.foldl (fun m a => if lt m a then a else m) m
      (r = m ∨ r ∈ vs) ∧ lt r m = false ∧ ∀ v ∈ vs, lt r v = false := by
    intro vs
    induction vs with
    | nil => intro m; simp [w.irrefl]
    | cons x vs ih =>
      intro m
      obtain ⟨h1, h2, h3⟩ := ih (if lt m x then x else m)
      simp only [List.foldl_cons]
      refine ⟨?_, ?_, ?_⟩
      · rcases h1 with h1 | h1
        · rw [h1]; split <;> simp
        · exact Or.inr (by simp [h1])
      · by_cases hx : lt m x = true
        · rw [if_pos hx] at h2 ⊢
          exact w.ntrans _ _ _ h2 (w.asymm _ _ hx)
        · rw [if_neg hx] at h2 ⊢; exact h2
      · intro v hv
        rcases List.mem_cons.1 hv with rfl | hv
        · by_cases hx : lt m v = true
          · rw [if_pos hx] at h2 ⊢; exact h2
          · rw [if_neg hx] at h2 ⊢
            exact w.ntrans _ _ _ h2 (by simpa using hx)
        · exact h3 v hv
  intro vs hne
  cases vs with
  | nil => simp at hne
  | cons v vs =>
    obtain ⟨h1, h2, h3⟩ := key vs v
    exact ⟨by rcases h1 with h1 | h1 <;> simp [max1, h1], by
      intro u hu
      rcases List.mem_cons.1 hu with rfl | hu
      · exact h2
      · exact h3 u hu⟩

theorem min1_spec (w : WeakOrder T) : ∀ vs : List T, vs ≠ [] →
    min1 vs ∈ vs ∧ ∀ v ∈ vs, lt v (min1 vs) = false := by
  have key : ∀ (vs : List T) (m : T),
      let r := vs.foldl (fun m a => if lt a m then a else m) m
      (r = m ∨ r ∈ vs) ∧ lt m r = false ∧ ∀ v ∈ vs, lt v r = false := by
    intro vs
    induction vs with
    | nil => intro m; simp [w.irrefl]
    | cons x vs ih =>
      intro m
      obtain ⟨h1, h2, h3⟩ := ih (if lt x m then x else m)
      simp only [List.foldl_cons]
      refine ⟨?_, ?_, ?_⟩
      · rcases h1 with h1 | h1
        · rw [h1]; split <;> simp
        · exact Or.inr (by simp [h1])
      · by_cases hx : lt x m = true
        · rw [if_pos hx] at h2 ⊢
          exact w.ntrans _ _ _ (w.asymm _ _ hx) h2
        · rw [if_neg hx] at h2 ⊢; exact h2
      · intro v hv
        rcases List.mem_cons.1 hv with rfl | hv
        · by_cases hx : lt v m = true
          · rw [if_pos hx] at h2 ⊢; exact h2
          · rw [if_neg hx] at h2 ⊢
            exact w.ntrans _ _ _ (by simpa using hx) h2
        · exact h3 v hv
  intro vs hne
  cases vs with
  | nil => simp at hne
  | cons v vs =>
    obtain ⟨h1, h2, h3⟩ := key vs v
    exact ⟨by rcases h1 with h1 | h1 <;> simp [min1, h1], by
      intro u hu
      rcases List.mem_cons.1 hu with rfl | hu
      · exact h2
      · exact h3 u hu⟩

/-- the value returned by `Max` is an element, and no element is greater; dually for `Min` -/
theorem C18_max_min_extremal (w : WeakOrder T) (A : STensor T) (hne : 0 < size A.shape) :
    (∃ i, InRange A.shape i ∧ (A.reduce max1).get [0] = A.get i) ∧
    (∀ i, InRange A.shape i → lt ((A.reduce max1).get [0]) (A.get i) = false) ∧
    (∃ i, InRange A.shape i ∧ (A.reduce min1).get [0] = A.get i) ∧
    (∀ i, InRange A.shape i → lt (A.get i) ((A.reduce min1).get [0]) = false) := by
  obtain ⟨v, vs, hf⟩ := flat_ne_nil hne
  have hnn : A.flat ≠ [] := by rw [hf]; simp
  obtain ⟨h1, h2⟩ := max1_spec w _ hnn
  obtain ⟨h3, h4⟩ := min1_spec w _ hnn
  have hmem : ∀ x, x ∈ A.flat ↔ ∃ i, InRange A.shape i ∧ x = A.get i := by
    intro x
    simp only [STensor.flat, List.mem_map, mem_allIdx]
    exact ⟨fun ⟨i, h, e⟩ => ⟨i, h, e.symm⟩, fun ⟨i, h, e⟩ => ⟨i, h, e.symm⟩⟩
  exact ⟨(hmem _).1 h1, fun i hi => h2 _ ((hmem _).2 ⟨i, hi, rfl⟩), (hmem _).1 h3,
    fun i hi => h4 _ ((hmem _).2 ⟨i, hi, rfl⟩)⟩

example : WeakOrder Int :=
  ⟨by intro a; simp [GoNum.lt], by intro a b c; simp only [GoNum.lt, decide_eq_false_iff_not]; omega,
    by intro a b; simp only [GoNum.lt, decide_eq_true_eq, decide_eq_false_iff_not]; omega⟩

example : (match Mat.newFromValues [3, -1, 7] [3] (Heap.empty (0 : Int)) with
    | .ok a h => [(a.sum h), (a.max h), (a.min h), (a.avg h)].map fun r => match r with
      | .ok m h => (m.shape, m.getData h) | _ => ([], .panic)
    | _ => []) = [([1], .ok [9]), ([1], .ok [7]), ([1], .ok [-1]), ([1], .ok [3])] := by decide

/-! ### C18: reductions along trailing dimensions -/

theorem unflat_append {s1 s2 : List Nat} {i j : Nat} (hi : i < size s1) (hj : j < size s2) :
    unflat (s1 ++ s2) (i * size s2 + j) = unflat s1 i ++ unflat s2 j := by
  have hr1 := unflat_inRange hi
  have hr2 := unflat_inRange hj
  have := unflat_offset (inRange_append hr1 hr2)
  rw [offset_append _ _ _ _ (inRange_length hr1), offset_unflat hi, offset_unflat hj] at this
  exact this

theorem dim_slice {A : STensor T} {d : Nat} {i : Nat}
    (hi : i < size (A.shape.take (d + 1))) :
    (A.flat.drop (i * size (A.shape.drop (d + 1)))).take (size (A.shape.drop (d + 1))) =
      (allIdx (A.shape.drop (d + 1))).map fun suf =>
        A.get (unflat (A.shape.take (d + 1)) i ++ suf) := by
  have hsz : size A.shape = size (A.shape.take (d + 1)) * size (A.shape.drop (d + 1)) := by
    rw [← size_append, List.take_append_drop]
  generalize hp : A.shape.take (d + 1) = s1 at *
  generalize hq : A.shape.drop (d + 1) = s2 at *
  have hsplit : A.shape = s1 ++ s2 := by rw [← hp, ← hq, List.take_append_drop]
  apply List.ext_getElem?
  intro j
  rw [List.getElem?_take]
  by_cases hj : j < size s2
  · rw [if_pos hj, List.getElem?_drop, List.getElem?_map, allIdx_getElem? hj]
    have hlt : i * size s2 + j < size A.shape := by
      rw [hsz]
      calc i * size s2 + j < i * size s2 + size s2 := by omega
        _ = (i + 1) * size s2 := by ring
        _ ≤ _ := Nat.mul_le_mul_right _ hi
    rw [flat_getElem? hlt, hsplit, unflat_append hi hj]; rfl
  · rw [if_neg hj, List.getElem?_map, List.getElem?_eq_none (by rw [allIdx_length]; omega)]; rfl

theorem dimReduce_ok (r : List T → Res T) (r' : List T → T) (a : Mat) (A : STensor T) (h : Heap T)
    (ha : Holds h a A) (hpos : 0 < h.next) (d : Nat) (hd : d < A.shape.length)
    (hr : ∀ i, InRange (A.shape.take (d + 1)) i →
      let vs := (allIdx (A.shape.drop (d + 1))).map fun suf => A.get (i ++ suf)
      r vs = .ok (r' vs)) :
    ∃ m h', Mat.dimReduce r a d h = .ok m h' ∧ NewTensor h h' m (A.dimReduce r' d) := by
  have hmul : a.mul[d]? = some (size (A.shape.drop (d + 1))) := by
    rw [ha.mul, indexMul_eq, ha.shape]
    clear hr ha hpos
    generalize A.shape = s at hd
    induction s generalizing d with
    | nil => simp at hd
    | cons x s ih =>
      cases d with
      | zero => simp [strides]
      | succ d => simpa [strides] using ih d (by simpa using hd)
  set mi := size (A.shape.drop (d + 1)) with hmi
  obtain ⟨h', ops, e1, e2⟩ := alloc_newTensor (shape := A.shape.take (d + 1))
    (t := A.dimReduce r' d)
    (f := fun i h => (Mat.slice a.ops (i * mi) (i * mi + mi)).bind fun args => (h.loadAll args).bind r)
    (n := size (A.shape.take (d + 1))) (h := h) hpos rfl rfl
    (fun k hk h' he => by
      have hk1 : k < size (A.shape.take (d + 1)) := hk
      have hsz : size A.shape = size (A.shape.take (d + 1)) * mi := by
        rw [hmi, ← size_append, List.take_append_drop]
      have hle : k * mi + mi ≤ a.ops.length := by
        rw [ha.len, ha.shape, hsz]
        calc k * mi + mi = (k + 1) * mi := by ring
          _ ≤ _ := Nat.mul_le_mul_right _ hk1
      simp only [Mat.slice]
      rw [if_pos ⟨by omega, hle⟩, Res.bind_ok, show k * mi + mi - k * mi = mi by omega]
      have hl : h'.loadAll ((a.ops.drop (k * mi)).take mi) = .ok ((A.flat.drop (k * mi)).take mi) := by
        rw [loadAll_extends (h := h) (fun p hp => ha.valid p (List.mem_of_mem_drop (List.mem_of_mem_take hp))) he,
          List.map_take, List.map_drop, holds_flat ha]
      rw [hl, Res.bind_ok, hmi, dim_slice hk1]
      exact hr _ (unflat_inRange hk1))
  refine ⟨_, h', ?_, e2⟩
  unfold Mat.dimReduce
  rw [ha.shape, if_neg (by omega)]
  simp only [Res.index_eq hmul, dataSize_eq, e1, Out.map_ok]

theorem C18_dsum (a : Mat) (A : STensor T) (h : Heap T) (ha : Holds h a A) (hpos : 0 < h.next)
    (d : Nat) (hd : d < A.shape.length) :
    ∃ m h', a.dsum d h = .ok m h' ∧ NewTensor h h' m (A.dimReduce sum0 d) :=
  dimReduce_ok _ sum0 a A h ha hpos d hd (fun _ _ => rfl)

theorem C18_davg (a : Mat) (A : STensor T) (h : Heap T) (ha : Holds h a A) (hpos : 0 < h.next)
    (d : Nat) (hd : d < A.shape.length)
    (hdiv : ∀ v : T, divPanics v (ofNat (size (A.shape.drop (d + 1)))) = false) :
    ∃ m h', a.davg d h = .ok m h' ∧
      NewTensor h h' m (A.dimReduce (fun vs => GoNum.div (sum0 vs) (ofNat vs.length)) d) := by
  refine dimReduce_ok _ (fun vs => GoNum.div (sum0 vs) (ofNat vs.length)) a A h ha hpos d hd ?_
  intro i _
  simp only [Mat.toolsAvg, divR, List.length_map, allIdx_length, hdiv, sum0, Bool.false_eq_true,
    if_false]

theorem allIdx_map_ne_nil {s : List Nat} (f : List Nat → T) (hne : 0 < size s) :
    ∃ v vs, (allIdx s).map f = v :: vs := by
  have := allIdx_length s
  cases hf : (allIdx s) with
  | nil => rw [hf] at this; simp at this; omega
  | cons v vs => exact ⟨_, _, rfl⟩

theorem C18_dmax (a : Mat) (A : STensor T) (h : Heap T) (ha : Holds h a A) (hpos : 0 < h.next)
    (d : Nat) (hd : d < A.shape.length) (hne : 0 < size (A.shape.drop (d + 1))) :
    ∃ m h', a.dmax d h = .ok m h' ∧ NewTensor h h' m (A.dimReduce max1 d) := by
  refine dimReduce_ok _ max1 a A h ha hpos d hd ?_
  intro i _
  obtain ⟨v, vs, hf⟩ := allIdx_map_ne_nil (fun suf => A.get (i ++ suf)) hne
  simp only [hf]; rfl

theorem C18_dmin (a : Mat) (A : STensor T) (h : Heap T) (ha : Holds h a A) (hpos : 0 < h.next)
    (d : Nat) (hd : d < A.shape.length) (hne : 0 < size (A.shape.drop (d + 1))) :
    ∃ m h', a.dmin d h = .ok m h' ∧ NewTensor h h' m (A.dimReduce min1 d) := by
  refine dimReduce_ok _ min1 a A h ha hpos d hd ?_
  intro i _
  obtain ⟨v, vs, hf⟩ := allIdx_map_ne_nil (fun suf => A.get (i ++ suf)) hne
  simp only [hf]; rfl

/-- a dimension that does not exist is reported, and nothing changes -/
theorem C18_bad_dim (a : Mat) (h : Heap T) (d : Nat) (hd : a.shape.length ≤ d) :
    a.dsum d h = .err (.badDim d a.shape.length) h ∧ a.davg d h = .err (.badDim d a.shape.length) h ∧
    a.dmax d h = .err (.badDim d a.shape.length) h ∧ a.dmin d h = .err (.badDim d a.shape.length) h := by
  simp only [Mat.dsum, Mat.davg, Mat.dmax, Mat.dmin, Mat.dimReduce, if_pos (show d ≥ a.shape.length from hd),
    and_self]

example : (match Mat.newFromValues [1, 2, 3, 4, 5, 6] [2, 3] (Heap.empty (0 : Int)) with
    | .ok a h => [(a.dsum 0 h), (a.dmax 0 h), (a.dmin 1 h), (a.davg 0 h)].map fun r => match r with
      | .ok m h => (m.shape, m.getData h) | _ => ([], .panic)
    | _ => []) = [([2], .ok [6, 15]), ([2], .ok [3, 6]), ([2, 3], .ok [1, 2, 3, 4, 5, 6]),
      ([2], .ok [2, 5])] := by decide

/-! ### C19: SoftMax

The operation is not the exponential softmax: it shifts by the minimum and divides by the
sum of the shifted values. -/

/-- `(x - min) / Σ (x - min)` -/
def shiftNorm (A : STensor T) : STensor T :=
  let mn := min1 A.flat
  A.map fun v => GoNum.div (GoNum.sub v mn) (sum0 (A.flat.map fun w => GoNum.sub w mn))

theorem C19_softMax (a : Mat) (A : STensor T) (h : Heap T) (ha : Holds h a A) (hpos : 0 < h.next)
    (hne : 0 < size A.shape)
    (hdiv : ∀ v : T, divPanics v (sum0 (A.flat.map fun w => GoNum.sub w (min1 A.flat))) = false) :
    ∃ m h', a.softMax h = .ok m h' ∧ NewTensor h h' m (shiftNorm A) := by
  obtain ⟨v, vs, hf⟩ := flat_ne_nil hne
  have hmin : Mat.toolsMin A.flat = .ok (min1 A.flat) := by rw [hf]; rfl
  have hsum : A.flat.foldl (fun s v => GoNum.add s (GoNum.sub v (min1 A.flat))) zero =
      sum0 (A.flat.map fun w => GoNum.sub w (min1 A.flat)) := by
    unfold sum0; rw [List.foldl_map]
  obtain ⟨h', ops, e1, e2⟩ := alloc_newTensor (shape := A.shape) (t := shiftNorm A)
    (f := fun i h => (h.loadAt a.ops i).bind fun v => GoNum.divR (GoNum.sub v (min1 A.flat))
      (sum0 (A.flat.map fun w => GoNum.sub w (min1 A.flat))))
    (n := size A.shape) (h := h) hpos rfl rfl
    (fun k hk h' he => by
      rw [holds_loadAt ha he hk, Res.bind_ok]
      simp only [divR, hdiv, Bool.false_eq_true, if_false]; rfl)
  refine ⟨_, h', ?_, e2⟩
  unfold Mat.softMax
  rw [holds_loadAll ha (Extends.refl h)]
  simp only [Res.bind_ok, hmin, Res.map_ok, hsum]
  rw [show a.ops.length = size A.shape by rw [ha.len, ha.shape], e1, Out.map_ok, ha.mul, ha.shape]

/-- a tensor without elements aborts -/
theorem C19_softMax_empty (a : Mat) (A : STensor T) (h : Heap T) (ha : Holds h a A)
    (hz : size A.shape = 0) : a.softMax h = .panic := by
  have hn : A.flat = [] := List.eq_nil_of_length_eq_zero (by rw [flat_length, hz])
  simp only [Mat.softMax, holds_loadAll ha (Extends.refl h), Res.bind_ok, hn, Mat.toolsMin]; rfl

end Godeep.Props
