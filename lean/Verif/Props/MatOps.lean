import Verif.Lemmas.Mat
/-
  C10 element-wise arithmetic, C11 scalar and unary maps, C12 transpose (immediate versions).
-/
set_option linter.unusedSectionVars false

namespace Godeep.Props
open Godeep Spec GoNum

variable {T : Type} [GoNum T]

theorem op2_ok (f : T → T → Res T) (g : T → T → T) (a b : Mat) (A B : STensor T) (h : Heap T)
    (ha : Holds h a A) (hb : Holds h b B) (hpos : 0 < h.next) (hs : A.shape = B.shape)
    (hf : ∀ idx, InRange A.shape idx → f (A.get idx) (B.get idx) = .ok (g (A.get idx) (B.get idx))) :
    ∃ r h', Mat.op2 f a b h = .ok r h' ∧ NewTensor h h' r (.zip g A B) := by
  obtain ⟨h', ops, e1, e2⟩ := alloc_newTensor (shape := a.shape) (t := STensor.zip g A B)
    (f := fun i h => (h.loadAt a.ops i).bind fun x => (h.loadAt b.ops i).bind fun y => f x y)
    (n := a.ops.length) (h := h) hpos ha.shape (by rw [ha.len, ha.shape]; rfl)
    (fun k hk h' he => by
      have hk1 : k < size A.shape := hk
      have hk2 : k < size B.shape := hs ▸ hk1
      rw [holds_loadAt ha he hk1, holds_loadAt hb he hk2]
      simp only [Res.bind_ok, STensor.zip]
      rw [← hs, hf _ (unflat_inRange hk1)])
  refine ⟨_, h', ?_, e2⟩
  unfold Mat.op2
  rw [eqShapeErr_none.2 (by rw [ha.shape, hb.shape, hs])]
  simp only [e1, Out.map_ok, ha.mul]

/-! ### C10 -/

theorem C10_add (a b : Mat) (A B : STensor T) (h : Heap T) (ha : Holds h a A) (hb : Holds h b B)
    (hpos : 0 < h.next) (hs : A.shape = B.shape) :
    ∃ r h', a.add b h = .ok r h' ∧ NewTensor h h' r (.zip GoNum.add A B) :=
  op2_ok _ _ a b A B h ha hb hpos hs fun _ _ => rfl

theorem C10_sub (a b : Mat) (A B : STensor T) (h : Heap T) (ha : Holds h a A) (hb : Holds h b B)
    (hpos : 0 < h.next) (hs : A.shape = B.shape) :
    ∃ r h', a.sub b h = .ok r h' ∧ NewTensor h h' r (.zip GoNum.sub A B) :=
  op2_ok _ _ a b A B h ha hb hpos hs fun _ _ => rfl

theorem C10_mul (a b : Mat) (A B : STensor T) (h : Heap T) (ha : Holds h a A) (hb : Holds h b B)
    (hpos : 0 < h.next) (hs : A.shape = B.shape) :
    ∃ r h', a.mulM b h = .ok r h' ∧ NewTensor h h' r (.zip GoNum.mul A B) :=
  op2_ok _ _ a b A B h ha hb hpos hs fun _ _ => rfl

/-- division, when no element division aborts (never, for float element types) -/
theorem C10_div (a b : Mat) (A B : STensor T) (h : Heap T) (ha : Holds h a A) (hb : Holds h b B)
    (hpos : 0 < h.next) (hs : A.shape = B.shape)
    (hd : ∀ idx, InRange A.shape idx → divPanics (A.get idx) (B.get idx) = false) :
    ∃ r h', a.div b h = .ok r h' ∧ NewTensor h h' r (.zip GoNum.div A B) :=
  op2_ok _ _ a b A B h ha hb hpos hs fun idx hr => by simp [divR, hd idx hr]

theorem exists_first {P : Nat → Prop} [DecidablePred P] {n : Nat} (h : ∃ k, k < n ∧ P k) :
    ∃ k, k < n ∧ P k ∧ ∀ j, j < k → ¬ P j := by
  obtain ⟨k, hk, hp⟩ := h
  have hex : ∃ k, P k := ⟨k, hp⟩
  refine ⟨Nat.find hex, lt_of_le_of_lt (Nat.find_min' hex hp) hk, Nat.find_spec hex, ?_⟩
  intro j hj; exact Nat.find_min hex hj

theorem range_split {k n : Nat} (h : k < n) :
    List.range n = List.range k ++ k :: List.range' (k + 1) (n - k - 1) := by
  have e : n = k + (1 + (n - k - 1)) := by omega
  conv_lhs => rw [e, List.range_eq_range', ← List.range'_append]
  rw [List.range_eq_range']
  congr 1
  rw [show 1 + (n - k - 1) = (n - k - 1) + 1 by omega, List.range'_succ]
  simp

/-- integer element types: a zero divisor anywhere aborts the program -/
theorem C10_div_panics (a b : Mat) (A B : STensor T) (h : Heap T) (ha : Holds h a A)
    (hb : Holds h b B) (hs : A.shape = B.shape) (idx : List Nat) (hr : InRange A.shape idx)
    (hd : divPanics (A.get idx) (B.get idx) = true) : a.div b h = .panic := by
  obtain ⟨k, hk, hp, hfirst⟩ := exists_first (n := size A.shape)
    (P := fun k => divPanics (A.get (unflat A.shape k)) (B.get (unflat A.shape k)) = true)
    ⟨offset A.shape idx, offset_lt hr, by rw [unflat_offset hr]; exact hd⟩
  unfold Mat.div Mat.op2
  rw [eqShapeErr_none.2 (by rw [ha.shape, hb.shape, hs])]
  have hl : a.ops.length = size A.shape := by rw [ha.len, ha.shape]
  simp only [hl]
  rw [range_split hk, allocEach_panic]
  · rfl
  · intro j hj h' he
    have hj' : j < k := List.mem_range.1 hj
    have hj1 : j < size A.shape := by omega
    rw [holds_loadAt ha he hj1, holds_loadAt hb he (hs ▸ hj1)]
    simp only [Res.bind_ok, divR, ← hs]
    rw [if_neg (hfirst j hj')]
    exact ⟨_, rfl⟩
  · intro h' he
    rw [holds_loadAt ha he hk, holds_loadAt hb he (hs ▸ hk)]
    simp only [Res.bind_ok, divR, ← hs]
    rw [if_pos hp]

/-- different shapes: an error, nothing changes (all four operations) -/
theorem C10_shape_error (a b : Mat) (h : Heap T) (hs : a.shape ≠ b.shape) :
    ∃ e, a.add b h = .err e h ∧ a.sub b h = .err e h ∧ a.mulM b h = .err e h ∧
      a.div b h = .err e h := by
  cases he : eqShapeErr a.shape b.shape with
  | some e => exact ⟨e, by simp [Mat.add, Mat.sub, Mat.mulM, Mat.div, Mat.op2, he]⟩
  | none => exact absurd (eqShapeErr_none.1 he) hs

/-- two concrete 2×2 tensors, added -/
example : (match Mat.newFromValues [1, 2, 3, 4] [2, 2] (Heap.empty (0 : Int)) with
    | .ok a h => match Mat.newFromValues [10, 20, 30, 40] [2, 2] h with
      | .ok b h => match a.add b h with
        | .ok r h => r.getData h
        | _ => .panic
      | _ => .panic
    | _ => .panic) = .ok [11, 22, 33, 44] := by decide

/-! ### C11 -/

theorem op1_ok (f : T → Heap T → Res T) (g : T → T) (a : Mat) (A : STensor T) (h : Heap T)
    (ha : Holds h a A) (hpos : 0 < h.next)
    (hf : ∀ idx, InRange A.shape idx → ∀ h', Extends h h' → f (A.get idx) h' = .ok (g (A.get idx))) :
    ∃ r h', Mat.op1 f a h = .ok r h' ∧ NewTensor h h' r (.map g A) := by
  obtain ⟨h', ops, e1, e2⟩ := alloc_newTensor (shape := a.shape) (t := STensor.map g A)
    (f := fun i h => (h.loadAt a.ops i).bind fun x => f x h)
    (n := a.ops.length) (h := h) hpos ha.shape (by rw [ha.len, ha.shape]; rfl)
    (fun k hk h' he => by
      have hk1 : k < size A.shape := hk
      rw [holds_loadAt ha he hk1]
      simp only [Res.bind_ok, STensor.map]
      rw [hf _ (unflat_inRange hk1) h' he])
  refine ⟨_, h', ?_, e2⟩
  unfold Mat.op1
  simp only [e1, Out.map_ok, ha.mul]

theorem C11_neg (a : Mat) (A : STensor T) (h : Heap T) (ha : Holds h a A) (hpos : 0 < h.next) :
    ∃ r h', a.neg h = .ok r h' ∧ NewTensor h h' r (.map GoNum.neg A) :=
  op1_ok _ _ a A h ha hpos fun _ _ _ _ => rfl

theorem C11_abs (a : Mat) (A : STensor T) (h : Heap T) (ha : Holds h a A) (hpos : 0 < h.next) :
    ∃ r h', a.abs h = .ok r h' ∧
      NewTensor h h' r (.map (fun x => if lt x zero then GoNum.neg x else x) A) :=
  op1_ok _ _ a A h ha hpos fun idx _ _ _ => by split <;> rfl

theorem C11_activate (f : T → T) (a : Mat) (A : STensor T) (h : Heap T) (ha : Holds h a A)
    (hpos : 0 < h.next) :
    ∃ r h', a.activate f h = .ok r h' ∧ NewTensor h h' r (.map f A) :=
  op1_ok _ _ a A h ha hpos fun _ _ _ _ => rfl

theorem C11_addScalar (a : Mat) (A : STensor T) (n : Ptr) (h : Heap T) (ha : Holds h a A)
    (hpos : 0 < h.next) (hn : Valid h n) :
    ∃ r h', a.addScalar n h = .ok r h' ∧
      NewTensor h h' r (.map (fun x => GoNum.add x (h.val n)) A) :=
  op1_ok _ _ a A h ha hpos fun _ _ h' he => by rw [load_extends hn he]; rfl

theorem C11_subScalar (a : Mat) (A : STensor T) (n : Ptr) (h : Heap T) (ha : Holds h a A)
    (hpos : 0 < h.next) (hn : Valid h n) :
    ∃ r h', a.subScalar n h = .ok r h' ∧
      NewTensor h h' r (.map (fun x => GoNum.sub x (h.val n)) A) :=
  op1_ok _ _ a A h ha hpos fun _ _ h' he => by rw [load_extends hn he]; rfl

theorem C11_mulScalar (a : Mat) (A : STensor T) (n : Ptr) (h : Heap T) (ha : Holds h a A)
    (hpos : 0 < h.next) (hn : Valid h n) :
    ∃ r h', a.mulScalar n h = .ok r h' ∧
      NewTensor h h' r (.map (fun x => GoNum.mul x (h.val n)) A) :=
  op1_ok _ _ a A h ha hpos fun _ _ h' he => by rw [load_extends hn he]; rfl

theorem C11_divScalar (a : Mat) (A : STensor T) (n : Ptr) (h : Heap T) (ha : Holds h a A)
    (hpos : 0 < h.next) (hn : Valid h n)
    (hd : ∀ idx, InRange A.shape idx → divPanics (A.get idx) (h.val n) = false) :
    ∃ r h', a.divScalar n h = .ok r h' ∧
      NewTensor h h' r (.map (fun x => GoNum.div x (h.val n)) A) :=
  op1_ok _ _ a A h ha hpos fun idx hr h' he => by
    rw [load_extends hn he]; simp [divR, hd idx hr]

/-- integer element types: dividing a non-empty tensor by a zero scalar aborts the program -/
theorem C11_divScalar_panics (a : Mat) (A : STensor T) (n : Ptr) (h : Heap T) (ha : Holds h a A)
    (hn : Valid h n) (hne : 0 < size A.shape)
    (hd : ∀ x : T, divPanics x (h.val n) = true) : a.divScalar n h = .panic := by
  unfold Mat.divScalar Mat.op1
  have hl : a.ops.length = size A.shape := by rw [ha.len, ha.shape]
  rw [hl, range_split hne, allocEach_panic]
  · rfl
  · intro j hj; simp at hj
  · intro h' he
    simp only [holds_loadAt ha he hne, Res.bind_ok, load_extends hn he, divR, hd, if_true]

example : (match Mat.newFromValues [1, -2, 3] [3] (Heap.empty (0 : Int)) with
    | .ok a h => match a.abs h with
      | .ok r h => (r.getData h, a.getData h)
      | _ => (.panic, .panic)
    | _ => (.panic, .panic)) = (.ok [1, 2, 3], .ok [1, -2, 3]) := by decide

/-! ### C12 -/

theorem C12_transpose (a : Mat) (A : STensor T) (h : Heap T) (ha : Holds h a A)
    (hpos : 0 < h.next) :
    ∃ r h', a.transpose h = .ok r h' ∧ NewTensor h h' r A.transpose := by
  obtain ⟨h', ops, e1, e2⟩ := alloc_newTensor (shape := a.shape.reverse) (t := A.transpose)
    (f := fun i h => (reverseIndex (indexMul a.shape.reverse) a.shape.reverse i).bind
      fun idx => a.get (invertedIndex idx) h)
    (n := a.getSize) (h := h) hpos (by rw [ha.shape]; rfl)
    (by simp only [Mat.getSize, STensor.transpose]; rw [ha.len, ha.shape, size_reverse])
    (fun k hk h' he => by
      have hk1 : k < size A.shape.reverse := hk
      rw [ha.shape, indexMul_eq, reverseIndex_unflat hk1, Res.bind_ok, invertedIndex_eq]
      have hr : InRange A.shape (unflat A.shape.reverse k).reverse := by
        rw [← inRange_reverse, List.reverse_reverse]; exact unflat_inRange hk1
      rw [holds_get ha he hr]; rfl)
  refine ⟨_, h', ?_, e2⟩
  unfold Mat.transpose
  simp only [e1, Out.map_ok]

/-- transposing twice gives the original shape and elements -/
theorem C12_transpose_involutive (a : Mat) (A : STensor T) (h : Heap T) (ha : Holds h a A)
    (hpos : 0 < h.next) :
    ∃ r h' r2 h2, a.transpose h = .ok r h' ∧ r.transpose h' = .ok r2 h2 ∧ Holds h2 r2 A := by
  obtain ⟨r, h', e1, N1⟩ := C12_transpose a A h ha hpos
  obtain ⟨r2, h2, e2, N2⟩ := C12_transpose r A.transpose h' N1.holds (lt_of_lt_of_le hpos N1.frame.next)
  refine ⟨r, h', r2, h2, e1, e2, ?_⟩
  have : A.transpose.transpose = A := by
    cases A; simp [STensor.transpose]
  rw [← this]; exact N2.holds

example : (match Mat.newFromValues [1, 2, 3, 4, 5, 6] [2, 3] (Heap.empty (0 : Int)) with
    | .ok a h => match a.transpose h with
      | .ok r h => (r.shape, r.getData h)
      | _ => ([], .panic)
    | _ => ([], .panic)) = ([3, 2], .ok [1, 4, 2, 5, 3, 6]) := by decide

end Godeep.Props
