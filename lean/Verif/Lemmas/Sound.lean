import Verif.Lemmas.Fin3
/-
  Every successful `BuildGraph` body is correct, and misfits are rejected.
-/
set_option linter.unusedSectionVars false

namespace Godeep
open Spec GoNum

variable {T : Type} [GoNum T] {get : Nat → Mat} {s : FSt T}

theorem pickLoop_all {f : Nat → Heap T → Res (Ptr × Heap T)} :
    ∀ (l : List Nat) (acc : List Ptr) (s s' : FSt T), FSt.pickLoop f l acc s = .ok () s' →
      ∀ i ∈ l, ∃ h r, f i h = .ok r := by
  intro l
  induction l with
  | nil => intro _ _ _ _ i hi; simp at hi
  | cons i l ih =>
    intro acc s s' h j hj
    simp only [FSt.pickLoop] at h
    cases hf : f i s.heap with
    | ok r =>
      rw [hf] at h
      rcases List.mem_cons.1 hj with rfl | hj
      · exact ⟨_, _, hf⟩
      · exact ih _ _ _ h j hj
    | err e => rw [hf] at h; cases h
    | panic => rw [hf] at h; cases h

theorem getIndex_inRange {mul shape idx : List Nat} {k : Nat} (h : getIndex mul shape idx = .ok k) :
    InRange shape idx := by
  unfold getIndex at h
  split at h
  · cases h
  split at h
  · cases h
  · rename_i hl
    split at h
    · cases h
    · rename_i hc
      exact (checkRange_none shape idx 0 (by simpa [eq_comm] using hl)).1 hc

theorem getOperand_inRange {m : Mat} {i : List Nat} {p : Ptr} (h : m.getOperand i = .ok p) :
    InRange m.shape i := by
  unfold Mat.getOperand at h
  obtain ⟨k, hk, _⟩ := res_bind_ok h
  exact getIndex_inRange hk

/-- the window starts inside the tensor and ends outside: the element just past the end is
requested from the source -/
theorem fin_sub_boundary {d st en : Nat} {t : Nat} (hd : d < (get t).shape.length)
    (h1 : st ≤ (get t).shape.getD d 0) (h2 : (get t).shape.getD d 0 < en)
    (hne : size ((get t).shape.set d (en - st)) ≠ 0) (s' : FSt T) :
    Fin.run get (.sub d st en true t) s ≠ .ok () s' := by
  intro hrun
  simp only [Fin.run, Fin.sub] at hrun
  rw [if_neg (by omega), if_neg (by omega), if_neg (by simp), if_neg (by simp)] at hrun
  generalize hm : (get t).shape.getD d 0 = m at *
  generalize hshape : (get t).shape.set d (en - st) = shape at *
  have hex : ∃ idx, InRange shape idx ∧ idx[d]? = some (m - st) := by
    obtain ⟨i0, hi0, -⟩ := exists_idx (shape := shape) (k := 0) (by omega)
    refine ⟨i0.set d (m - st), ?_, ?_⟩
    · have := inRange_set_intro (d := d) (n := en - st) (w := m - st)
        (by rw [← hshape]; simpa using hd) hi0 (by omega)
      rw [← hshape, List.set_set] at this
      rw [← hshape]; exact this
    · have : d < i0.length := by rw [inRange_length hi0, ← hshape]; simpa using hd
      simp [this]
  obtain ⟨idx, hr, hv⟩ := hex
  obtain ⟨h, r, hf⟩ := pickLoop_all _ _ _ _ hrun (offset shape idx)
    (by rw [dataSize_eq]; exact List.mem_range.2 (offset_lt hr))
  rw [indexMul_eq, reverseIndex_offset hr, Res.bind_ok, bump_ok hv, Res.bind_ok] at hf
  have hdl : d < idx.length := (List.getElem?_eq_some_iff.1 hv).1
  have hg : (idx.set d (m - st + st)).getD d 0 = m := by
    simp [List.getD, hdl]; omega
  rw [if_neg (by omega)] at hf
  obtain ⟨p, hp, -⟩ := res_map_ok hf
  have := (inRange_getD (getOperand_inRange hp) hd).2
  omega

/-- If a `BuildGraph` body succeeds, its result is good and its operations compute the right values. -/
theorem fin_sound {k : Kind T} (hpos : 0 < s.heap.next)
    (hk : ∀ c ∈ k.kids, GoodMat s.heap (get c)) (hs : ScalarOK s.heap k)
    (hleaf : k = .leaf → GoodMat s.heap s.mat)
    (hex : k.isExpr)
    {s' : FSt T} (hrun : Fin.run get k s = .ok () s') : FinOK k get s s' := by
  have use : ∀ {s'' : FSt T}, Fin.run get k s = .ok () s'' ∧ FinOK k get s s'' → FinOK k get s s' := by
    intro s'' h
    rw [h.1] at hrun
    injection hrun with _ h2
    exact h2 ▸ h.2
  cases k with
  | leaf => obtain ⟨_, h⟩ := fin_leaf (get := get) (hleaf rfl); exact use h
  | op2 o a b =>
    by_cases hf : (get a).shape = (get b).shape
    · obtain ⟨_, h⟩ := fin_op2 (o := o) hpos (hk a (by simp [Kind.kids])) (hk b (by simp [Kind.kids])) hf
      exact use h
    · simp only [Fin.run, Fin.op2] at hrun
      split at hrun
      · cases hrun
      · rename_i he; exact absurd (eqShapeErr_none.1 he) hf
  | opScalar o t p =>
    obtain ⟨_, h⟩ := fin_opScalar (o := o) hpos (hk t (by simp [Kind.kids])) hs; exact use h
  | neg t => obtain ⟨_, h⟩ := fin_neg hpos (hk t (by simp [Kind.kids])); exact use h
  | abs t => obtain ⟨_, h⟩ := fin_abs hpos (hk t (by simp [Kind.kids])); exact use h
  | act f t => obtain ⟨_, h⟩ := fin_act (g := f) hpos (hk t (by simp [Kind.kids])); exact use h
  | softMax t => obtain ⟨_, h⟩ := fin_softMax hpos (hk t (by simp [Kind.kids])); exact use h
  | math r t => obtain ⟨_, h⟩ := fin_math (r := r) hpos (hk t (by simp [Kind.kids])); exact use h
  | dimMath r d t =>
    by_cases hf : d < (get t).shape.length
    · obtain ⟨_, h⟩ := fin_dimMath (r := r) hpos (hk t (by simp [Kind.kids])) hf; exact use h
    · simp only [Fin.run, Fin.dimMath] at hrun
      rw [if_pos (by omega)] at hrun; cases hrun
  | dot dims a b =>
    by_cases hf : (Kind.dot dims a b : Kind T).fits (fun c => (get c).shape)
    · obtain ⟨_, h⟩ := fin_dot (dims := dims) hpos (hk a (by simp [Kind.kids])) (hk b (by simp [Kind.kids])) hf
      exact use h
    · exfalso
      simp only [Kind.fits] at hf
      simp only [Fin.run, Fin.dot] at hrun
      split at hrun
      · cases hrun
      · have hda : Fin.dimA dims (get a) = (dotDims dims (get a).shape (get b).shape).1 := by
          cases dims <;> rfl
        have hdb : Fin.dimB dims (get b) = (dotDims dims (get a).shape (get b).shape).2 := by
          cases dims with
          | some d => rfl
          | none => simp only [dotDims, Fin.dimB]; split <;> omega
        rw [hda, hdb] at hrun
        split at hrun
        · rename_i na nb ha hb
          split at hrun
          · cases hrun
          · rename_i hn
            refine hf ⟨(List.getElem?_eq_some_iff.1 ha).1, (List.getElem?_eq_some_iff.1 hb).1, ?_⟩
            simp only [List.getD, ha, hb, Option.getD_some]
            exact not_not.1 hn
        · cases hrun
  | concat d a b =>
    exact fin_concat_ok (hk a (by simp [Kind.kids])) (hk b (by simp [Kind.kids])) hrun
  | sub d st en g t =>
    have gt := hk t (by simp [Kind.kids])
    by_cases hd : d < (get t).shape.length
    · by_cases hse : st < en
      · by_cases hin : en ≤ (get t).shape.getD d 0
        · obtain ⟨_, h⟩ := fin_sub (g := g) hpos gt hd hse (Or.inl hin); exact use h
        · cases g with
          | false =>
            simp only [Fin.run, Fin.sub] at hrun
            rw [if_neg (by omega), if_neg (by omega), if_pos ⟨rfl, by omega⟩] at hrun
            cases hrun
          | true =>
            by_cases hst : (get t).shape.getD d 0 < st ∨ size ((get t).shape.set d (en - st)) = 0
            · obtain ⟨_, h⟩ := fin_sub (g := true) hpos gt hd hse (Or.inr ⟨rfl, hst⟩); exact use h
            · exact absurd hrun (fin_sub_boundary hd (by omega) (by omega) (by omega) s')
      · simp only [Fin.run, Fin.sub] at hrun
        rw [if_neg (by omega), if_pos (by omega)] at hrun; cases hrun
    · simp only [Fin.run, Fin.sub] at hrun
      rw [if_pos (by omega)] at hrun; cases hrun
  | reshape t => obtain ⟨_, h⟩ := fin_reshape hpos (hk t (by simp [Kind.kids])); exact use h
  | transpose t => obtain ⟨_, h⟩ := fin_transpose (hk t (by simp [Kind.kids])); exact use h
  | fill t v => cases hex
  | copy f t => cases hex

theorem run_leaf_mat {s' : FSt T} (hrun : Fin.run get .leaf s = .ok () s') : s'.mat = s.mat := by
  simp only [Fin.run, Fin.leaf, Out.ok.injEq, true_and] at hrun
  rw [← hrun]

theorem run_reshape_shape {t : Nat} {s' : FSt T} (hrun : Fin.run get (.reshape t) s = .ok () s') :
    s'.mat.shape = s.mat.shape := by
  simp only [Fin.run, Fin.reshape, Out.ok.injEq, true_and] at hrun
  rw [← hrun]

end Godeep
