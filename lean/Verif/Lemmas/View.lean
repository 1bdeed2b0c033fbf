import Verif.Lemmas.Total
import Verif.Spec.Graph
/-
  Views share cells; failed builds leave no elements.
-/
set_option linter.unusedSectionVars false

namespace Godeep
open Spec GoNum

variable {T : Type} [GoNum T] {get : Nat → Mat} {s : FSt T}

theorem pickLoop_at {f : Nat → Heap T → Res (Ptr × Heap T)} :
    ∀ (l : List Nat) (acc : List Ptr) (s s' : FSt T), FSt.pickLoop f l acc s = .ok () s' →
      s'.mat.shape = s.mat.shape ∧ s'.mat.mul = s.mat.mul ∧
      ∃ ps, s'.mat.ops = acc ++ ps ∧ ∀ (k i : Nat), l[k]? = some i →
        ∃ h p h2, ps[k]? = some p ∧ f i h = .ok (p, h2) := by
  intro l
  induction l with
  | nil =>
    intro acc s s' h
    simp only [FSt.pickLoop, Out.ok.injEq, true_and] at h
    subst h
    exact ⟨rfl, rfl, [], by simp, by simp⟩
  | cons i l ih =>
    intro acc s s' h
    simp only [FSt.pickLoop] at h
    cases hf : f i s.heap with
    | ok r =>
      obtain ⟨p, g⟩ := r
      rw [hf] at h
      obtain ⟨h1, h2, ps, h3, h4⟩ := ih _ _ _ h
      refine ⟨h1, h2, p :: ps, by rw [h3]; simp, ?_⟩
      intro k j hk
      cases k with
      | zero =>
        simp only [List.getElem?_cons_zero, Option.some.injEq] at hk
        subst hk; exact ⟨_, p, g, rfl, hf⟩
      | succ k => simpa using h4 k j (by simpa using hk)
    | err e => rw [hf] at h; cases h
    | panic => rw [hf] at h; cases h

theorem pick_view {f : List Nat → Heap T → Res (Ptr × Heap T)} {shape : List Nat} {s s' : FSt T} {n : Nat}
    (hn : n = size shape)
    (hrun : FSt.pickLoop (fun i h => (reverseIndex (indexMul shape) shape i).bind fun idx => f idx h)
      (List.range n) [] { s with mat := ⟨shape, indexMul shape, []⟩ } = .ok () s') :
    s'.mat.shape = shape ∧ ∀ idx, InRange shape idx →
      ∃ h p h2, s'.mat.getOperand idx = .ok p ∧ f idx h = .ok (p, h2) := by
  obtain ⟨h1, h2, ps, h3, h4⟩ := pickLoop_at _ _ _ _ hrun
  refine ⟨h1, fun idx hi => ?_⟩
  have hlt := offset_lt hi
  obtain ⟨h, p, g, hp, hf⟩ := h4 (offset shape idx) (offset shape idx)
    (List.getElem?_range (by rw [hn]; exact hlt))
  rw [indexMul_eq, reverseIndex_offset hi, Res.bind_ok] at hf
  refine ⟨h, p, g, ?_, hf⟩
  simp only at h1 h2 h3
  refine getOperand_ok (by rw [h2, h1, indexMul_eq]) (by rw [h1]; exact hi) ?_
  rw [h1, h3]; simpa using hp

/-- an element of a view is the very cell of the source -/
theorem run_view {k : Kind T} (hk : ∀ c ∈ k.kids, GoodMat s.heap (get c))
    (hfit : k.fits fun c => (get c).shape) {s' : FSt T}
    (hrun : Fin.run get k s = .ok () s') {idx j : List Nat} {c : Nat} (hi : InRange s'.mat.shape idx)
    (hs : k.source s'.mat.shape (fun c => (get c).shape) idx = some (c, j)) :
    c ∈ k.kids ∧ InRange (get c).shape j ∧
      ∃ p, s'.mat.getOperand idx = .ok p ∧ (get c).getOperand j = .ok p := by
  cases k <;> simp only [Kind.source] at hs <;>
    try (cases hs; done)
  case concat d a b =>
    obtain ⟨hd, hb⟩ := hfit
    simp only [Fin.run, Fin.concat] at hrun
    split at hrun
    · cases hrun
    split at hrun
    · cases hrun
    split at hrun
    · rename_i x y hx hy
      have hxe : (get a).shape.getD d 0 = x := by simp [List.getD, hx]
      have hye : (get b).shape.getD d 0 = y := by simp [List.getD, hy]
      obtain ⟨h1, h2⟩ := pick_view (f := fun idx h => (Mat.concatPick (get a) (get b) d x idx).map
        fun p => (p, h)) (dataSize_eq _) hrun
      rw [h1] at hi
      obtain ⟨h, p, g, hp, hf⟩ := h2 idx hi
      obtain ⟨p', hf, he⟩ := res_map_ok hf
      simp only [Prod.mk.injEq] at he
      rw [he.1] at hf
      unfold Mat.concatPick at hf
      obtain ⟨v, hv1, hv2, hv3, hv4⟩ := inRange_set_elim hd hi
      rw [hv1] at hf
      simp only at hf
      rw [hv2, hxe] at hs
      by_cases hlt : v < x
      · rw [if_pos hlt] at hf hs
        simp only [Option.some.injEq, Prod.mk.injEq] at hs
        rw [← hs.1, ← hs.2]
        exact ⟨by simp [Kind.kids], getOperand_inRange hf, p, hp, hf⟩
      · rw [if_neg hlt] at hf hs
        simp only [Option.some.injEq, Prod.mk.injEq] at hs
        rw [← hs.1, ← hs.2, modify_eq_set _ hv1]
        exact ⟨by simp [Kind.kids], getOperand_inRange hf, p, hp, hf⟩
    · cases hrun
  case sub d st en g t =>
    obtain ⟨hd, hse, hr⟩ := hfit
    simp only at hd hse hr
    simp only [Fin.run, Fin.sub] at hrun
    rw [if_neg (by omega), if_neg (by omega), if_neg, if_neg] at hrun
    rotate_left
    · rintro ⟨h1, h2⟩
      rcases hr with hr | hr
      · simp [hr] at h1
      · omega
    · rintro ⟨h1, h2⟩
      rcases hr with hr | hr
      · simp [hr] at h1
      · omega
    obtain ⟨h1, h2⟩ := pick_view (f := fun idx h => (Mat.bump idx d st).bind fun idx =>
        if idx.getD d 0 > (get t).shape.getD d 0 ∧ g = true then .ok (h.next, (h.alloc zero).2)
        else ((get t).getOperand idx).map fun p => (p, h)) (dataSize_eq _) hrun
    rw [h1] at hi
    obtain ⟨h, p, g', hp, hf⟩ := h2 idx hi
    obtain ⟨v, hv1, hv2, hv3, hv4⟩ := inRange_set_elim hd hi
    rw [hv2] at hs
    split at hs
    · rename_i hlt
      simp only [Option.some.injEq, Prod.mk.injEq] at hs
      have hdl : d < idx.length := (List.getElem?_eq_some_iff.1 hv1).1
      rw [bump_ok hv1, Res.bind_ok, if_neg] at hf
      · obtain ⟨p', hf, he⟩ := res_map_ok hf
        simp only [Prod.mk.injEq] at he
        rw [he.1] at hf
        rw [← hs.1, ← hs.2, modify_eq_set _ hv1]
        exact ⟨by simp [Kind.kids], getOperand_inRange hf, p, hp, hf⟩
      · rw [show (idx.set d (v + st)).getD d 0 = v + st by simp [List.getD, hdl]]
        omega
    · cases hs
  case reshape t =>
    have gt := hk t (by simp [Kind.kids])
    simp only [Fin.run, Fin.reshape, Out.ok.injEq, true_and] at hrun
    subst hrun
    simp only at hi hs ⊢
    split at hs
    · rename_i hlt
      simp only [Option.some.injEq, Prod.mk.injEq] at hs
      rw [← hs.1, ← hs.2]
      have hr := unflat_inRange hlt
      have hlt' : offset s.mat.shape idx < (get t).ops.length := by rw [gt.len]; exact hlt
      have ho := offset_lt hi
      refine ⟨by simp [Kind.kids], hr, (get t).ops[offset s.mat.shape idx], ?_, ?_⟩
      · refine getOperand_ok (by simp [indexMul_eq]) hi ?_
        simp only
        rw [List.getElem?_append_left, List.getElem?_take_of_lt, List.getElem?_eq_getElem hlt']
        · simp only [Mat.getSize, dataSize_eq]; split <;> omega
        · rw [List.length_take]; simp only [Mat.getSize, dataSize_eq]; split <;> omega
      · refine getOperand_ok (by rw [gt.mul, indexMul_eq]) hr ?_
        rw [offset_unflat hlt, List.getElem?_eq_getElem hlt']
    · cases hs
  case transpose t =>
    have gt := hk t (by simp [Kind.kids])
    have hsz : (get t).getSize = size (get t).shape.reverse := by rw [size_reverse]; exact gt.len
    simp only [Fin.run, Fin.transpose] at hrun
    obtain ⟨h1, h2⟩ := pick_view (f := fun idx h => ((get t).getOperand (invertedIndex idx)).map
        fun p => (p, h)) hsz hrun
    rw [h1] at hi
    obtain ⟨h, p, g, hp, hf⟩ := h2 idx hi
    obtain ⟨p', hf, he⟩ := res_map_ok hf
    simp only [Prod.mk.injEq] at he
    rw [he.1, invertedIndex_eq] at hf
    simp only [Option.some.injEq, Prod.mk.injEq] at hs
    rw [← hs.1, ← hs.2]
    exact ⟨by simp [Kind.kids], getOperand_inRange hf, p, hp, hf⟩

end Godeep
