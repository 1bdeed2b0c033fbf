import Verif.Lemmas.Sound
/-
  Shapes: what `BuildGraph` makes of them, and when it fails.
-/
set_option linter.unusedSectionVars false

namespace Godeep
open Spec GoNum

variable {T : Type} [GoNum T] {get : Nat → Mat} {s : FSt T}

theorem emitLoop_shape {f : Nat → Res (Rhs T)} :
    ∀ (l : List Nat) (acc : List Ptr) (s s' : FSt T), FSt.emitLoop f l acc s = .ok () s' →
      s'.mat.shape = s.mat.shape := by
  intro l
  induction l with
  | nil =>
    intro acc s s' h
    simp only [FSt.emitLoop, Out.ok.injEq, true_and] at h
    rw [← h]
  | cons i l ih =>
    intro acc s s' h
    simp only [FSt.emitLoop] at h
    cases hf : f i with
    | ok r => rw [hf] at h; exact (ih (acc ++ [s.heap.next]) (s.emit r) s' h).trans rfl
    | err e => rw [hf] at h; cases h
    | panic => rw [hf] at h; cases h

theorem pickLoop_shape {f : Nat → Heap T → Res (Ptr × Heap T)} :
    ∀ (l : List Nat) (acc : List Ptr) (s s' : FSt T), FSt.pickLoop f l acc s = .ok () s' →
      s'.mat.shape = s.mat.shape := by
  intro l
  induction l with
  | nil =>
    intro acc s s' h
    simp only [FSt.pickLoop, Out.ok.injEq, true_and] at h
    rw [← h]
  | cons i l ih =>
    intro acc s s' h
    simp only [FSt.pickLoop] at h
    cases hf : f i s.heap with
    | ok r =>
      rw [hf] at h
      exact (ih (acc ++ [r.1]) { s with heap := r.2 } s' h).trans rfl
    | err e => rw [hf] at h; cases h
    | panic => rw [hf] at h; cases h

theorem dotRow_mat {a b : Mat} {da db : Nat} {iA iB : List Nat} :
    ∀ (l : List Nat) (acc : List Ptr) (s s' : FSt T) (r : Option (List Ptr)),
      Fin.dotRow a b da db iA iB l acc s = .ok r s' → s'.mat = s.mat := by
  intro l
  induction l with
  | nil =>
    intro acc s s' r h
    simp only [Fin.dotRow, Out.ok.injEq] at h
    rw [← h.2]
  | cons i l ih =>
    intro acc s s' r h
    simp only [Fin.dotRow] at h
    cases h1 : a.getOperand (iA.set da i) with
    | ok x =>
      rw [h1] at h
      cases h2 : b.getOperand (iB.set db i) with
      | ok y =>
        rw [h2] at h
        exact (ih (acc ++ [s.heap.next]) (s.emit (.mul x y)) s' r h).trans rfl
      | err e => rw [h2] at h; cases h
      | panic => rw [h2] at h; cases h
    | err e =>
      rw [h1] at h
      simp only [Out.ok.injEq] at h
      rw [← h.2]
    | panic => rw [h1] at h; cases h

theorem dotRows_shape {a b : Mat} {n da db dim : Nat} :
    ∀ (l : List Nat) (s s' : FSt T), Fin.dotRows a b n da db dim l s = .ok () s' →
      s'.mat.shape = s.mat.shape := by
  intro l
  induction l with
  | nil =>
    intro s s' h
    simp only [Fin.dotRows, Out.ok.injEq, true_and] at h
    rw [← h]
  | cons i l ih =>
    intro s s' h
    simp only [Fin.dotRows] at h
    split at h
    · rename_i idx cell _
      cases hr : Fin.dotRow a b da db (Mat.spread (idx.take dim) da) (Mat.spread (idx.drop dim) db)
        (List.range n) [] s with
      | ok r s1 =>
        rw [hr, Out.bind_ok] at h
        have := ih _ _ h
        rw [this]
        cases r with
        | none => simp only; rw [dotRow_mat _ _ _ _ _ hr]
        | some args => simp only [FSt.push]; rw [dotRow_mat _ _ _ _ _ hr]
      | err e s1 => rw [hr] at h; cases h
      | panic => rw [hr] at h; cases h
    · cases h
    · cases h

theorem dimA_eq {dims : Option (Nat × Nat)} {a b : Mat} :
    Fin.dimA dims a = (dotDims dims a.shape b.shape).1 := by cases dims <;> rfl

theorem dimB_eq {dims : Option (Nat × Nat)} {a b : Mat} :
    Fin.dimB dims b = (dotDims dims a.shape b.shape).2 := by
  cases dims with
  | some d => rfl
  | none => simp only [dotDims, Fin.dimB]; split <;> omega

theorem out_bind_ok {σ α β : Type} {r : Out σ α} {f : α → σ → Out σ β} {b : β} {s' : σ}
    (h : r.bind f = .ok b s') : ∃ a s1, r = .ok a s1 ∧ f a s1 = .ok b s' := by
  cases r with
  | ok a s1 => exact ⟨a, s1, rfl, h⟩
  | err e s1 => cases h
  | panic => cases h

/-- the shape of a built tensor -/
theorem run_shape {k : Kind T} {s' : FSt T} (hrun : Fin.run get k s = .ok () s') :
    s'.mat.shape = k.outShape s.mat.shape fun c => (get c).shape := by
  cases k with
  | leaf => rw [run_leaf_mat hrun]; rfl
  | op2 o a b =>
    simp only [Fin.run, Fin.op2] at hrun
    split at hrun
    · cases hrun
    · exact emitLoop_shape _ _ _ _ hrun
  | opScalar o t p => exact emitLoop_shape _ _ _ _ hrun
  | neg t => exact emitLoop_shape _ _ _ _ hrun
  | abs t => exact emitLoop_shape _ _ _ _ hrun
  | act f t => exact emitLoop_shape _ _ _ _ hrun
  | softMax t =>
    simp only [Fin.run, Fin.softMax] at hrun
    obtain ⟨_, s1, h1, h2⟩ := out_bind_ok hrun
    simp only [FSt.emit, Out.ok.injEq, true_and] at h2
    have := emitLoop_shape _ _ _ _ h1
    rw [← h2]; exact this
  | math r t =>
    simp only [Fin.run, Fin.math, FSt.emit, Out.ok.injEq, true_and] at hrun
    rw [← hrun]; rfl
  | dimMath r d t =>
    simp only [Fin.run, Fin.dimMath] at hrun
    split at hrun
    · cases hrun
    · split at hrun
      · exact emitLoop_shape _ _ _ _ hrun
      · cases hrun
      · cases hrun
  | dot dims a b =>
    simp only [Fin.run, Fin.dot] at hrun
    split at hrun
    · cases hrun
    rw [dimA_eq (b := get b), dimB_eq (a := get a)] at hrun
    split at hrun
    · split at hrun
      · cases hrun
      · split at hrun
        · rename_i hv
          simp only [Fin.dotVector] at hrun
          split at hrun
          · cases hrun
          · obtain ⟨_, s1, h1, h2⟩ := out_bind_ok hrun
            simp only [FSt.emit, Out.ok.injEq, true_and] at h2
            rw [← h2]
            simp only [Kind.outShape]
            rw [if_pos hv]
        · rename_i hv
          have := dotRows_shape _ _ _ hrun
          rw [this]
          simp only [Kind.outShape]
          rw [if_neg hv, List.append_assoc, ← List.eraseIdx_eq_take_drop_succ]
    · cases hrun
  | concat d a b =>
    simp only [Fin.run, Fin.concat] at hrun
    split at hrun
    · cases hrun
    split at hrun
    · cases hrun
    split at hrun
    · rename_i x y hx hy
      rw [pickLoop_shape _ _ _ _ hrun]
      simp only [Kind.outShape, List.getD, hy, Option.getD_some]
      rw [List.modify_eq_set, hx]; rfl
    · cases hrun
  | sub d st en g t =>
    simp only [Fin.run, Fin.sub] at hrun
    split at hrun
    · cases hrun
    split at hrun
    · cases hrun
    split at hrun
    · cases hrun
    split at hrun
    · cases hrun
    exact pickLoop_shape _ _ _ _ hrun
  | reshape t => exact run_reshape_shape hrun
  | transpose t => exact pickLoop_shape _ _ _ _ hrun
  | fill t v =>
    simp only [Fin.run, Fin.fill, Out.ok.injEq, true_and] at hrun
    rw [← hrun]; rfl
  | copy f t =>
    simp only [Fin.run, Fin.copy] at hrun
    split at hrun
    · cases hrun
    · simp only [Out.ok.injEq, true_and] at hrun
      rw [← hrun]; rfl

/-- a fitting operation is accepted -/
theorem run_of_fits {k : Kind T} (hpos : 0 < s.heap.next)
    (hk : ∀ c ∈ k.kids, GoodMat s.heap (get c)) (hs : ScalarOK s.heap k)
    (hleaf : k = .leaf → GoodMat s.heap s.mat) (hex : k.isExpr)
    (hf : k.fits fun c => (get c).shape) (hst : ¬ k.straddles fun c => (get c).shape) :
    ∃ s', Fin.run get k s = .ok () s' := by
  have use : (∃ s', Fin.run get k s = .ok () s' ∧ FinOK k get s s') → ∃ s', Fin.run get k s = .ok () s' :=
    fun ⟨s', h, _⟩ => ⟨s', h⟩
  cases k with
  | leaf => exact use (fin_leaf (hleaf rfl))
  | op2 o a b => exact use (fin_op2 hpos (hk a (by simp [Kind.kids])) (hk b (by simp [Kind.kids])) hf)
  | opScalar o t p => exact use (fin_opScalar hpos (hk t (by simp [Kind.kids])) hs)
  | neg t => exact use (fin_neg hpos (hk t (by simp [Kind.kids])))
  | abs t => exact use (fin_abs hpos (hk t (by simp [Kind.kids])))
  | act f t => exact use (fin_act hpos (hk t (by simp [Kind.kids])))
  | softMax t => exact use (fin_softMax hpos (hk t (by simp [Kind.kids])))
  | math r t => exact use (fin_math hpos (hk t (by simp [Kind.kids])))
  | dimMath r d t => exact use (fin_dimMath hpos (hk t (by simp [Kind.kids])) hf)
  | dot dims a b => exact use (fin_dot hpos (hk a (by simp [Kind.kids])) (hk b (by simp [Kind.kids])) hf)
  | concat d a b => exact fin_concat_run (hk a (by simp [Kind.kids])) (hk b (by simp [Kind.kids])) hf.1 hf.2
  | sub d st en g t =>
    refine use (fin_sub hpos (hk t (by simp [Kind.kids])) hf.1 hf.2.1 ?_)
    by_cases hin : en ≤ (get t).shape.getD d 0
    · exact Or.inl hin
    · right
      have hg : g = true := hf.2.2.resolve_right hin
      refine ⟨hg, ?_⟩
      by_contra hc
      rw [not_or] at hc
      exact hst ⟨hg, not_lt.1 hc.1, not_le.1 hin, hc.2⟩
  | reshape t => exact use (fin_reshape hpos (hk t (by simp [Kind.kids])))
  | transpose t => exact use (fin_transpose (hk t (by simp [Kind.kids])))
  | fill t v => cases hex
  | copy f t => cases hex

theorem firstDiff_take : ∀ (a b : List Nat) (d i : Nat), a.length = b.length →
    (firstDiff a b i = -1 ∨ firstDiff a b i = ((i + d : Nat) : Int)) → a.take d = b.take d := by
  intro a
  induction a with
  | nil => intro b d i hl _; cases b with | nil => rfl | cons => simp at hl
  | cons x a ih =>
    intro b d i hl h
    cases b with
    | nil => simp at hl
    | cons y b =>
      cases d with
      | zero => rfl
      | succ d =>
        simp only [firstDiff] at h
        by_cases hxy : x = y
        · subst hxy
          rw [if_neg (by simp)] at h
          have := ih b d (i + 1) (by simpa using hl) (by
            rw [show i + 1 + d = i + (d + 1) by omega]; exact h)
          simp [this]
        · rw [if_pos (fun h => hxy h.symm)] at h
          omega

theorem run_passes {k : Kind T} (hex : k.isExpr) {s' : FSt T} (hrun : Fin.run get k s = .ok () s') :
    k.passes fun c => (get c).shape := by
  cases k with
  | op2 o a b =>
    refine ⟨?_, fun h => h⟩
    simp only [Fin.run, Fin.op2] at hrun
    split at hrun
    · cases hrun
    · rename_i h; exact eqShapeErr_none.1 h
  | dimMath r d t =>
    refine ⟨?_, fun h => h⟩
    simp only [Fin.run, Fin.dimMath] at hrun
    split at hrun
    · cases hrun
    · rename_i h; exact not_le.1 h
  | dot dims a b =>
    refine ⟨?_, fun h => h⟩
    simp only [Fin.run, Fin.dot] at hrun
    split at hrun
    · cases hrun
    rw [dimA_eq (b := get b), dimB_eq (a := get a)] at hrun
    split at hrun
    · rename_i na nb ha hb
      split at hrun
      · cases hrun
      · rename_i hn
        refine ⟨(List.getElem?_eq_some_iff.1 ha).1, (List.getElem?_eq_some_iff.1 hb).1, ?_⟩
        simp only [List.getD, ha, hb, Option.getD_some]
        exact not_not.1 hn
    · cases hrun
  | concat d a b =>
    simp only [Fin.run, Fin.concat] at hrun
    split at hrun
    · cases hrun
    rename_i h1
    split at hrun
    · cases hrun
    rename_i h2
    split at hrun
    · rename_i x y hx hy
      unfold shapeEquals at h1 h2
      have hl : (get a).shape.length = (get b).shape.length := by
        by_contra hc
        rw [if_pos hc] at h1; exact h1 rfl
      rw [if_neg (by simpa using hl)] at h1 h2
      refine ⟨hl, (List.getElem?_eq_some_iff.1 hx).1, firstDiff_take _ _ d 0 hl ?_⟩
      have hge : ∀ (a b : List Nat) (i : Nat), firstDiff a b i = -1 ∨ 0 ≤ firstDiff a b i := by
        intro a
        induction a with
        | nil => intro b i; left; cases b <;> rfl
        | cons x a ih =>
          intro b i
          cases b with
          | nil => left; rfl
          | cons y b =>
            simp only [firstDiff]
            split
            · right; omega
            · exact ih _ _
      rcases hge (get a).shape (get b).shape 0 with h | h
      · exact Or.inl h
      · right
        by_contra hc
        refine h2 ⟨h, fun he => hc ?_⟩
        have : firstDiff (get a).shape (get b).shape 0 = (d : Int) := by omega
        simpa using this
    · cases hrun
  | sub d st en g t =>
    have hb := hrun
    simp only [Fin.run, Fin.sub] at hrun
    split at hrun
    · cases hrun
    rename_i h1
    split at hrun
    · cases hrun
    rename_i h2
    split at hrun
    · cases hrun
    rename_i h3
    refine ⟨⟨not_le.1 h1, not_le.1 h2, ?_⟩, ?_⟩
    · cases g with
      | true => exact Or.inl rfl
      | false =>
        right
        by_contra hc
        exact h3 ⟨rfl, not_le.1 hc⟩
    · rintro ⟨rfl, q1, q2, q3⟩
      exact fin_sub_boundary (not_le.1 h1) q1 q2 q3 s' hb
  | fill t v => cases hex
  | copy f t => cases hex
  | _ => exact ⟨trivial, fun h => h⟩

theorem getOperand_noPanic {m : Mat} {i : List Nat} (hl : m.shape.length = i.length) :
    m.getOperand i ≠ .panic := by
  unfold Mat.getOperand getIndex
  split
  · simp
  · rw [if_neg (by simpa using hl)]
    split
    · simp
    · simp only [Res.bind_ok]
      split
      · simp
      · rename_i h
        unfold Res.index
        rw [List.getElem?_eq_getElem (not_le.1 h)]; simp

theorem pickLoop_noPanic {f : Nat → Heap T → Res (Ptr × Heap T)} :
    ∀ (l : List Nat) (acc : List Ptr) (s : FSt T), (∀ i ∈ l, ∀ h, f i h ≠ .panic) →
      FSt.pickLoop f l acc s ≠ .panic := by
  intro l
  induction l with
  | nil => intro acc s _ h; cases h
  | cons i l ih =>
    intro acc s hf h
    simp only [FSt.pickLoop] at h
    cases hc : f i s.heap with
    | ok r =>
      rw [hc] at h
      exact ih (acc ++ [r.1]) { s with heap := r.2 } (fun j hj => hf j (by simp [hj])) h
    | err e => rw [hc] at h; cases h
    | panic => exact hf i (by simp) _ hc

theorem res_map_panic {α β : Type} {r : Res α} {f : α → β} (h : r ≠ .panic) : r.map f ≠ .panic := by
  cases r <;> simp_all

/-- a `BuildGraph` body aborts only on a dimension that does not exist -/
theorem run_panic {k : Kind T} (hpos : 0 < s.heap.next)
    (hk : ∀ c ∈ k.kids, GoodMat s.heap (get c)) (hs : ScalarOK s.heap k)
    (hleaf : k = .leaf → GoodMat s.heap s.mat) (hex : k.isExpr)
    (hrun : Fin.run get k s = .panic) : k.badDim fun c => (get c).shape := by
  by_cases hf : k.fits (fun c => (get c).shape) ∧ ¬ k.straddles (fun c => (get c).shape)
  · obtain ⟨s', h⟩ := run_of_fits hpos hk hs hleaf hex hf.1 hf.2
    rw [h] at hrun; cases hrun
  cases k with
  | op2 o a b =>
    exfalso
    simp only [Fin.run, Fin.op2] at hrun
    split at hrun
    · cases hrun
    · rename_i h
      exact hf ⟨eqShapeErr_none.1 h, fun h => h⟩
  | dimMath r d t =>
    exfalso
    simp only [Fin.run, Fin.dimMath] at hrun
    split at hrun
    · cases hrun
    · rename_i h
      exact hf ⟨not_le.1 h, fun h => h⟩
  | dot dims a b =>
    simp only [Fin.run, Fin.dot] at hrun
    split at hrun
    · cases hrun
    rename_i h0
    rw [dimA_eq (b := get b), dimB_eq (a := get a)] at hrun
    split at hrun
    · rename_i na nb ha hb
      split at hrun
      · cases hrun
      · rename_i hn
        exfalso
        refine hf ⟨⟨(List.getElem?_eq_some_iff.1 ha).1, (List.getElem?_eq_some_iff.1 hb).1, ?_⟩, fun h => h⟩
        simp only [List.getD, ha, hb, Option.getD_some]
        exact not_not.1 hn
    · rename_i hno
      cases dims with
      | none =>
        exfalso
        simp only [dotDims] at hno
        rw [not_or] at h0
        have h1 : (get a).shape.length - 1 < (get a).shape.length := by omega
        have h2 : (get b).shape.length - 2 < (get b).shape.length := by omega
        exact hno _ _ (List.getElem?_eq_getElem h1) (List.getElem?_eq_getElem h2)
      | some d =>
        obtain ⟨da, db⟩ := d
        simp only [Kind.badDim]
        by_contra hc
        rw [not_or, not_le, not_le] at hc
        exact hno _ _ (List.getElem?_eq_getElem hc.1) (List.getElem?_eq_getElem hc.2)
  | concat d a b =>
    simp only [Fin.run, Fin.concat] at hrun
    split at hrun
    · cases hrun
    rename_i h1
    split at hrun
    · cases hrun
    split at hrun
    · rename_i x y hx hy
      exfalso
      have hl : (get a).shape.length = (get b).shape.length := by
        by_contra hc
        apply h1
        unfold shapeEquals
        rw [if_pos hc]
      refine pickLoop_noPanic _ _ _ (fun i hi h => ?_) hrun
      rw [dataSize_eq] at hi
      rw [indexMul_eq, reverseIndex_unflat (List.mem_range.1 hi), Res.bind_ok]
      have hul := inRange_length (unflat_inRange (List.mem_range.1 hi))
      simp only [List.length_set] at hul
      apply res_map_panic
      unfold Mat.concatPick
      have hd : d < (get a).shape.length := (List.getElem?_eq_some_iff.1 hx).1
      rw [List.getElem?_eq_getElem (by omega)]
      simp only
      split
      · exact getOperand_noPanic (by omega)
      · exact getOperand_noPanic (by rw [List.length_set]; omega)
    · rename_i hno
      simp only [Kind.badDim]
      by_contra hc
      rw [not_or, not_le, not_le] at hc
      exact hno _ _ (List.getElem?_eq_getElem hc.1) (List.getElem?_eq_getElem hc.2)
  | sub d st en g t =>
    exfalso
    simp only [Fin.run, Fin.sub] at hrun
    split at hrun
    · cases hrun
    rename_i h1
    split at hrun
    · cases hrun
    split at hrun
    · cases hrun
    split at hrun
    · cases hrun
    refine pickLoop_noPanic _ _ _ (fun i hi h => ?_) hrun
    rw [dataSize_eq] at hi
    rw [indexMul_eq, reverseIndex_unflat (List.mem_range.1 hi), Res.bind_ok]
    have hul := inRange_length (unflat_inRange (List.mem_range.1 hi))
    simp only [List.length_set] at hul
    rw [bump_ok (List.getElem?_eq_getElem (by omega)), Res.bind_ok]
    split
    · simp
    · exact res_map_panic (getOperand_noPanic (by rw [List.length_set]; omega))
  | fill t v => cases hex
  | copy f t => cases hex
  | _ => exact absurd ⟨trivial, fun h => h⟩ hf

end Godeep
