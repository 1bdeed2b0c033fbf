import Verif.Lemmas.View
/-
  What a failed `BuildGraph` leaves behind.
-/
set_option linter.unusedSectionVars false

namespace Godeep
open Spec GoNum

variable {T : Type} [GoNum T] {get : Nat → Mat} {s : FSt T}

theorem pickLoop_err {f : Nat → Heap T → Res (Ptr × Heap T)}
    (hf : ∀ i h p h2, f i h = .ok (p, h2) → Extends h h2) :
    ∀ (l : List Nat) (acc : List Ptr) (s : FSt T) (e : Err) (s' : FSt T),
      FSt.pickLoop f l acc s = .err e s' → 0 ∈ s'.mat.ops ∧ Extends s.heap s'.heap := by
  intro l
  induction l with
  | nil => intro acc s e s' h; cases h
  | cons i l ih =>
    intro acc s e s' h
    simp only [FSt.pickLoop] at h
    cases hc : f i s.heap with
    | ok r =>
      obtain ⟨p, g⟩ := r
      rw [hc] at h
      obtain ⟨h1, h2⟩ := ih _ _ _ _ h
      exact ⟨h1, (hf _ _ _ _ hc).trans h2⟩
    | err e' =>
      rw [hc] at h
      simp only [Out.err.injEq] at h
      rw [← h.2]
      exact ⟨by simp [List.replicate_succ], Extends.refl _⟩
    | panic => rw [hc] at h; cases h

/-- a failing `BuildGraph` body leaves the tensor as it was, or with a nil element -/
theorem run_err {k : Kind T} (hpos : 0 < s.heap.next)
    (hk : ∀ c ∈ k.kids, GoodMat s.heap (get c)) (hs : ScalarOK s.heap k)
    (hleaf : k = .leaf → GoodMat s.heap s.mat) (hex : k.isExpr) {e : Err} {s' : FSt T}
    (hrun : Fin.run get k s = .err e s') :
    (s'.mat = s.mat ∨ 0 ∈ s'.mat.ops) ∧ Extends s.heap s'.heap := by
  by_cases hf : k.fits (fun c => (get c).shape) ∧ ¬ k.straddles (fun c => (get c).shape)
  · obtain ⟨s', h⟩ := run_of_fits hpos hk hs hleaf hex hf.1 hf.2
    rw [h] at hrun; cases hrun
  have same : ∀ {e' : Err}, (Out.err e' s : Out (FSt T) Unit) = .err e s' →
      (s'.mat = s.mat ∨ 0 ∈ s'.mat.ops) ∧ Extends s.heap s'.heap := by
    intro e' h
    simp only [Out.err.injEq] at h
    rw [← h.2]; exact ⟨Or.inl rfl, Extends.refl _⟩
  cases k with
  | op2 o a b =>
    simp only [Fin.run, Fin.op2] at hrun
    split at hrun
    · exact same hrun
    · rename_i h
      exact absurd ⟨eqShapeErr_none.1 h, fun h => h⟩ hf
  | dimMath r d t =>
    simp only [Fin.run, Fin.dimMath] at hrun
    split at hrun
    · exact same hrun
    · rename_i h
      exact absurd ⟨not_le.1 h, fun h => h⟩ hf
  | dot dims a b =>
    simp only [Fin.run, Fin.dot] at hrun
    split at hrun
    · exact same hrun
    rename_i h0
    rw [dimA_eq (b := get b), dimB_eq (a := get a)] at hrun
    split at hrun
    · rename_i na nb ha hb
      split at hrun
      · exact same hrun
      · rename_i hn
        exfalso
        refine hf ⟨⟨(List.getElem?_eq_some_iff.1 ha).1, (List.getElem?_eq_some_iff.1 hb).1, ?_⟩, fun h => h⟩
        simp only [List.getD, ha, hb, Option.getD_some]
        exact not_not.1 hn
    · cases hrun
  | concat d a b =>
    simp only [Fin.run, Fin.concat] at hrun
    split at hrun
    · exact same hrun
    split at hrun
    · exact same hrun
    split at hrun
    · obtain ⟨h1, h2⟩ := pickLoop_err (fun i h p h2 hc => by
        obtain ⟨idx, _, hc⟩ := res_bind_ok hc
        obtain ⟨p', _, hc⟩ := res_map_ok hc
        simp only [Prod.mk.injEq] at hc
        rw [← hc.2]; exact Extends.refl _) _ _ _ _ _ hrun
      exact ⟨Or.inr h1, h2⟩
    · cases hrun
  | sub d st en g t =>
    simp only [Fin.run, Fin.sub] at hrun
    split at hrun
    · exact same hrun
    split at hrun
    · exact same hrun
    split at hrun
    · exact same hrun
    split at hrun
    · exact same hrun
    obtain ⟨h1, h2⟩ := pickLoop_err (fun i h p h2 hc => by
      obtain ⟨idx, _, hc⟩ := res_bind_ok hc
      obtain ⟨idx', _, hc⟩ := res_bind_ok hc
      split at hc
      · simp only [Res.ok.injEq, Prod.mk.injEq] at hc
        rw [← hc.2]; exact extends_alloc _ _
      · obtain ⟨p', _, hc⟩ := res_map_ok hc
        simp only [Prod.mk.injEq] at hc
        rw [← hc.2]; exact Extends.refl _) _ _ _ _ _ hrun
    exact ⟨Or.inr h1, h2⟩
  | fill t v => cases hex
  | copy f t => cases hex
  | _ => exact absurd ⟨trivial, fun h => h⟩ hf

/-- what a failed `BuildGraph` of tensor `n` does to the store -/
structure Failed (n : Nat) (s s' : Store T) : Prop where
  flag : (s'.nodes n).built = true
  mat : (s'.nodes n).mat = (s.nodes n).mat ∨ 0 ∈ (s'.nodes n).mat.ops
  above : ∀ m, n < m → s'.nodes m = s.nodes m
  built : ∀ m, (s.nodes m).built = true → s'.nodes m = s.nodes m
  ext : Extends s.heap s'.heap
  unb : (s.nodes n).built = false

theorem each_fail {f : Nat → Store T → Out (Store T) Unit} {b : Nat}
    (hf : ∀ c s s', Expr s c → 0 < s.heap.next → f c s = .ok () s' → Built (Reach s c) s s')
    (hx : ∀ c s e s', c < b → Expr s c → 0 < s.heap.next → f c s = .err e s' → Failed c s s') :
    ∀ (cs : List Nat) (s : Store T) (e : Err) (s' : Store T), (∀ c ∈ cs, c < b ∧ Expr s c) → 0 < s.heap.next →
      Store.each f cs s = .err e s' →
      (∀ m, b ≤ m → s'.nodes m = s.nodes m) ∧ (∀ m, (s.nodes m).built = true → s'.nodes m = s.nodes m) ∧
        Extends s.heap s'.heap := by
  intro cs
  induction cs with
  | nil => intro s e s' _ _ h; cases h
  | cons c cs ih =>
    intro s e s' hE hpos h
    simp only [Store.each] at h
    obtain ⟨hcb, hEc⟩ := hE c (by simp)
    cases hc : f c s with
    | ok u s1 =>
      rw [hc, Out.bind_ok] at h
      have B1 := hf c s s1 hEc hpos hc
      obtain ⟨h1, h2, h3⟩ := ih s1 e s' (fun c' hc' => ⟨(hE c' (by simp [hc'])).1,
        expr_after B1 (hE c' (by simp [hc'])).2⟩) (lt_of_lt_of_le hpos B1.ext.next) h
      refine ⟨fun m hm => ?_, fun m hm => ?_, B1.ext.trans h3⟩
      · rw [h1 m hm, B1.keep m (Or.inr fun hr => ?_)]
        have := reach_le (expr_ordered hEc) hr
        omega
      · have := B1.keep m (Or.inl hm)
        rw [h2 m (by rw [this]; exact hm), this]
    | err e1 s1 =>
      rw [hc, Out.bind_err] at h
      simp only [Out.err.injEq] at h
      rw [← h.2]
      have F := hx c s e1 s1 hcb hEc hpos hc
      exact ⟨fun m hm => F.above m (by omega), F.built, F.ext⟩
    | panic => rw [hc] at h; cases h

theorem build_err : ∀ (fuel n : Nat) (s : Store T) (e : Err) (s' : Store T), Expr s n → 0 < s.heap.next →
    Store.build fuel n s = .err e s' → Failed n s s' := by
  intro fuel
  induction fuel with
  | zero => intro n s e s' _ _ h; cases h
  | succ fuel ih =>
    intro n s e s' hE hpos h
    simp only [Store.build] at h
    by_cases hb : (s.nodes n).built = true
    · rw [if_pos hb] at h; cases h
    rw [if_neg hb] at h
    have hb' : (s.nodes n).built = false := by simpa using hb
    obtain ⟨o1, o2, o3, o4⟩ := hE n (.refl n)
    have hE0 : ∀ c ∈ (s.nodes n).kind.kids,
        c < n ∧ Expr (s.setNode n { s.nodes n with built := true }) c := fun c hc =>
      ⟨o1 c hc, (expr_mark (o1 c hc) (expr_reach hE (.step hb' hc (.refl c)))).1⟩
    have h0 : ∀ x, x ≠ n → (s.setNode n { s.nodes n with built := true }).nodes x = s.nodes x :=
      fun x hx => by simp [Store.setNode, hx]
    have h0n : (s.setNode n { s.nodes n with built := true }).nodes n = { s.nodes n with built := true } := by
      simp [Store.setNode]
    have h0b : ∀ m, (s.nodes m).built = true → m ≠ n := by rintro m hm rfl; exact hb hm
    cases he : Store.each (fun c s => Store.build fuel c s) (s.nodes n).kind.kids
        (s.setNode n { s.nodes n with built := true }) with
    | panic => rw [he] at h; cases h
    | err e1 s1 =>
      rw [he, Out.bind_err] at h
      simp only [Out.err.injEq] at h
      rw [← h.2]
      obtain ⟨h1, h2, h3⟩ := each_fail (fun c s s' => build_ok fuel c s s')
        (fun c s e s' _ => ih c s e s') (s.nodes n).kind.kids _ e1 s1 hE0 hpos he
      have hn := h1 n (le_refl _)
      rw [h0n] at hn
      refine ⟨by rw [hn], Or.inl (by rw [hn]), fun m hm => ?_, fun m hm => ?_, h3, hb'⟩
      · rw [h1 m (by omega), h0 m (by omega)]
      · have hmn := h0b m hm
        rw [h2 m (by rw [h0 m hmn]; exact hm), h0 m hmn]
    | ok u s1 =>
      rw [he, Out.bind_ok] at h
      have B := each_ok (fun c s s' => build_ok fuel c s s') (s.nodes n).kind.kids _ s1
        (fun c hc => (hE0 c hc).2) hpos he
      have hkeep : ∀ m, n ≤ m → s1.nodes m = (s.setNode n { s.nodes n with built := true }).nodes m := by
        intro m hm
        refine B.keep m (Or.inr ?_)
        rintro ⟨c, hc, hr⟩
        have := reach_le (expr_ordered (hE0 c hc).2) hr
        have := o1 c hc
        omega
      have hn1 : s1.nodes n = { s.nodes n with built := true } := by rw [hkeep n (le_refl _), h0n]
      simp only [Store.finish, hn1] at h
      cases hf : Fin.run (fun m => (s1.nodes m).mat) (s.nodes n).kind
          ⟨s1.heap, s1.ctx, (s.nodes n).mat⟩ with
      | ok u' f => rw [hf] at h; cases h
      | panic => rw [hf] at h; cases h
      | err e2 f =>
        rw [hf] at h
        simp only [Out.err.injEq] at h
        obtain ⟨-, h⟩ := h
        obtain ⟨q1, q2⟩ := run_err (get := fun m => (s1.nodes m).mat) (k := (s.nodes n).kind)
          (s := ⟨s1.heap, s1.ctx, (s.nodes n).mat⟩) (lt_of_lt_of_le hpos B.ext.next)
          (fun c hc => (B.done c ⟨c, hc, .refl c⟩).2) (scalarOK_mono o3 B.ext.next)
          (fun hl => (o2 (frozen_leaf hl)).mono B.ext.next) o4 hf
        have hsx : ∀ x, x ≠ n → s'.nodes x = s1.nodes x := by
          intro x hx; rw [← h]; simp [Store.setNode, hx]
        have hsn : s'.nodes n = { s.nodes n with built := true, mat := f.mat } := by
          rw [← h]; simp [Store.setNode]
        refine ⟨by rw [hsn], by rw [hsn]; exact q1, fun m hm => ?_, fun m hm => ?_, ?_, hb'⟩
        · rw [hsx m (by omega), hkeep m (by omega), h0 m (by omega)]
        · have hmn := h0b m hm
          rw [hsx m hmn, B.keep m (Or.inl (by rw [h0 m hmn]; exact hm)), h0 m hmn]
        · rw [← h]; exact B.ext.trans q2

end Godeep
