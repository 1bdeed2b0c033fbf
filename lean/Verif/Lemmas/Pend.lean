import Verif.Lemmas.Stage
import Verif.Lemmas.View
/-
  Tensors that have been made but not built yet, and what `BuildGraph` does to them inside a program.
-/
set_option linter.unusedSectionVars false

namespace Godeep
open Spec GoNum

variable {T : Type} [GoNum T]

/-! ### operations that may divide -/

/-- the operation does not divide, or division never aborts -/
def OpOK : Op T → Prop
  | .asg _ (.div _ _) => ∀ x y : T, divPanics x y = false
  | .asg _ (.avg _) => ∀ x y : T, divPanics x y = false
  | _ => True

theorem opOK_of (h : ∀ x y : T, divPanics x y = false) (o : Op T) : OpOK o := by
  cases o with
  | nop p => trivial
  | asg p r => cases r <;> first | exact h | trivial

/-- building a tensor of this kind adds no division, or division never aborts -/
def _root_.Godeep.Kind.divOK : Kind T → Prop
  | .op2 .div _ _ => ∀ x y : T, divPanics x y = false
  | .opScalar .div _ _ => ∀ x y : T, divPanics x y = false
  | .softMax _ => ∀ x y : T, divPanics x y = false
  | .math .avg _ => ∀ x y : T, divPanics x y = false
  | .dimMath .avg _ _ => ∀ x y : T, divPanics x y = false
  | _ => True

/-- `c` is `c0` with operations that satisfy `P` appended -/
def Adds (P : Op T → Prop) (c0 c : List (Op T)) : Prop := ∃ new, c = c0 ++ new ∧ ∀ o ∈ new, P o

theorem Adds.append {P : Op T → Prop} {c0 c l : List (Op T)} (h : Adds P c0 c) (hl : ∀ o ∈ l, P o) : Adds P c0 (c ++ l) := by
  obtain ⟨new, rfl, h2⟩ := h
  refine ⟨new ++ l, by simp, fun o ho => ?_⟩
  rcases List.mem_append.1 ho with ho | ho
  · exact h2 o ho
  · exact hl o ho

theorem Adds.snoc {P : Op T → Prop} {c0 c : List (Op T)} {o : Op T} (h : Adds P c0 c) (ho : P o) : Adds P c0 (c ++ [o]) :=
  h.append (by simpa using ho)

theorem emitLoop_all {P : Op T → Prop} {c0 : List (Op T)} {f : Nat → Res (Rhs T)} :
    ∀ (l : List Nat) (acc : List Ptr) (s s' : FSt T), (∀ i r p, f i = .ok r → P (.asg p r)) →
      Adds P c0 s.ctx → FSt.emitLoop f l acc s = .ok () s' → Adds P c0 s'.ctx := by
  intro l
  induction l with
  | nil =>
    intro acc s s' _ hc h
    simp only [FSt.emitLoop, Out.ok.injEq, true_and] at h
    subst h; exact hc
  | cons i l ih =>
    intro acc s s' hf hc h
    simp only [FSt.emitLoop] at h
    cases hi : f i with
    | ok r =>
      rw [hi] at h
      exact ih _ _ _ hf (hc.snoc (hf i r _ hi)) h
    | err e => rw [hi] at h; cases h
    | panic => rw [hi] at h; cases h

theorem emitLoop_cells {f : Nat → Res (Rhs T)} {lo : Nat} :
    ∀ (l : List Nat) (acc : List Ptr) (s s' : FSt T), lo ≤ s.heap.next → (∀ q ∈ acc, lo ≤ q) →
      FSt.emitLoop f l acc s = .ok () s' → ∀ q ∈ s'.mat.ops, lo ≤ q := by
  intro l
  induction l with
  | nil =>
    intro acc s s' _ hc h
    simp only [FSt.emitLoop, Out.ok.injEq, true_and] at h
    subst h; exact hc
  | cons i l ih =>
    intro acc s s' hlo hc h
    simp only [FSt.emitLoop] at h
    cases hi : f i with
    | ok r =>
      rw [hi] at h
      refine ih _ _ _ (by simp only [FSt.emit, Heap.alloc]; omega) (fun q hq => ?_) h
      simp only [List.mem_append, List.mem_singleton] at hq
      rcases hq with hq | rfl
      · exact hc q hq
      · exact hlo
    | err e => rw [hi] at h; cases h
    | panic => rw [hi] at h; cases h

theorem emitLoop_next {f : Nat → Res (Rhs T)} :
    ∀ (l : List Nat) (acc : List Ptr) (s s' : FSt T), FSt.emitLoop f l acc s = .ok () s' → s.heap.next ≤ s'.heap.next := by
  intro l
  induction l with
  | nil =>
    intro acc s s' h
    simp only [FSt.emitLoop, Out.ok.injEq, true_and] at h
    subst h; exact le_refl _
  | cons i l ih =>
    intro acc s s' h
    simp only [FSt.emitLoop] at h
    cases hi : f i with
    | ok r =>
      rw [hi] at h
      have := ih _ _ _ h
      simp only [FSt.emit, Heap.alloc] at this
      omega
    | err e => rw [hi] at h; cases h
    | panic => rw [hi] at h; cases h

theorem copyLoop_mem {ts fs : List Ptr} {o : Op T} (h : o ∈ Fin.copyLoop ts fs) : ∃ p q, o = .asg p (.set q) := by
  induction ts generalizing fs with
  | nil => simp [Fin.copyLoop] at h
  | cons t ts ih =>
    cases fs with
    | nil => simp [Fin.copyLoop] at h
    | cons f fs =>
      simp only [Fin.copyLoop, List.mem_cons] at h
      rcases h with rfl | h
      · exact ⟨t, f, rfl⟩
      · exact ih h

theorem pickLoop_ctx {f : Nat → Heap T → Res (Ptr × Heap T)} :
    ∀ (l : List Nat) (acc : List Ptr) (s s' : FSt T), FSt.pickLoop f l acc s = .ok () s' → s'.ctx = s.ctx := by
  intro l
  induction l with
  | nil =>
    intro acc s s' h
    simp only [FSt.pickLoop, Out.ok.injEq, true_and] at h
    subst h; rfl
  | cons i l ih =>
    intro acc s s' h
    simp only [FSt.pickLoop] at h
    cases hi : f i s.heap with
    | ok r =>
      obtain ⟨p, g⟩ := r
      rw [hi] at h
      have := ih _ _ _ h
      exact this
    | err e => rw [hi] at h; cases h
    | panic => rw [hi] at h; cases h

theorem pickLoop_cells {f : Nat → Heap T → Res (Ptr × Heap T)} {lo : Nat} {S : Ptr → Prop}
    (hf : ∀ i h p h2, lo ≤ h.next → f i h = .ok (p, h2) → (lo ≤ p ∨ S p) ∧ lo ≤ h2.next) :
    ∀ (l : List Nat) (acc : List Ptr) (s s' : FSt T), lo ≤ s.heap.next → (∀ q ∈ acc, lo ≤ q ∨ S q) →
      FSt.pickLoop f l acc s = .ok () s' → ∀ q ∈ s'.mat.ops, lo ≤ q ∨ S q := by
  intro l
  induction l with
  | nil =>
    intro acc s s' _ hc h
    simp only [FSt.pickLoop, Out.ok.injEq, true_and] at h
    subst h; exact hc
  | cons i l ih =>
    intro acc s s' hlo hc h
    simp only [FSt.pickLoop] at h
    cases hi : f i s.heap with
    | ok r =>
      obtain ⟨p, h2⟩ := r
      rw [hi] at h
      obtain ⟨x1, x2⟩ := hf i _ _ _ hlo hi
      refine ih _ _ _ x2 (fun q hq => ?_) h
      simp only [List.mem_append, List.mem_singleton] at hq
      rcases hq with hq | rfl
      · exact hc q hq
      · exact x1
    | err e => rw [hi] at h; cases h
    | panic => rw [hi] at h; cases h

theorem dotRow_ctx {P : Op T → Prop} {c0 : List (Op T)} (hP : ∀ p a b, P (.asg p (.mul a b))) {a b : Mat} {da db : Nat} {ia ib : List Nat} :
    ∀ (l : List Nat) (acc : List Ptr) (s s' : FSt T) (r : Option (List Ptr)), Adds P c0 s.ctx →
      Fin.dotRow a b da db ia ib l acc s = .ok r s' → Adds P c0 s'.ctx ∧ s'.mat = s.mat := by
  intro l
  induction l with
  | nil =>
    intro acc s s' r hc h
    simp only [Fin.dotRow, Out.ok.injEq] at h
    obtain ⟨_, rfl⟩ := h; exact ⟨hc, rfl⟩
  | cons i l ih =>
    intro acc s s' r hc h
    simp only [Fin.dotRow] at h
    split at h
    · simp only [Out.ok.injEq] at h
      obtain ⟨_, rfl⟩ := h; exact ⟨hc, rfl⟩
    · cases h
    · split at h
      · cases h
      · cases h
      · have := ih _ _ _ _ (hc.snoc (hP _ _ _)) h
        exact this

theorem dotRows_ctx {P : Op T → Prop} {c0 : List (Op T)} (hP : ∀ p a b, P (.asg p (.mul a b))) (hS : ∀ p l, P (.asg p (.sum l)))
    {a b : Mat} {n da db dim : Nat} :
    ∀ (l : List Nat) (s s' : FSt T), Fin.dotRows a b n da db dim l s = .ok () s' →
      Adds P c0 s.ctx → Adds P c0 s'.ctx ∧ s'.mat = s.mat := by
  intro l
  induction l with
  | nil =>
    intro s s' h hc
    simp only [Fin.dotRows, Out.ok.injEq, true_and] at h
    subst h; exact ⟨hc, rfl⟩
  | cons i l ih =>
    intro s s' h hc
    simp only [Fin.dotRows] at h
    split at h
    · rename_i idx c _
      obtain ⟨r, s1, e1, e2⟩ := out_bind_ok h
      obtain ⟨x1, x2⟩ := dotRow_ctx hP _ _ _ _ _ hc e1
      have hctx : Adds P c0 (match r with
            | some args => s1.push (.asg c (.sum args))
            | none => s1).ctx := by
        cases r with
        | none => exact x1
        | some args => exact x1.snoc (hS _ _)
      obtain ⟨y1, y2⟩ := ih _ _ e2 hctx
      refine ⟨y1, ?_⟩
      rw [y2, ← x2]
      cases r <;> rfl
    · cases h
    · cases h

theorem math_rhs_ok {r : Red} (h : r = .avg → ∀ x y : T, divPanics x y = false) (p : Ptr) (l : List Ptr) :
    OpOK (.asg p (r.rhs l) : Op T) := by
  cases r with
  | avg => exact h rfl
  | _ => trivial

/-- what a `BuildGraph` body pushes -/
theorem run_div {c0 : List (Op T)} {get : Nat → Mat} {k : Kind T} {s s' : FSt T} (hrun : Fin.run get k s = .ok () s') (hk : k.divOK)
    (hc : Adds OpOK c0 s.ctx) : Adds OpOK c0 s'.ctx := by
  cases k <;> simp only [Fin.run] at hrun
  case leaf =>
    simp only [Fin.leaf, Out.ok.injEq, true_and] at hrun
    subst hrun
    refine hc.append fun o ho => ?_
    obtain ⟨p, _, rfl⟩ := List.mem_map.1 ho; trivial
  case op2 o a b =>
    simp only [Fin.op2] at hrun
    split at hrun
    · cases hrun
    · refine emitLoop_all _ _ _ _ ?_ ?_ hrun
      · intro i r p hr
        obtain ⟨x, _, hr⟩ := res_bind_ok hr
        obtain ⟨y, _, rfl⟩ := res_map_ok hr
        cases o <;> first | exact hk | trivial
      · exact hc
  case opScalar o t p =>
    refine emitLoop_all _ _ _ _ ?_ ?_ hrun
    · intro i r p hr
      obtain ⟨x, _, rfl⟩ := res_map_ok hr
      cases o <;> first | exact hk | trivial
    · exact hc
  case neg t =>
    refine emitLoop_all _ _ _ _ ?_ ?_ hrun
    · intro i r p hr
      obtain ⟨x, _, rfl⟩ := res_map_ok hr
      trivial
    · exact hc
  case abs t =>
    refine emitLoop_all _ _ _ _ ?_ ?_ hrun
    · intro i r p hr
      obtain ⟨x, _, rfl⟩ := res_map_ok hr
      trivial
    · exact hc
  case act f t =>
    refine emitLoop_all _ _ _ _ ?_ ?_ hrun
    · intro i r p hr
      obtain ⟨x, _, rfl⟩ := res_map_ok hr
      trivial
    · exact hc
  case softMax t =>
    simp only [Fin.softMax] at hrun
    obtain ⟨_, s1, e1, e2⟩ := out_bind_ok hrun
    have h1 : Adds OpOK c0 s1.ctx := by
      refine emitLoop_all _ _ _ _ (fun _ _ _ _ => opOK_of hk _) ?_ e1
      exact hc.snoc (opOK_of hk _)
    simp only [Out.ok.injEq, true_and] at e2
    subst e2
    exact (h1.snoc (opOK_of hk _)).append fun o _ => opOK_of hk o
  case math r t =>
    simp only [Fin.math, Out.ok.injEq, true_and] at hrun
    subst hrun
    refine hc.snoc (math_rhs_ok ?_ _ _)
    rintro rfl; exact hk
  case dimMath r d t =>
    simp only [Fin.dimMath] at hrun
    split at hrun
    · cases hrun
    · split at hrun
      · refine emitLoop_all _ _ _ _ ?_ ?_ hrun
        · intro i r' p hr
          obtain ⟨x, _, rfl⟩ := res_map_ok hr
          refine math_rhs_ok ?_ _ _
          rintro rfl; exact hk
        · exact hc
      · cases hrun
      · cases hrun
  case dot dims a b =>
    simp only [Fin.dot] at hrun
    split at hrun
    · cases hrun
    · split at hrun
      · split at hrun
        · cases hrun
        · split at hrun
          · simp only [Fin.dotVector] at hrun
            split at hrun
            · cases hrun
            · obtain ⟨_, s1, e1, e2⟩ := out_bind_ok hrun
              have h1 : Adds OpOK c0 s1.ctx := by
                refine emitLoop_all _ _ _ _ ?_ hc e1
                intro i r p hr
                obtain ⟨x, _, hr⟩ := res_bind_ok hr
                obtain ⟨y, _, rfl⟩ := res_map_ok hr
                trivial
              simp only [Out.ok.injEq, true_and] at e2
              subst e2
              exact h1.snoc trivial
          · exact (dotRows_ctx (fun _ _ _ => trivial) (fun _ _ => trivial) _ _ _ hrun hc).1
      · cases hrun
  case concat d a b =>
    simp only [Fin.concat] at hrun
    split at hrun
    · cases hrun
    · split at hrun
      · cases hrun
      · split at hrun
        · rw [pickLoop_ctx _ _ _ _ hrun]; exact hc
        · cases hrun
  case sub d st en g t =>
    simp only [Fin.sub] at hrun
    split at hrun
    · cases hrun
    · split at hrun
      · cases hrun
      · split at hrun
        · cases hrun
        · split at hrun
          · cases hrun
          · rw [pickLoop_ctx _ _ _ _ hrun]; exact hc
  case reshape t =>
    simp only [Fin.reshape, Out.ok.injEq, true_and] at hrun
    subst hrun; exact hc
  case transpose t =>
    simp only [Fin.transpose] at hrun
    rw [pickLoop_ctx _ _ _ _ hrun]; exact hc
  case fill t v =>
    simp only [Fin.fill, Out.ok.injEq, true_and] at hrun
    subst hrun
    refine hc.append fun o ho => ?_
    obtain ⟨p, _, rfl⟩ := List.mem_map.1 ho; trivial
  case copy f t =>
    simp only [Fin.copy] at hrun
    split at hrun
    · cases hrun
    · simp only [Out.ok.injEq, true_and] at hrun
      subst hrun
      refine hc.append fun o ho => ?_
      obtain ⟨p, q, rfl⟩ := copyLoop_mem ho; trivial

/-- the scalars of a built tensor are new or belong to the tensors it was made from -/
theorem run_cells {get : Nat → Mat} {k : Kind T} {s s' : FSt T} (hrun : Fin.run get k s = .ok () s')
    (hx : k.isExpr) (hl : k ≠ .leaf) : ∀ q ∈ s'.mat.ops, s.heap.next ≤ q ∨ ∃ c ∈ k.kids, q ∈ (get c).ops := by
  have emits : ∀ {f : Nat → Res (Rhs T)} {l : List Nat} {s1 : FSt T}, FSt.emitLoop f l [] s1 = .ok () s' → s.heap.next ≤ s1.heap.next →
      ∀ q ∈ s'.mat.ops, s.heap.next ≤ q ∨ ∃ c ∈ k.kids, q ∈ (get c).ops :=
    fun h2 h1 q hq => Or.inl (emitLoop_cells _ _ _ _ h1 (by simp) h2 q hq)
  have picks : ∀ {f : Nat → Heap T → Res (Ptr × Heap T)} {l : List Nat} {s1 : FSt T}, FSt.pickLoop f l [] s1 = .ok () s' → s.heap.next ≤ s1.heap.next →
      (∀ i h p h2, s.heap.next ≤ h.next → f i h = .ok (p, h2) →
        (s.heap.next ≤ p ∨ ∃ c ∈ k.kids, p ∈ (get c).ops) ∧ s.heap.next ≤ h2.next) →
      ∀ q ∈ s'.mat.ops, s.heap.next ≤ q ∨ ∃ c ∈ k.kids, q ∈ (get c).ops :=
    fun h2 h1 hf => pickLoop_cells hf _ _ _ _ h1 (by simp) h2
  cases k <;> simp only [Fin.run] at hrun
  case leaf => exact absurd rfl hl
  case op2 o a b =>
    simp only [Fin.op2] at hrun
    split at hrun
    · cases hrun
    · exact emits hrun (le_refl _)
  case opScalar o t p => exact emits hrun (le_refl _)
  case neg t => exact emits hrun (le_refl _)
  case abs t => exact emits hrun (le_refl _)
  case act f t => exact emits hrun (le_refl _)
  case softMax t =>
    simp only [Fin.softMax] at hrun
    obtain ⟨_, s1, e1, e2⟩ := out_bind_ok hrun
    simp only [Out.ok.injEq, true_and] at e2
    subst e2
    intro q hq
    exact Or.inl (emitLoop_cells _ _ _ _ (by simp only [FSt.emit, Heap.alloc]; omega) (by simp) e1 q hq)
  case math r t =>
    simp only [Fin.math, Out.ok.injEq, true_and] at hrun
    subst hrun
    intro q hq
    simp only [FSt.emit, List.mem_singleton] at hq
    exact Or.inl (le_of_eq hq.symm)
  case dimMath r d t =>
    simp only [Fin.dimMath] at hrun
    split at hrun
    · cases hrun
    · split at hrun
      · exact emits hrun (le_refl _)
      · cases hrun
      · cases hrun
  case dot dims a b =>
    simp only [Fin.dot] at hrun
    split at hrun
    · cases hrun
    · split at hrun
      · split at hrun
        · cases hrun
        · split at hrun
          · simp only [Fin.dotVector] at hrun
            split at hrun
            · cases hrun
            · obtain ⟨_, s1, e1, e2⟩ := out_bind_ok hrun
              have h1 : s.heap.next ≤ s1.heap.next := emitLoop_next _ _ _ _ e1
              simp only [Out.ok.injEq, true_and] at e2
              subst e2
              intro q hq
              simp only [FSt.emit, List.mem_singleton] at hq
              left; omega
          · intro q hq
            rw [(dotRows_ctx (P := fun _ => True) (c0 := s.ctx) (fun _ _ _ => trivial) (fun _ _ => trivial) _ _ _ hrun
              ⟨[], by simp, by simp⟩).2] at hq
            simp only [Fin.zeros, List.mem_range'_1] at hq
            exact Or.inl hq.1
      · cases hrun
  case concat d a b =>
    simp only [Fin.concat] at hrun
    split at hrun
    · cases hrun
    · split at hrun
      · cases hrun
      · split at hrun
        · refine picks hrun (le_refl _) (fun i h p h2 hle hp => ?_)
          obtain ⟨idx, _, hp⟩ := res_bind_ok hp
          obtain ⟨p', hp2, he⟩ := res_map_ok hp
          simp only [Prod.mk.injEq] at he
          obtain ⟨rfl, rfl⟩ := he
          refine ⟨Or.inr ?_, hle⟩
          unfold Mat.concatPick at hp2
          split at hp2
          · cases hp2
          · split at hp2
            · exact ⟨a, by simp [Kind.kids], getOperand_mem hp2⟩
            · exact ⟨b, by simp [Kind.kids], getOperand_mem hp2⟩
        · cases hrun
  case sub d st en g t =>
    simp only [Fin.sub] at hrun
    split at hrun
    · cases hrun
    · split at hrun
      · cases hrun
      · split at hrun
        · cases hrun
        · split at hrun
          · cases hrun
          · refine picks hrun (le_refl _) (fun i h p h2 hle hp => ?_)
            obtain ⟨idx, _, hp⟩ := res_bind_ok hp
            obtain ⟨idx', _, hp⟩ := res_bind_ok hp
            split at hp
            · simp only [Res.ok.injEq, Prod.mk.injEq] at hp
              obtain ⟨rfl, rfl⟩ := hp
              exact ⟨Or.inl hle, by simp only [Heap.alloc]; omega⟩
            · obtain ⟨p', hp2, he⟩ := res_map_ok hp
              simp only [Prod.mk.injEq] at he
              obtain ⟨rfl, rfl⟩ := he
              exact ⟨Or.inr ⟨t, by simp [Kind.kids], getOperand_mem hp2⟩, hle⟩
  case reshape t =>
    simp only [Fin.reshape, Out.ok.injEq, true_and] at hrun
    subst hrun
    intro q hq
    rcases List.mem_append.1 hq with hq | hq
    · exact Or.inr ⟨t, by simp [Kind.kids], List.mem_of_mem_take hq⟩
    · simp only [Fin.zeros, List.mem_range'_1] at hq
      exact Or.inl hq.1
  case transpose t =>
    simp only [Fin.transpose] at hrun
    refine picks hrun (le_refl _) (fun i h p h2 hle hp => ?_)
    obtain ⟨idx, _, hp⟩ := res_bind_ok hp
    obtain ⟨p', hp2, he⟩ := res_map_ok hp
    simp only [Prod.mk.injEq] at he
    obtain ⟨rfl, rfl⟩ := he
    exact ⟨Or.inr ⟨t, by simp [Kind.kids], getOperand_mem hp2⟩, hle⟩
  case fill => cases hx
  case copy => cases hx

theorem each_div {c0 : List (Op T)} {f : Nat → Store T → Out (Store T) Unit} {P : Nat → Prop}
    (hf : ∀ c s s', P c → (∀ m, P m → (s.nodes m).built = false → (s.nodes m).kind.divOK ∧ ∀ c ∈ (s.nodes m).kind.kids, P c) →
      f c s = .ok () s' → Adds OpOK c0 s.ctx →
      Adds OpOK c0 s'.ctx ∧ ∀ m, (s'.nodes m).kind = (s.nodes m).kind ∧ ((s.nodes m).built = true → (s'.nodes m).built = true)) :
    ∀ (cs : List Nat) (s s' : Store T), (∀ c ∈ cs, P c) →
      (∀ m, P m → (s.nodes m).built = false → (s.nodes m).kind.divOK ∧ ∀ c ∈ (s.nodes m).kind.kids, P c) →
      Store.each f cs s = .ok () s' → Adds OpOK c0 s.ctx →
      Adds OpOK c0 s'.ctx ∧ ∀ m, (s'.nodes m).kind = (s.nodes m).kind ∧ ((s.nodes m).built = true → (s'.nodes m).built = true) := by
  intro cs
  induction cs with
  | nil =>
    intro s s' _ _ h hc
    simp only [Store.each, Out.ok.injEq, true_and] at h
    subst h; exact ⟨hc, fun m => ⟨rfl, id⟩⟩
  | cons c cs ih =>
    intro s s' hP hcl h hc
    simp only [Store.each] at h
    obtain ⟨_, s1, e1, e2⟩ := out_bind_ok h
    obtain ⟨x1, x2⟩ := hf c s s1 (hP c (by simp)) hcl e1 hc
    have hcl1 : ∀ m, P m → (s1.nodes m).built = false → (s1.nodes m).kind.divOK ∧ ∀ c ∈ (s1.nodes m).kind.kids, P c := by
      intro m hm hb
      rw [(x2 m).1]
      refine hcl m hm ?_
      by_contra hn
      rw [(x2 m).2 (by simpa using hn)] at hb
      cases hb
    obtain ⟨y1, y2⟩ := ih s1 s' (fun c hc => hP c (by simp [hc])) hcl1 e2 x1
    exact ⟨y1, fun m => ⟨by rw [(y2 m).1, (x2 m).1], fun h => (y2 m).2 ((x2 m).2 h)⟩⟩

/-- no division is pushed unless it is safe -/
theorem build_div {c0 : List (Op T)} {P : Nat → Prop} : ∀ (fuel n : Nat) (s s' : Store T), P n →
    (∀ m, P m → (s.nodes m).built = false → (s.nodes m).kind.divOK ∧ ∀ c ∈ (s.nodes m).kind.kids, P c) →
    Store.build fuel n s = .ok () s' → Adds OpOK c0 s.ctx →
    Adds OpOK c0 s'.ctx ∧ ∀ m, (s'.nodes m).kind = (s.nodes m).kind ∧ ((s.nodes m).built = true → (s'.nodes m).built = true) := by
  intro fuel
  induction fuel with
  | zero => intro n s s' _ _ h; cases h
  | succ fuel ih =>
    intro n s s' hn hcl h hc
    simp only [Store.build] at h
    by_cases hb : (s.nodes n).built = true
    · rw [if_pos hb] at h
      simp only [Out.ok.injEq, true_and] at h
      subst h; exact ⟨hc, fun m => ⟨rfl, id⟩⟩
    rw [if_neg hb] at h
    have hb' : (s.nodes n).built = false := by simpa using hb
    obtain ⟨hk, hkids⟩ := hcl n hn hb'
    obtain ⟨_, s1, e1, e2⟩ := out_bind_ok h
    have hm : ∀ m, ((s.setNode n { s.nodes n with built := true }).nodes m).kind = (s.nodes m).kind ∧
        ((s.nodes m).built = true → ((s.setNode n { s.nodes n with built := true }).nodes m).built = true) := by
      intro m
      simp only [Store.setNode]
      split
      · next h => subst h; exact ⟨rfl, fun _ => rfl⟩
      · exact ⟨rfl, id⟩
    obtain ⟨x1, x2⟩ := each_div (P := P) (fun c s s' h1 h2 h3 h4 => ih c s s' h1 h2 h3 h4) _ _ _ hkids
      (fun m hP hbm => by
        rw [(hm m).1]
        refine hcl m hP ?_
        by_contra hcn
        rw [(hm m).2 (by simpa using hcn)] at hbm
        cases hbm) e1 hc
    unfold Store.finish at e2
    simp only at e2
    split at e2
    · next f hf =>
      simp only [Out.ok.injEq, true_and] at e2
      subst e2
      refine ⟨run_div hf (by rw [(x2 n).1, (hm n).1]; exact hk) x1, fun m => ?_⟩
      simp only [Store.setNode]
      split
      · next h => subst h; exact ⟨by rw [(x2 m).1, (hm m).1], fun h => (x2 m).2 ((hm m).2 h)⟩
      · exact ⟨by rw [(x2 m).1, (hm m).1], fun h => (x2 m).2 ((hm m).2 h)⟩
    · cases e2
    · cases e2

/-- the scalars of a built tensor are new or belong to tensors that are read directly -/
theorem built_cells {s s' : Store T} {n : Nat} (B : Built (Reach s n) s s') (hE : Expr s n) :
    ∀ (k m : Nat), m < k → Reach s n m → ∀ q ∈ (s'.nodes m).mat.ops, s.heap.next ≤ q ∨
      ∃ m', Reach s n m' ∧ frozen s m' ∧ q ∈ (s.nodes m').mat.ops := by
  intro k
  induction k with
  | zero => intro m h; omega
  | succ k ih =>
    intro m hmk hm q hq
    by_cases hf : frozen s m
    · rw [built_mat B hf] at hq
      exact Or.inr ⟨m, hm, hf, hq⟩
    · obtain ⟨hb, hl⟩ := not_frozen hf
      obtain ⟨h0, c0, f, hrun, hmat, hlo, _, _⟩ := B.ran m hm hb
      rw [← hmat] at hq
      rcases run_cells hrun (hE m hm).2.2.2 hl q hq with h | ⟨c, hc, hq'⟩
      · left; simp only at h; omega
      · have := (hE m hm).1 c hc
        exact ih c (by omega) (B.closed m hm hb c hc) q hq'

/-! ### pending tensors -/

theorem tab_iff {a b : STensor T} : a.tab = b.tab ↔ a.shape = b.shape ∧ ∀ idx, InRange a.shape idx → a.get idx = b.get idx := by
  constructor
  · intro h
    have hs : a.tab.shape = b.tab.shape := by rw [h]
    replace hs : a.shape = b.shape := hs
    refine ⟨hs, fun idx hi => ?_⟩
    have hg : a.tab.get idx = b.tab.get idx := by rw [h]
    simp only [STensor.tab, STensor.ofValues] at hg
    have h1 := flat_getElem? (offset_lt hi)
    have h2 := flat_getElem? (t := b) (offset_lt (by rw [← hs]; exact hi))
    rw [unflat_offset hi] at h1
    rw [unflat_offset (by rw [← hs]; exact hi)] at h2
    simpa [List.getD, h1, h2] using hg
  · rintro ⟨h1, h2⟩
    unfold STensor.tab
    rw [h1]
    congr 1
    unfold STensor.flat
    rw [← h1]
    exact List.map_congr_left fun i hi => h2 i (mem_allIdx.1 hi)

theorem tab_shape (a : STensor T) : a.tab.shape = a.shape := rfl

theorem tab_get {a : STensor T} {idx : List Nat} (hi : InRange a.shape idx) : a.tab.get idx = a.get idx := by
  have h1 := flat_getElem? (offset_lt hi)
  rw [unflat_offset hi] at h1
  simp only [STensor.tab, STensor.ofValues, List.getD, h1, Option.getD_some]

theorem tab_flat (a : STensor T) : a.tab.flat = a.flat := by
  unfold STensor.flat
  exact List.map_congr_left fun i hi => tab_get (mem_allIdx.1 hi)

theorem _root_.Godeep.Spec.Holds.of_tab {h : Heap T} {m : Mat} {a b : STensor T} (H : Holds h m a) (e : a.tab = b.tab) :
    Holds h m b := by
  obtain ⟨e1, e2⟩ := tab_iff.1 e
  refine ⟨H.shape.trans e1, H.mul, H.len, H.valid, fun idx hi => ?_⟩
  rw [← e2 idx (by rw [e1]; exact hi)]
  exact H.get idx (by rw [e1]; exact hi)

/-- Tensor `n` has shape `sh` and, when the scalars have the values `val`, the value `f val`.  Its
elements are new scalars or scalars in `S`.  If `safe` its operations cannot abort. -/
structure Pend (w : World T) (n : Nat) (sh : List Nat) (f : (Ptr → T) → STensor T) (S : Ptr → Prop) (safe : Prop) : Prop where
  lt : n < w.nodeNext
  expr : Expr w.store n
  shape : shapeOf w.store (n + 1) n = some sh
  no : ∀ m, Reach w.store n m → (w.store.nodes m).built = false → ¬ (w.store.nodes m).kind.straddles (shp w.store)
  val : ∀ val, ∃ t, value w.store val (n + 1) n = some t ∧ t.tab = (f val).tab
  src : ∀ m, Reach w.store n m → frozen w.store m → ∀ q ∈ (w.store.nodes m).mat.ops, S q
  ok : safe → ∀ m, Reach w.store n m → (w.store.nodes m).built = false →
    (w.store.nodes m).kind.redOK (shp w.store) ∧ (w.store.nodes m).kind.divOK

theorem Ready.reach {w : World T} {n : Nat} {m : Mat} (r : Ready w n m) {k : Nat} (hk : Reach w.store n k) : k = n := by
  cases hk with
  | refl _ => rfl
  | step hb hc _ =>
    rcases frozen_cases r.frozen with h | h
    · rw [hb] at h; cases h
    · rw [h] at hc; simp [Kind.kids] at hc

/-- a tensor that is ready -/
theorem Ready.pend {w : World T} {n : Nat} {m : Mat} (r : Ready w n m) (safe : Prop) :
    Pend w n m.shape (fun val => ofMat val m) (· ∈ m.ops) safe := by
  refine ⟨r.lt, r.toExpr, ?_, ?_, ?_, ?_, ?_⟩
  · simp only [shapeOf]; rw [if_pos r.frozen, r.mat]
  · intro k hk hb
    obtain rfl := r.reach hk
    rcases frozen_cases r.frozen with h | h
    · rw [hb] at h; cases h
    · rw [h]; exact id
  · intro val
    exact ⟨_, by simp only [value]; rw [if_pos r.frozen], by rw [r.mat]⟩
  · intro k hk _ q hq
    obtain rfl := r.reach hk
    rwa [r.mat] at hq
  · intro _ k hk hb
    obtain rfl := r.reach hk
    rcases frozen_cases r.frozen with h | h
    · rw [hb] at h; cases h
    · rw [h]; exact ⟨trivial, trivial⟩

theorem value_nodes {s s' : Store T} {val : Ptr → T} : ∀ (fuel n : Nat), Ordered s n →
    (∀ x, x ≤ n → s'.nodes x = s.nodes x) → value s' val fuel n = value s val fuel n := by
  intro fuel
  induction fuel with
  | zero => intro n _ _; rfl
  | succ fuel ih =>
    intro n ho hx
    have hfr : frozen s' n ↔ frozen s n := by unfold frozen; rw [hx n (le_refl _)]
    simp only [value]
    by_cases hf : frozen s n
    · rw [if_pos hf, if_pos (hfr.2 hf), hx n (le_refl _)]
    · rw [if_neg hf, if_neg (fun h => hf (hfr.1 h)), hx n (le_refl _)]
      have hk : ∀ c ∈ (s.nodes n).kind.kids, value s' val fuel c = value s val fuel c := by
        intro c hc
        have := ho n (.refl n) c hc
        exact ih c (fun m hm => ho m (.step (not_frozen hf).1 hc hm)) fun x h => hx x (by omega)
      have hall : ((s.nodes n).kind.kids.all fun c => (value s' val fuel c).isSome) =
          ((s.nodes n).kind.kids.all fun c => (value s val fuel c).isSome) := by
        rw [Bool.eq_iff_iff, List.all_eq_true, List.all_eq_true]
        exact forall₂_congr fun c hc => by rw [hk c hc]
      rw [hall]
      split
      · exact den_congr (fun c hc => by rw [hk c hc]) (fun _ _ _ _ => rfl) (fun _ _ => rfl)
      · rfl

theorem shapeOf_nodes {s s' : Store T} : ∀ (fuel n : Nat), Ordered s n →
    (∀ x, x ≤ n → s'.nodes x = s.nodes x) → shapeOf s' fuel n = shapeOf s fuel n := by
  intro fuel
  induction fuel with
  | zero => intro n _ _; rfl
  | succ fuel ih =>
    intro n ho hx
    have hfr : frozen s' n ↔ frozen s n := by unfold frozen; rw [hx n (le_refl _)]
    simp only [shapeOf]
    by_cases hf : frozen s n
    · rw [if_pos hf, if_pos (hfr.2 hf), hx n (le_refl _)]
    · rw [if_neg hf, if_neg (fun h => hf (hfr.1 h)), hx n (le_refl _)]
      have hk : ∀ c ∈ (s.nodes n).kind.kids, shapeOf s' fuel c = shapeOf s fuel c := by
        intro c hc
        have := ho n (.refl n) c hc
        exact ih c (fun m hm => ho m (.step (not_frozen hf).1 hc hm)) fun x h => hx x (by omega)
      have hall : ((s.nodes n).kind.kids.all fun c => (shapeOf s' fuel c).isSome) =
          ((s.nodes n).kind.kids.all fun c => (shapeOf s fuel c).isSome) := by
        rw [Bool.eq_iff_iff, List.all_eq_true, List.all_eq_true]
        exact forall₂_congr fun c hc => by rw [hk c hc]
      rw [hall, outShape_get (get' := fun c => (shapeOf s' fuel c).getD [])
        (get := fun c => (shapeOf s fuel c).getD []) (fun c hc => by rw [hk c hc])]
      exact if_congr (and_congr Iff.rfl (fits_get (get' := fun c => (shapeOf s' fuel c).getD [])
        (get := fun c => (shapeOf s fuel c).getD []) (fun c hc => by rw [hk c hc]))) rfl rfl

theorem reach_nodes {s s' : Store T} {n m : Nat} (ho : Ordered s n) (hx : ∀ x, x ≤ n → s'.nodes x = s.nodes x)
    (h : Reach s' n m) : Reach s n m := by
  induction h with
  | refl _ => exact .refl _
  | @step n c m hb hk hr ih =>
    rw [hx n (le_refl _)] at hb hk
    have hlt := ho _ (.refl _) _ hk
    exact .step hb hk (ih (fun m hm => ho m (.step hb hk hm)) fun x h => hx x (by omega))

theorem Pend.same {w w' : World T} {n : Nat} {sh : List Nat} {f : (Ptr → T) → STensor T} {S : Ptr → Prop} {safe : Prop}
    (p : Pend w n sh f S safe) (hx : ∀ x, x < w.nodeNext → w'.store.nodes x = w.store.nodes x)
    (hn : w.nodeNext ≤ w'.nodeNext) (hh : w.store.heap.next ≤ w'.store.heap.next) : Pend w' n sh f S safe := by
  have ho := expr_ordered p.expr
  have hx' : ∀ x, x ≤ n → w'.store.nodes x = w.store.nodes x := fun x h => hx x (lt_of_le_of_lt h p.lt)
  have hr : ∀ {m}, Reach w'.store n m → Reach w.store n m := fun h => reach_nodes ho hx' h
  have hm : ∀ {m}, Reach w.store n m → w'.store.nodes m = w.store.nodes m := fun h => hx' _ (reach_le ho h)
  have hs : ∀ {m}, Reach w.store n m → shp w'.store m = shp w.store m := fun {m} h => by
    unfold shp
    rw [shapeOf_nodes _ _ (fun x hx => ho x (reach_trans h hx)) fun x hxm => hx' x (le_trans hxm (reach_le ho h))]
  refine ⟨lt_of_lt_of_le p.lt hn, fun m h => ?_, ?_, fun m h hb => ?_, fun val => ?_, fun m h hf q hq => ?_, fun hsf m h hb => ?_⟩
  · obtain ⟨x1, x2, x3, x4⟩ := p.expr m (hr h)
    have e := hm (hr h)
    refine ⟨by rw [e]; exact x1, fun hf => ?_, by rw [e]; exact scalarOK_mono x3 hh, by rw [e]; exact x4⟩
    rw [e]
    refine (x2 ?_).mono hh
    unfold frozen at hf ⊢; rwa [e] at hf
  · rw [shapeOf_nodes _ _ ho hx', p.shape]
  · have e := hm (hr h)
    rw [e] at hb ⊢
    rw [straddles_get (get := shp w.store) fun c hc => hs (reach_trans (hr h) (.step hb hc (.refl c)))]
    exact p.no m (hr h) hb
  · rw [value_nodes _ _ ho hx']; exact p.val val
  · have e := hm (hr h)
    rw [e] at hq
    refine p.src m (hr h) ?_ q hq
    unfold frozen at hf ⊢; rwa [e] at hf
  · have e := hm (hr h)
    rw [e] at hb ⊢
    obtain ⟨y1, y2⟩ := p.ok hsf m (hr h) hb
    exact ⟨redOK_get (fun c hc => hs (reach_trans (hr h) (.step hb hc (.refl c)))) y1, y2⟩

theorem Pend.mono {w : World T} {n : Nat} {sh : List Nat} {f : (Ptr → T) → STensor T} {S S' : Ptr → Prop} {safe safe' : Prop}
    (p : Pend w n sh f S safe) (hS : ∀ q, S q → S' q) (hs : safe' → safe) : Pend w n sh f S' safe' :=
  ⟨p.lt, p.expr, p.shape, p.no, p.val, fun m h hf q hq => hS q (p.src m h hf q hq), fun h => p.ok (hs h)⟩

/-- a tensor just made from pending ones -/
theorem Pend.node {w : World T} {n : Nat} {k : Kind T} {own : List Nat} {sh : Nat → List Nat}
    {F : Nat → (Ptr → T) → STensor T} {G : (Ptr → T) → STensor T} {S : Ptr → Prop} {safe : Prop}
    (hnd : w.store.nodes n = Store.lazyNode k own) (hlt : n < w.nodeNext) (hc : ∀ c ∈ k.kids, c < n)
    (hp : ∀ c ∈ k.kids, Pend w c (sh c) (F c) S safe) (hx : k.isExpr) (hl : k ≠ .leaf) (hsc : ScalarOK w.store.heap k)
    (hfit : k.fits sh) (hno : ¬ k.straddles sh)
    (hG : ∀ val, ∃ t, k.den val own (fun c => (F c val).tab) = some t ∧ t.tab = (G val).tab)
    (hok : safe → k.redOK sh ∧ k.divOK) : Pend w n (k.outShape own sh) G S safe := by
  have hk : (w.store.nodes n).kind = k := by rw [hnd]; rfl
  have hb : (w.store.nodes n).built = false := by rw [hnd]; rfl
  have hm : (w.store.nodes n).mat.shape = own := by rw [hnd]; rfl
  have hnf : ¬ frozen w.store n := by
    intro hf
    rcases frozen_cases hf with h | h
    · rw [hb] at h; cases h
    · rw [hk] at h; exact hl h
  have hreach : ∀ m, Reach w.store n m → m = n ∨ ∃ c ∈ k.kids, Reach w.store c m := by
    intro m h
    cases h with
    | refl _ => exact Or.inl rfl
    | step _ hc hr => rw [hk] at hc; exact Or.inr ⟨_, hc, hr⟩
  have hsh : ∀ c ∈ k.kids, shapeOf w.store n c = some (sh c) := fun c h => by
    rw [shapeOf_fuel n (c + 1) c (expr_ordered (hp c h).expr) (hc c h) (by omega), (hp c h).shape]
  have hshp : ∀ c ∈ k.kids, shp w.store c = sh c := fun c h => by
    unfold shp; rw [(hp c h).shape]; rfl
  refine ⟨hlt, fun m h => ?_, ?_, fun m h hbm => ?_, fun val => ?_, fun m h hf q hq => ?_, fun hsf m h hbm => ?_⟩
  · rcases hreach m h with rfl | ⟨c, h1, h2⟩
    · rw [hk]; exact ⟨hc, fun hf => absurd hf hnf, hsc, hx⟩
    · exact (hp c h1).expr m h2
  · simp only [shapeOf]
    rw [if_neg hnf, hk, hm, if_pos]
    · rw [outShape_get (get := sh) fun c h => by rw [hsh c h]; rfl]
    · refine ⟨?_, (fits_get (get := sh) fun c h => by rw [hsh c h]; rfl).2 hfit⟩
      rw [List.all_eq_true]
      intro c h; rw [hsh c h]; rfl
  · rcases hreach m h with rfl | ⟨c, h1, h2⟩
    · rw [hk, straddles_get (get := sh) hshp]; exact hno
    · exact (hp c h1).no m h2 hbm
  · have hv : ∀ c ∈ k.kids, ∃ t, value w.store val n c = some t ∧ t.tab = (F c val).tab := fun c h => by
      rw [value_fuel n (c + 1) c (expr_ordered (hp c h).expr) (hc c h) (by omega)]
      exact (hp c h).val val
    obtain ⟨t, h1, h2⟩ := hG val
    refine ⟨t, ?_, h2⟩
    simp only [value]
    rw [if_neg hnf, hk, hm, if_pos, ← h1]
    · refine den_congr (fun c h => ?_) (fun _ _ _ _ => rfl) (fun _ _ => rfl)
      obtain ⟨u, hu1, hu2⟩ := hv c h
      rw [hu1, Option.getD_some, hu2]
    · rw [List.all_eq_true]
      intro c h
      obtain ⟨u, hu1, _⟩ := hv c h
      rw [hu1]; rfl
  · rcases hreach m h with rfl | ⟨c, h1, h2⟩
    · exact absurd hf hnf
    · exact (hp c h1).src m h2 hf q hq
  · rcases hreach m h with rfl | ⟨c, h1, h2⟩
    · rw [hk]
      obtain ⟨y1, y2⟩ := hok hsf
      exact ⟨redOK_get hshp y1, y2⟩
    · exact (hp c h1).ok hsf m h2 hbm

/-- what `BuildGraph` of a pending tensor did -/
structure BuiltP (L : Nat → Prop) (C : Ptr → Prop) (n : Nat) (sh : List Nat) (f : (Ptr → T) → STensor T) (S : Ptr → Prop)
    (safe : Prop) (new : List (Op T)) (m : Mat) (w w' : World T) : Prop where
  grow : Grow L C new w w'
  layers : w'.layers = w.layers
  nodeNext : w'.nodeNext = w.nodeNext
  ready : Ready w' n m
  shape : m.shape = sh
  cells : ∀ q ∈ m.ops, (w.store.heap.next ≤ q ∧ q < w'.store.heap.next) ∨ S q
  dst : ∀ q ∈ dsts new, w.store.heap.next ≤ q ∧ q < w'.store.heap.next
  zero : ∀ q, w.store.heap.next ≤ q → q < w'.store.heap.next → w'.store.heap.val q = GoNum.zero
  run : ∀ h h', w'.store.heap.next ≤ h.next →
    (∀ q, w.store.heap.next ≤ q → q < w'.store.heap.next → q ∉ dsts new → h.val q = GoNum.zero) →
    exec new h = .ok () h' → Holds h' m (f h.val)
  fine : safe → ∀ o ∈ new, Fine o
  built : Built (Reach w.store n) w.store w'.store

/-- `BuildGraph` of a pending tensor -/
theorem wp_build {w : World T} {n : Nat} {sh : List Nat} {f : (Ptr → T) → STensor T} {S : Ptr → Prop} {safe : Prop}
    {L : Nat → Prop} {C : Ptr → Prop} {tot : Prop} {Q : Unit → World T → Prop}
    (p : Pend w n sh f S safe) (hpos : 0 < w.store.heap.next)
    (h : ∀ w' new m, BuiltP L C n sh f S safe new m w w' → Q () w') : wp tot (Run.buildGraph n) Q w := by
  have ho := expr_ordered p.expr
  have hsh : Shaped w.store (shp w.store) n := by
    refine ⟨fun m hm => ?_, p.no⟩
    obtain ⟨u, hu⟩ := Option.isSome_iff_exists.1 (shapeOf_reach hm (fuel := n + 1) ho (by rw [p.shape]; rfl) (by omega))
    unfold shp; rw [hu]; rfl
  obtain ⟨s', hs'⟩ := build_total (n + 1) n w.store (by omega) p.expr hpos hsh
  have B := build_ok _ _ _ _ p.expr hpos hs'
  obtain ⟨new, hctx, _⟩ := B.ctx
  have bl := block_kept B hctx
  have e : Run.buildGraph n w = .ok () { w with store := s' } := by
    simp only [Run.buildGraph, Run.store, hs']
  refine wp_of_ok e (h _ new (s'.nodes n).mat ?_)
  have hE : ∀ m, Reach w.store n m → Expr w.store m := fun m hm => expr_reach p.expr hm
  have hg : Grow L C new w { w with store := s' } := by
    refine ⟨B.ext.next, fun q h1 _ => B.ext.val q h1, le_refl _, fun m _ => B.kind m, fun m _ hf => ⟨?_, built_mat B hf⟩,
      fun _ _ => rfl, rfl, rfl, rfl, hctx⟩
    rcases frozen_cases hf with hb | hl
    · left; show (s'.nodes m).built = true; rw [B.keep m (Or.inl hb)]; exact hb
    · exact frozen_leaf (by rw [B.kind]; exact hl)
  obtain ⟨x1, x2, x3, x4⟩ := p.expr n (.refl n)
  have hgood := (B.done n (.refl n)).2
  refine ⟨hg, rfl, rfl, ⟨p.lt, rfl, Or.inl (B.done n (.refl n)).1, hgood, ?_, ?_, ?_⟩,
    built_shape B _ _ _ (.refl n) p.shape, ?_, bl.dst, B.zero, ?_, ?_, B⟩
  · show ∀ c ∈ (s'.nodes n).kind.kids, c < n
    rw [B.kind]; exact x1
  · show ScalarOK s'.heap (s'.nodes n).kind
    rw [B.kind]; exact scalarOK_mono x3 B.ext.next
  · show (s'.nodes n).kind.isExpr
    rw [B.kind]; exact x4
  · intro q hq
    rcases built_cells B p.expr (n + 1) n (by omega) (.refl n) q hq with h | ⟨m, h1, h2, h3⟩
    · exact Or.inl ⟨h, (hgood.valid q hq).2⟩
    · exact Or.inr (p.src m h1 h2 q h3)
  · intro h h' hn hz he
    obtain ⟨t, ht1, ht2⟩ := p.val h.val
    refine (built_exec B hE hctx (h := h) ⟨hn, fun q h1 h2 h3 => ?_⟩ he (.refl n) ht1).of_tab ht2
    rw [B.zero q h1 h2]
    refine hz q h1 h2 fun hd => ?_
    obtain ⟨r, hr⟩ := mem_dsts.1 hd
    exact h3 r hr
  · intro hsf o ho'
    have hdiv : OpOK o := by
      obtain ⟨new', e1, e2⟩ := (build_div (P := Reach w.store n) (c0 := w.store.ctx) (n + 1) n w.store s' (.refl n)
        (fun m hm hb => ⟨(p.ok hsf m hm hb).2, fun c hc => reach_trans hm (.step hb hc (.refl c))⟩) hs'
        ⟨[], by simp, by simp⟩).1
      rw [hctx, List.append_cancel_left_eq] at e1
      exact e2 o (e1 ▸ ho')
    have hred := bl.args (fun m hm hb => redOK_get (fun c hc => by
      obtain ⟨u, hu⟩ := Option.isSome_iff_exists.1 (shapeOf_reach (reach_trans hm (.step hb hc (.refl c)))
        (fuel := n + 1) ho (by rw [p.shape]; rfl) (by omega))
      rw [built_shape B _ _ _ (reach_trans hm (.step hb hc (.refl c))) hu]
      unfold shp; rw [hu]; rfl) (p.ok hsf m hm hb).1) o ho'
    have hrd := bl.reads o ho'
    cases o with
    | nop q => trivial
    | asg q r =>
      have := bl.dst q (mem_dsts.2 ⟨r, ho'⟩)
      refine ⟨by omega, fun x hx => (hrd x hx).1, hred, ?_⟩
      cases r <;> exact hdiv

end Godeep
