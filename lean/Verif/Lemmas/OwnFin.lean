import Verif.Lemmas.BPFrame
/-
  Which cells `BuildGraph` takes for the elements of a tensor, and to which cells the operations it pushes write: new
  cells, nil, or cells of the tensors that the tensor is a view of.
-/
set_option linter.unusedSectionVars false

namespace Godeep
open Spec GoNum

variable {T : Type} [GoNum T] {α β : Type}

namespace Own

/-- the tensors whose cells a tensor shares -/
def _root_.Godeep.Kind.views : Kind T → List Nat
  | .concat _ a b => [a, b]
  | .sub _ _ _ _ t => [t]
  | .reshape t => [t]
  | .transpose t => [t]
  | .fill t _ => [t]
  | .copy _ t => [t]
  | _ => []

/-- the cell an operation writes to -/
def dst : Op T → Option Nat
  | .nop _ => none
  | .asg p _ => some p

/-- cells that are in `P` or made since `h0` -/
def Got (h0 h : Heap T) (P : Nat → Prop) (q : Nat) : Prop := P q ∨ (h0.next ≤ q ∧ q < h.next)

/-- elements and destinations are in `P`, new, or as before (`O`, `c0`) -/
structure Good (h0 : Heap T) (c0 : List (Op T)) (P : Nat → Prop) (O : List Nat) (s : FSt T) : Prop where
  ext : Extends h0 s.heap
  mat : ∀ q ∈ s.mat.ops, q ∈ O ∨ Got h0 s.heap P q
  ctx : ∀ o ∈ s.ctx, o ∈ c0 ∨ ∀ q, dst o = some q → Got h0 s.heap P q

theorem Got.ext {h0 h h' : Heap T} {P : Nat → Prop} {q : Nat} (H : Got h0 h P q) (e : Extends h h') : Got h0 h' P q := by
  rcases H with H | H
  · exact .inl H
  · exact .inr ⟨H.1, lt_of_lt_of_le H.2 e.1⟩

variable {h0 : Heap T} {c0 : List (Op T)} {P : Nat → Prop} {O : List Nat}

theorem Good.mono {O' : List Nat} {s : FSt T} (h : Good h0 c0 P O s) (hO : ∀ q ∈ O, q ∈ O') : Good h0 c0 P O' s :=
  ⟨h.ext, fun q hq => (h.mat q hq).imp (hO q) id, h.ctx⟩

theorem got_next {s : FSt T} (h : Extends h0 s.heap) (v : T) : Got h0 (s.heap.alloc v).2 P s.heap.next :=
  .inr ⟨h.1, by simp [Heap.alloc]⟩

theorem Good.emit {s : FSt T} (h : Good h0 c0 P O s) (r : Rhs T) : Good h0 c0 P O (s.emit r) := by
  have e : Extends s.heap (s.emit r).heap := ext_alloc _ _
  refine ⟨ext_trans h.ext e, fun q hq => (h.mat q hq).imp id fun g => g.ext e, fun o ho => ?_⟩
  rcases List.mem_append.1 ho with ho | ho
  · exact (h.ctx o ho).imp id fun g q hq => (g q hq).ext e
  · rw [List.mem_singleton.1 ho]
    refine .inr fun q hq => ?_
    cases hq
    exact got_next h.ext _

theorem Good.push {s : FSt T} (h : Good h0 c0 P O s) {p : Nat} {r : Rhs T} (hp : Got h0 s.heap P p) : Good h0 c0 P O (s.push (.asg p r)) := by
  refine ⟨h.ext, h.mat, fun o ho => ?_⟩
  rcases List.mem_append.1 ho with ho | ho
  · exact h.ctx o ho
  · rw [List.mem_singleton.1 ho]
    refine .inr fun q hq => ?_
    cases hq
    exact hp

theorem Good.many {s : FSt T} (h : Good h0 c0 P O s) {l : List (Op T)} (hl : ∀ o ∈ l, ∀ q, dst o = some q → Got h0 s.heap P q) :
    Good h0 c0 P O { s with ctx := s.ctx ++ l } := by
  refine ⟨h.ext, h.mat, fun o ho => ?_⟩
  rcases List.mem_append.1 ho with ho | ho
  · exact h.ctx o ho
  · exact .inr (hl o ho)

theorem Good.withMat {s : FSt T} (h : Good h0 c0 P O s) {m : Mat} {O' : List Nat} (hm : ∀ q ∈ m.ops, q ∈ O' ∨ Got h0 s.heap P q) :
    Good h0 c0 P O' { s with mat := m } := ⟨h.ext, hm, h.ctx⟩

theorem Good.withHeap {s : FSt T} (h : Good h0 c0 P O s) {h' : Heap T} (e : Extends s.heap h') : Good h0 c0 P O { s with heap := h' } :=
  ⟨ext_trans h.ext e, fun q hq => (h.mat q hq).imp id fun g => g.ext e, fun o ho => (h.ctx o ho).imp id fun g q hq => (g q hq).ext e⟩

theorem padded (h0P : P 0) {h : Heap T} {acc : List Nat} (ha : ∀ q ∈ acc, Got h0 h P q) (n : Nat) :
    ∀ q ∈ acc ++ List.replicate n 0, q ∈ O ∨ Got h0 h P q := fun q hq => by
  rcases List.mem_append.1 hq with hq | hq
  · exact .inr (ha q hq)
  · rw [(List.mem_replicate.1 hq).2]; exact .inr (.inl h0P)

theorem emitLoop_good (h0P : P 0) {f : Nat → Res (Rhs T)} (l : List Nat) (acc : List Nat) (s : FSt T) (hs : Good h0 c0 P O s)
    (ha : ∀ q ∈ acc, Got h0 s.heap P q) : EndsIn (Good h0 c0 P O) (FSt.emitLoop f l acc s) := by
  induction l generalizing acc s with
  | nil => exact hs.withMat fun q hq => .inr (ha q hq)
  | cons i l ih =>
    unfold FSt.emitLoop
    cases f i with
    | ok r =>
      refine ih _ _ (hs.emit r) fun q hq => ?_
      rcases List.mem_append.1 hq with hq | hq
      · exact (ha q hq).ext (ext_alloc _ _)
      · rw [List.mem_singleton.1 hq]; exact got_next hs.ext _
    | err e => exact hs.withMat (padded h0P ha _)
    | panic => trivial

theorem pickLoop_good (h0P : P 0) {f : Nat → Heap T → Res (Nat × Heap T)}
    (hf : ∀ i h p h', f i h = .ok (p, h') → Extends h h' ∧ (P p ∨ (h.next ≤ p ∧ p < h'.next)))
    (l : List Nat) (acc : List Nat) (s : FSt T) (hs : Good h0 c0 P O s)
    (ha : ∀ q ∈ acc, Got h0 s.heap P q) : EndsIn (Good h0 c0 P O) (FSt.pickLoop f l acc s) := by
  induction l generalizing acc s with
  | nil => exact hs.withMat fun q hq => .inr (ha q hq)
  | cons i l ih =>
    unfold FSt.pickLoop
    cases e : f i s.heap with
    | ok r =>
      obtain ⟨x1, x2⟩ := hf i _ _ _ e
      refine ih _ _ (hs.withHeap x1) fun q hq => ?_
      rcases List.mem_append.1 hq with hq | hq
      · exact (ha q hq).ext x1
      · rw [List.mem_singleton.1 hq]
        exact x2.imp id fun y => ⟨le_trans hs.ext.1 y.1, y.2⟩
    | err e => exact hs.withMat (padded h0P ha _)
    | panic => trivial

theorem dotRow_good (a b : Mat) (da db : Nat) (ia ib : List Nat) (l : List Nat) (acc : List Nat) (s : FSt T) (hs : Good h0 c0 P O s) :
    EndsIn (Good h0 c0 P O) (Fin.dotRow a b da db ia ib l acc s) := by
  induction l generalizing acc s with
  | nil => exact hs
  | cons i l ih =>
    unfold Fin.dotRow
    cases a.getOperand (ia.set da i) with
    | err e => exact hs
    | panic => trivial
    | ok x =>
      cases b.getOperand (ib.set db i) with
      | err e => exact hs
      | panic => trivial
      | ok y => exact ih _ _ (hs.emit _)

/-- `dotRow` does not touch the elements -/
theorem dotRow_mat (a b : Mat) (da db : Nat) (ia ib : List Nat) (l : List Nat) (acc : List Nat) (s : FSt T) :
    EndsIn (fun s' => s'.mat = s.mat ∧ Extends s.heap s'.heap) (Fin.dotRow a b da db ia ib l acc s) := by
  induction l generalizing acc s with
  | nil => exact ⟨rfl, ext_refl _⟩
  | cons i l ih =>
    unfold Fin.dotRow
    cases a.getOperand (ia.set da i) with
    | err e => exact ⟨rfl, ext_refl _⟩
    | panic => trivial
    | ok x =>
      cases b.getOperand (ib.set db i) with
      | err e => exact ⟨rfl, ext_refl _⟩
      | panic => trivial
      | ok y => exact (ih _ _).mono fun s' h => ⟨h.1, ext_trans (ext_alloc _ _) h.2⟩

theorem endsIn_and {S : Type} {R R' : S → Prop} {o : Out S α} (h : EndsIn R o) (h' : EndsIn R' o) : EndsIn (fun s => R s ∧ R' s) o := by
  cases o with
  | ok _ s => exact ⟨h, h'⟩
  | err _ s => exact ⟨h, h'⟩
  | panic => trivial

theorem dotRows_good (a b : Mat) (n da db dim : Nat) (l : List Nat) (s : FSt T) (hs : Good h0 c0 P [] s) :
    EndsIn (Good h0 c0 P []) (Fin.dotRows a b n da db dim l s) := by
  induction l generalizing s with
  | nil => exact hs
  | cons i l ih =>
    unfold Fin.dotRows
    cases e : (reverseIndex s.mat.mul s.mat.shape i).bind fun idx => (Res.index s.mat.ops i).map fun cell => (idx, cell) with
    | ok p =>
      have hc : p.2 ∈ s.mat.ops := by
        cases e1 : reverseIndex s.mat.mul s.mat.shape i with
        | ok idx =>
          rw [e1] at e
          simp only [Res.bind] at e
          unfold Res.index at e
          cases e2 : s.mat.ops[i]? with
          | some c =>
            rw [e2] at e
            simp only [Res.map_ok, Res.ok.injEq] at e
            rw [← e]
            exact List.mem_of_getElem? e2
          | none => rw [e2] at e; cases e
        | err _ => rw [e1] at e; cases e
        | panic => rw [e1] at e; cases e
      refine EndsIn.bind (endsIn_and (dotRow_good a b da db _ _ _ _ s hs) (dotRow_mat a b da db _ _ _ _ s)) (fun _ h => h.1) fun args s' hs' => ih _ ?_
      cases args with
      | none => exact hs'.1
      | some args =>
        have hp : Got h0 s'.heap P p.2 := by
          rcases hs.mat _ hc with h | h
          · cases h
          · exact h.ext hs'.2.2
        exact hs'.1.push hp
    | err e => exact hs
    | panic => trivial

theorem map_got {r : Res Nat} {h h' : Heap T} {p : Nat} (e : (r.map fun p => (p, h)) = .ok (p, h')) (hr : r = .ok p → P p) :
    Extends h h' ∧ (P p ∨ (h.next ≤ p ∧ p < h'.next)) := by
  cases r with
  | ok x =>
    simp only [Res.map_ok, Res.ok.injEq, Prod.mk.injEq] at e
    obtain ⟨rfl, rfl⟩ := e
    exact ⟨ext_refl _, .inl (hr rfl)⟩
  | err _ => cases e
  | panic => cases e

theorem index_mem {l : List Nat} {i p : Nat} (h : Res.index l i = .ok p) : p ∈ l := by
  unfold Res.index at h
  cases e : l[i]? with
  | some c => rw [e] at h; cases h; exact List.mem_of_getElem? e
  | none => rw [e] at h; cases h

theorem operand_mem {m : Mat} {idx : List Nat} {p : Nat} (h : m.getOperand idx = .ok p) : p ∈ m.ops := by
  unfold Mat.getOperand at h
  cases e : getIndex m.mul m.shape idx with
  | ok i =>
    rw [e] at h
    simp only [Res.bind] at h
    split at h
    · cases h
    · exact index_mem h
  | err _ => rw [e] at h; cases h
  | panic => rw [e] at h; cases h

theorem zeros_got {h : Heap T} (e : Extends h0 h) (n : Nat) : ∀ q ∈ (Fin.zeros n h).1, Got h0 (Fin.zeros n h).2 P q := fun q hq => by
  have hn : (Fin.zeros n h).2.next = h.next + n := by rw [zeros_eq]; exact allocZ_next n h
  have hq' : q ∈ List.range' h.next n := hq
  rw [List.mem_range'_1] at hq'
  refine .inr ⟨le_trans e.1 hq'.1, ?_⟩
  rw [hn]; exact hq'.2

theorem copyLoop_dst {l1 l2 : List Nat} {o : Op T} (ho : o ∈ Fin.copyLoop l1 l2) {q : Nat} (hq : dst o = some q) : q ∈ l1 := by
  induction l1 generalizing l2 with
  | nil => cases l2 <;> cases ho
  | cons t ts ih =>
    cases l2 with
    | nil => cases ho
    | cons f fs =>
      rcases List.mem_cons.1 ho with ho | ho
      · rw [ho] at hq; cases hq; exact List.mem_cons_self
      · exact List.mem_cons_of_mem _ (ih ho)

theorem run_good (get : Nat → Mat) (k : Kind T) (s : FSt T) (h0P : P 0) (hv : ∀ t ∈ k.views, ∀ q ∈ (get t).ops, P q) :
    EndsIn (Good s.heap s.ctx P s.mat.ops) (Fin.run get k s) := by
  have g0 : Good s.heap s.ctx P s.mat.ops s := ⟨ext_refl _, fun q hq => .inl hq, fun o ho => .inl ho⟩
  have g1 : ∀ sh mu, Good s.heap s.ctx P [] { s with mat := ⟨sh, mu, []⟩ } := fun sh mu => ⟨ext_refl _, fun q hq => absurd hq List.not_mem_nil, fun o ho => .inl ho⟩
  have up : ∀ f, Good s.heap s.ctx P [] f → Good s.heap s.ctx P s.mat.ops f := fun f h => h.mono fun q hq => by cases hq
  have nil : ∀ h : Heap T, ∀ q ∈ ([] : List Nat), Got s.heap h P q := fun _ q hq => by cases hq
  have em : ∀ f l sh mu, EndsIn (Good s.heap s.ctx P s.mat.ops) (FSt.emitLoop f l [] { s with mat := ⟨sh, mu, []⟩ }) :=
    fun f l sh mu => (emitLoop_good h0P l [] _ (g1 sh mu) (nil _)).mono up
  cases k with
  | leaf =>
    refine g0.many fun o ho q hq => ?_
    obtain ⟨p, _, rfl⟩ := List.mem_map.1 ho
    cases hq
  | op2 o a b =>
    show EndsIn _ (Fin.op2 o (get a) (get b) s)
    unfold Fin.op2
    split
    · exact g0
    · exact em _ _ _ _
  | opScalar o t p => exact em _ _ _ _
  | neg t => exact em _ _ _ _
  | abs t => exact em _ _ _ _
  | act f t => exact em _ _ _ _
  | softMax t =>
    show EndsIn _ (Fin.softMax (get t) s)
    unfold Fin.softMax
    refine EndsIn.bind (emitLoop_good h0P _ _ _ ((g1 (get t).shape (get t).mul).emit _) (nil _)) up fun _ s' hs' => ?_
    refine up _ ((hs'.emit _).many fun o ho q hq => ?_)
    obtain ⟨p, hp, rfl⟩ := List.mem_map.1 ho
    cases hq
    rcases (hs'.emit (.sum s'.mat.ops)).mat _ hp with h | h
    · cases h
    · exact h
  | math r t =>
    exact (g0.emit (r.rhs (get t).ops)).withMat (m := ⟨[1], [1], [s.heap.next]⟩) fun q hq => by
      rw [List.mem_singleton.1 hq]; exact .inr (got_next (ext_refl _) _)
  | dimMath r d t =>
    show EndsIn _ (Fin.dimMath r d (get t) s)
    unfold Fin.dimMath
    split
    · exact g0
    · dsimp only
      split
      · exact em _ _ _ _
      · exact g0
      · trivial
  | dot dims a b =>
    show EndsIn _ (Fin.dot dims (get a) (get b) s)
    unfold Fin.dot
    split
    · exact g0
    · dsimp only
      split
      · split
        · exact g0
        · split
          · unfold Fin.dotVector
            split
            · exact g0
            · refine EndsIn.bind (emitLoop_good h0P _ _ _ g0 (nil _)) (fun _ h => h) fun _ s' hs' => ?_
              exact (hs'.emit (.sum s'.mat.ops)).withMat (m := ⟨[1], [1], [s'.heap.next]⟩) fun q hq => by
                rw [List.mem_singleton.1 hq]; exact .inr (got_next hs'.ext _)
          · refine (dotRows_good _ _ _ _ _ _ _ _ ?_).mono up
            exact ((g0.withHeap (ext_zeros _ s.heap)).withMat fun q hq => .inr (zeros_got (ext_refl _) _ q hq))
      · trivial
  | concat d a b =>
    show EndsIn _ (Fin.concat d (get a) (get b) s)
    unfold Fin.concat
    dsimp only
    split
    · exact g0
    · split
      · exact g0
      · split
        · refine (pickLoop_good h0P (fun i h p h' e => ?_) _ _ _ (g1 _ _) (nil _)).mono up
          obtain ⟨_, _, e⟩ := res_bind_ok e
          refine map_got e fun hr => ?_
          unfold Mat.concatPick at hr
          split at hr
          · cases hr
          · split at hr
            · exact hv a (by simp [Kind.views]) p (operand_mem hr)
            · exact hv b (by simp [Kind.views]) p (operand_mem hr)
        · trivial
  | sub d st en g t =>
    show EndsIn _ (Fin.sub d st en g (get t) s)
    unfold Fin.sub
    split
    · exact g0
    · split
      · exact g0
      · split
        · exact g0
        · split
          · exact g0
          · refine (pickLoop_good h0P (fun i h p h' e => ?_) _ _ _ (g1 _ _) (nil _)).mono up
            obtain ⟨_, _, e⟩ := res_bind_ok e
            obtain ⟨_, _, e⟩ := res_bind_ok e
            split at e
            · simp only [Res.ok.injEq, Prod.mk.injEq] at e
              rw [← e.2, ← e.1]
              exact ⟨ext_alloc h _, .inr ⟨le_refl _, by simp [Heap.alloc]⟩⟩
            · exact map_got e fun hr => hv t (by simp [Kind.views]) p (operand_mem hr)
  | reshape t =>
    refine ((g0.withHeap (ext_zeros _ s.heap)).withMat fun q hq => .inr ?_)
    rcases List.mem_append.1 hq with hq | hq
    · exact .inl (hv t (by simp [Kind.views]) q (List.mem_of_mem_take hq))
    · exact zeros_got (ext_refl _) _ q hq
  | transpose t =>
    refine (pickLoop_good h0P (fun i h p h' e => ?_) _ _ _ (g1 _ _) (nil _)).mono up
    obtain ⟨_, _, e⟩ := res_bind_ok e
    exact map_got e fun hr => hv t (by simp [Kind.views]) p (operand_mem hr)
  | fill t v =>
    refine Good.many (s := { s with mat := get t }) (g0.withMat fun q hq => .inr (.inl (hv t (by simp [Kind.views]) q hq))) fun o ho q hq => ?_
    obtain ⟨p, hp, rfl⟩ := List.mem_map.1 ho
    cases hq
    exact .inl (hv t (by simp [Kind.views]) _ hp)
  | copy f t =>
    show EndsIn _ (Fin.copy (get f) (get t) s)
    unfold Fin.copy
    split
    · exact g0
    · refine Good.many (s := { s with mat := get t }) (g0.withMat fun q hq => .inr (.inl (hv t (by simp [Kind.views]) q hq))) fun o ho q hq => ?_
      exact .inl (hv t (by simp [Kind.views]) _ (copyLoop_dst ho hq))

end Own
end Godeep
