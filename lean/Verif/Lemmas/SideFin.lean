import Verif.Lemmas.SideInv
/-
  `BuildGraph` stays in the part.
-/
set_option linter.unusedSectionVars false

namespace Godeep
open Spec GoNum

variable {T : Type} [GoNum T] {α β : Type}

namespace Side
open Own (Got got_next zeros_got map_got index_mem operand_mem)

/-- elements, and the cells of the operations, are in `P` or new -/
structure Good (h0 : Heap T) (P : Nat → Prop) (s : FSt T) : Prop where
  ext : Extends h0 s.heap
  mat : ∀ q ∈ s.mat.ops, Got h0 s.heap P q
  ctx : ∀ o ∈ s.ctx, OpC (Got h0 s.heap P) o

variable {h0 : Heap T} {P : Nat → Prop}

theorem Good.emit {s : FSt T} (h : Good h0 P s) {r : Rhs T} (hr : ∀ q ∈ r.reads, Got h0 s.heap P q) : Good h0 P (s.emit r) := by
  have e : Extends s.heap (s.emit r).heap := ext_alloc _ _
  refine ⟨ext_trans h.ext e, fun q hq => (h.mat q hq).ext e, fun o ho => ?_⟩
  rcases List.mem_append.1 ho with ho | ho
  · exact (h.ctx o ho).mono fun q g => g.ext e
  · rw [List.mem_singleton.1 ho]
    exact ⟨got_next h.ext _, fun q hq => (hr q hq).ext e⟩

theorem Good.many {s : FSt T} (h : Good h0 P s) {l : List (Op T)} (hl : ∀ o ∈ l, OpC (Got h0 s.heap P) o) :
    Good h0 P { s with ctx := s.ctx ++ l } := by
  refine ⟨h.ext, h.mat, fun o ho => ?_⟩
  rcases List.mem_append.1 ho with ho | ho
  · exact h.ctx o ho
  · exact hl o ho

theorem Good.withMat {s : FSt T} (h : Good h0 P s) {m : Mat} (hm : ∀ q ∈ m.ops, Got h0 s.heap P q) :
    Good h0 P { s with mat := m } := ⟨h.ext, hm, h.ctx⟩

theorem Good.withHeap {s : FSt T} (h : Good h0 P s) {h' : Heap T} (e : Extends s.heap h') : Good h0 P { s with heap := h' } :=
  ⟨ext_trans h.ext e, fun q hq => (h.mat q hq).ext e, fun o ho => (h.ctx o ho).mono fun q g => g.ext e⟩

theorem padded (h0P : P 0) {h : Heap T} {acc : List Nat} (ha : ∀ q ∈ acc, Got h0 h P q) (n : Nat) :
    ∀ q ∈ acc ++ List.replicate n 0, Got h0 h P q := fun q hq => by
  rcases List.mem_append.1 hq with hq | hq
  · exact ha q hq
  · rw [(List.mem_replicate.1 hq).2]; exact .inl h0P

theorem emitLoop_good (h0P : P 0) {f : Nat → Res (Rhs T)} (l : List Nat) (acc : List Nat) (s : FSt T) (hs : Good h0 P s)
    (hf : ∀ i r, f i = .ok r → ∀ q ∈ r.reads, Got h0 s.heap P q)
    (ha : ∀ q ∈ acc, Got h0 s.heap P q) : EndsIn (Good h0 P) (FSt.emitLoop f l acc s) := by
  induction l generalizing acc s with
  | nil => exact hs.withMat ha
  | cons i l ih =>
    unfold FSt.emitLoop
    cases e : f i with
    | ok r =>
      refine ih _ _ (hs.emit (hf i r e)) (fun j r' e' q hq => (hf j r' e' q hq).ext (ext_alloc _ _)) fun q hq => ?_
      rcases List.mem_append.1 hq with hq | hq
      · exact (ha q hq).ext (ext_alloc _ _)
      · rw [List.mem_singleton.1 hq]; exact got_next hs.ext _
    | err e => exact hs.withMat (padded h0P ha _)
    | panic => trivial

theorem pickLoop_good (h0P : P 0) {f : Nat → Heap T → Res (Nat × Heap T)}
    (hf : ∀ i h p h', f i h = .ok (p, h') → Extends h h' ∧ (P p ∨ (h.next ≤ p ∧ p < h'.next)))
    (l : List Nat) (acc : List Nat) (s : FSt T) (hs : Good h0 P s)
    (ha : ∀ q ∈ acc, Got h0 s.heap P q) : EndsIn (Good h0 P) (FSt.pickLoop f l acc s) := by
  induction l generalizing acc s with
  | nil => exact hs.withMat ha
  | cons i l ih =>
    unfold FSt.pickLoop
    cases e : f i s.heap with
    | ok r =>
      obtain ⟨x1, x2⟩ := hf i _ _ _ e
      refine ih _ _ (hs.withHeap x1) fun q hq => ?_
      rcases List.mem_append.1 hq with hq | hq
      · exact (ha q hq).ext x1
      · rw [List.mem_singleton.1 hq]
        exact x2.imp id fun y => ⟨le_trans hs.ext.1 y.1, y.2⟩
    | err e => exact hs.withMat (padded h0P ha _)
    | panic => trivial

/-- the state is good, and the heap has grown since `s` -/
theorem dotRow_good (a b : Mat) (ha : ∀ q ∈ a.ops, P q) (hb : ∀ q ∈ b.ops, P q) (da db : Nat) (ia ib : List Nat) (l : List Nat) (acc : List Nat) (s : FSt T)
    (hs : Good h0 P s) (hacc : ∀ q ∈ acc, Got h0 s.heap P q) :
    match Fin.dotRow a b da db ia ib l acc s with
    | .ok r s' => Good h0 P s' ∧ s'.mat = s.mat ∧ ∀ args, r = some args → ∀ q ∈ args, Got h0 s'.heap P q
    | .err _ s' => Good h0 P s' ∧ s'.mat = s.mat
    | .panic => True := by
  induction l generalizing acc s with
  | nil => exact ⟨hs, rfl, fun args h q hq => by cases h; exact hacc q hq⟩
  | cons i l ih =>
    unfold Fin.dotRow
    cases e1 : a.getOperand (ia.set da i) with
    | err e => exact ⟨hs, rfl, fun args h => by cases h⟩
    | panic => trivial
    | ok x =>
      dsimp only
      cases e2 : b.getOperand (ib.set db i) with
      | err e => exact ⟨hs, rfl⟩
      | panic => trivial
      | ok y =>
        refine ih _ _ (hs.emit fun q hq => ?_) fun q hq => ?_
        · simp only [Rhs.reads, List.mem_cons, List.not_mem_nil, or_false] at hq
          rcases hq with rfl | rfl
          · exact .inl (ha _ (operand_mem e1))
          · exact .inl (hb _ (operand_mem e2))
        · rcases List.mem_append.1 hq with hq | hq
          · exact (hacc q hq).ext (ext_alloc _ _)
          · rw [List.mem_singleton.1 hq]; exact got_next hs.ext _

theorem dotRows_good (a b : Mat) (ha : ∀ q ∈ a.ops, P q) (hb : ∀ q ∈ b.ops, P q) (n da db dim : Nat) (l : List Nat) (s : FSt T) (hs : Good h0 P s) :
    EndsIn (Good h0 P) (Fin.dotRows a b n da db dim l s) := by
  induction l generalizing s with
  | nil => exact hs
  | cons i l ih =>
    unfold Fin.dotRows
    cases e : (reverseIndex s.mat.mul s.mat.shape i).bind fun idx => (Res.index s.mat.ops i).map fun cell => (idx, cell) with
    | ok p =>
      have hc : p.2 ∈ s.mat.ops := by
        obtain ⟨idx, _, e⟩ := res_bind_ok e
        cases e2 : Res.index s.mat.ops i with
        | ok c => rw [e2] at e; cases e; exact index_mem e2
        | err _ => rw [e2] at e; cases e
        | panic => rw [e2] at e; cases e
      dsimp only
      have H := dotRow_good a b ha hb da db (Mat.spread (p.1.take dim) da) (Mat.spread (p.1.drop dim) db) (List.range n) [] s hs fun q hq => by cases hq
      cases e3 : Fin.dotRow a b da db (Mat.spread (p.1.take dim) da) (Mat.spread (p.1.drop dim) db) (List.range n) [] s with
      | ok r s' =>
        rw [e3] at H
        obtain ⟨H1, H2, H3⟩ := H
        refine ih _ ?_
        cases r with
        | none => exact H1
        | some args =>
          refine H1.many fun o ho => ?_
          rw [List.mem_singleton.1 ho]
          exact ⟨H1.mat _ (by rw [H2]; exact hc), H3 args rfl⟩
      | err _ s' => rw [e3] at H; exact H.1
      | panic => trivial
    | err e => exact hs
    | panic => trivial

theorem copyLoop_in {C : Nat → Prop} {l1 l2 : List Nat} (h1 : ∀ q ∈ l1, C q) (h2 : ∀ q ∈ l2, C q) : ∀ o ∈ (Fin.copyLoop l1 l2 : List (Op T)), OpC C o := by
  induction l1 generalizing l2 with
  | nil => cases l2 <;> (intro o ho; cases ho)
  | cons t ts ih =>
    cases l2 with
    | nil => intro o ho; cases ho
    | cons f fs =>
      intro o ho
      rcases List.mem_cons.1 ho with rfl | ho
      · exact ⟨h1 _ List.mem_cons_self, fun q hq => by rw [List.mem_singleton.1 hq]; exact h2 _ List.mem_cons_self⟩
      · exact ih (fun q hq => h1 q (List.mem_cons_of_mem _ hq)) (fun q hq => h2 q (List.mem_cons_of_mem _ hq)) o ho

theorem slice_mem {l m : List Nat} {i j q : Nat} (h : Mat.slice l i j = .ok m) (hq : q ∈ m) : q ∈ l := by
  unfold Mat.slice at h
  split at h
  · cases h; exact List.mem_of_mem_drop (List.mem_of_mem_take hq)
  · cases h

theorem red_reads (r : Red) (l : List Nat) : (r.rhs l : Rhs T).reads = l := by cases r <;> rfl

theorem arith_reads (o : Arith) (x y : Nat) : (o.rhs x y : Rhs T).reads = [x, y] := by cases o <;> rfl

theorem run_good (get : Nat → Mat) (k : Kind T) (s : FSt T) (h0P : P 0) (hv : ∀ t ∈ k.kids, ∀ q ∈ (get t).ops, P q) (hp : ∀ q ∈ ptrs k, P q)
    (hm : ∀ q ∈ s.mat.ops, P q) (hc : ∀ o ∈ s.ctx, OpC P o) : EndsIn (Good s.heap P) (Fin.run get k s) := by
  have g0 : Good s.heap P s := ⟨ext_refl _, fun q hq => .inl (hm q hq), fun o ho => (hc o ho).mono fun _ => .inl⟩
  have g1 : ∀ sh mu, Good s.heap P { s with mat := ⟨sh, mu, []⟩ } := fun sh mu => g0.withMat fun q hq => by cases hq
  have nil : ∀ h : Heap T, ∀ q ∈ ([] : List Nat), Got s.heap h P q := fun _ q hq => by cases hq
  have un : ∀ (t : Nat) (r : Nat → Rhs T), t ∈ k.kids → (∀ x, P x → ∀ q ∈ (r x).reads, P q) → EndsIn (Good s.heap P) (Fin.unary r (get t) s) := by
    intro t r ht hr
    refine emitLoop_good h0P _ _ _ (g1 _ _) (fun i r' e q hq => ?_) (nil _)
    cases e1 : Res.index (get t).ops i with
    | ok x => rw [e1] at e; cases e; exact .inl (hr x (hv t ht x (index_mem e1)) q hq)
    | err _ => rw [e1] at e; cases e
    | panic => rw [e1] at e; cases e
  have two : ∀ (a b : Nat) (f : Nat → Nat → Rhs T) (i : Nat) (r : Rhs T), a ∈ k.kids → b ∈ k.kids → (∀ x y, (f x y).reads = [x, y]) →
      ((Res.index (get a).ops i).bind fun x => (Res.index (get b).ops i).map fun y => f x y) = .ok r → ∀ q ∈ r.reads, P q := by
    intro a b f i r ha hb hf e q hq
    obtain ⟨x, hx, e⟩ := res_bind_ok e
    cases e1 : Res.index (get b).ops i with
    | ok y =>
      rw [e1] at e; cases e
      rw [hf] at hq
      simp only [List.mem_cons, List.not_mem_nil, or_false] at hq
      rcases hq with rfl | rfl
      · exact hv a ha _ (index_mem hx)
      · exact hv b hb _ (index_mem e1)
    | err _ => rw [e1] at e; cases e
    | panic => rw [e1] at e; cases e
  cases k with
  | leaf =>
    refine g0.many fun o ho => ?_
    obtain ⟨p, _, rfl⟩ := List.mem_map.1 ho
    trivial
  | op2 o a b =>
    show EndsIn _ (Fin.op2 o (get a) (get b) s)
    unfold Fin.op2
    split
    · exact g0
    · exact emitLoop_good h0P _ _ _ (g1 _ _) (fun i r e q hq => .inl (two a b o.rhs i r (by simp [Kind.kids]) (by simp [Kind.kids]) (arith_reads o) e q hq)) (nil _)
  | opScalar o t p =>
    refine un t _ (by simp [Kind.kids]) fun x hx q hq => ?_
    rw [arith_reads] at hq
    simp only [List.mem_cons, List.not_mem_nil, or_false] at hq
    rcases hq with rfl | rfl
    · exact hx
    · exact hp _ (by simp [ptrs])
  | neg t => exact un t _ (by simp [Kind.kids]) fun x hx q hq => by rw [List.mem_singleton.1 hq]; exact hx
  | abs t => exact un t _ (by simp [Kind.kids]) fun x hx q hq => by rw [List.mem_singleton.1 hq]; exact hx
  | act f t => exact un t _ (by simp [Kind.kids]) fun x hx q hq => by rw [List.mem_singleton.1 hq]; exact hx
  | softMax t =>
    show EndsIn _ (Fin.softMax (get t) s)
    unfold Fin.softMax
    have ht : ∀ q ∈ (get t).ops, P q := hv t (by simp [Kind.kids])
    have gm := (g1 (get t).shape (get t).mul).emit (r := .min (get t).ops) fun q hq => .inl (ht q hq)
    refine EndsIn.bind (emitLoop_good h0P _ _ _ gm (fun i r e q hq => ?_) (nil _)) (fun _ h => h) fun _ s' hs' => ?_
    · cases e1 : Res.index (get t).ops i with
      | ok x =>
        rw [e1] at e; cases e
        simp only [Rhs.reads, List.mem_cons, List.not_mem_nil, or_false] at hq
        rcases hq with rfl | rfl
        · exact .inl (ht _ (index_mem e1))
        · exact got_next (ext_refl _) _
      | err _ => rw [e1] at e; cases e
      | panic => rw [e1] at e; cases e
    · have gs := hs'.emit (r := .sum s'.mat.ops) fun q hq => hs'.mat q hq
      refine gs.many fun o ho => ?_
      obtain ⟨p, hp', rfl⟩ := List.mem_map.1 ho
      refine ⟨gs.mat _ hp', fun q hq => ?_⟩
      simp only [Rhs.reads, List.mem_cons, List.not_mem_nil, or_false] at hq
      rcases hq with rfl | rfl
      · exact gs.mat _ hp'
      · exact got_next hs'.ext _
  | math r t =>
    exact (g0.emit (r := r.rhs (get t).ops) fun q hq => by rw [red_reads] at hq; exact .inl (hv t (by simp [Kind.kids]) q hq)).withMat
      (m := ⟨[1], [1], [s.heap.next]⟩) fun q hq => by rw [List.mem_singleton.1 hq]; exact got_next (ext_refl _) _
  | dimMath r d t =>
    show EndsIn _ (Fin.dimMath r d (get t) s)
    unfold Fin.dimMath
    split
    · exact g0
    · dsimp only
      split
      · refine emitLoop_good h0P _ _ _ (g1 _ _) (fun i r' e q hq => ?_) (nil _)
        revert e
        generalize hsl : Mat.slice _ _ _ = sl
        intro e
        cases sl with
        | ok args => cases e; rw [red_reads] at hq; exact .inl (hv t (by simp [Kind.kids]) q (slice_mem hsl hq))
        | err _ => cases e
        | panic => cases e
      · exact g0
      · trivial
  | dot dims a b =>
    show EndsIn _ (Fin.dot dims (get a) (get b) s)
    unfold Fin.dot
    split
    · exact g0
    · dsimp only
      split
      · split
        · exact g0
        · split
          · unfold Fin.dotVector
            split
            · exact g0
            · refine EndsIn.bind (emitLoop_good h0P _ _ _ g0 (fun i r e q hq => .inl (two a b (fun x y => .mul x y) i r (by simp [Kind.kids]) (by simp [Kind.kids]) (fun _ _ => rfl) e q hq)) (nil _)) (fun _ h => h) fun _ s' hs' => ?_
              exact (hs'.emit (r := .sum s'.mat.ops) fun q hq => hs'.mat q hq).withMat (m := ⟨[1], [1], [s'.heap.next]⟩) fun q hq => by
                rw [List.mem_singleton.1 hq]; exact got_next hs'.ext _
          · refine dotRows_good _ _ (hv a (by simp [Kind.kids])) (hv b (by simp [Kind.kids])) _ _ _ _ _ _ ?_
            exact ((g0.withHeap (ext_zeros _ s.heap)).withMat fun q hq => zeros_got (ext_refl _) _ q hq)
      · trivial
  | concat d a b =>
    show EndsIn _ (Fin.concat d (get a) (get b) s)
    unfold Fin.concat
    dsimp only
    split
    · exact g0
    · split
      · exact g0
      · split
        · refine pickLoop_good h0P (fun i h p h' e => ?_) _ _ _ (g1 _ _) (nil _)
          obtain ⟨_, _, e⟩ := res_bind_ok e
          refine map_got e fun hr => ?_
          unfold Mat.concatPick at hr
          split at hr
          · cases hr
          · split at hr
            · exact hv a (by simp [Kind.kids]) p (operand_mem hr)
            · exact hv b (by simp [Kind.kids]) p (operand_mem hr)
        · trivial
  | sub d st en g t =>
    show EndsIn _ (Fin.sub d st en g (get t) s)
    unfold Fin.sub
    split
    · exact g0
    · split
      · exact g0
      · split
        · exact g0
        · split
          · exact g0
          · refine pickLoop_good h0P (fun i h p h' e => ?_) _ _ _ (g1 _ _) (nil _)
            obtain ⟨_, _, e⟩ := res_bind_ok e
            obtain ⟨_, _, e⟩ := res_bind_ok e
            split at e
            · simp only [Res.ok.injEq, Prod.mk.injEq] at e
              rw [← e.2, ← e.1]
              exact ⟨ext_alloc h _, .inr ⟨le_refl _, by simp [Heap.alloc]⟩⟩
            · exact map_got e fun hr => hv t (by simp [Kind.kids]) p (operand_mem hr)
  | reshape t =>
    refine ((g0.withHeap (ext_zeros _ s.heap)).withMat fun q hq => ?_)
    rcases List.mem_append.1 hq with hq | hq
    · exact .inl (hv t (by simp [Kind.kids]) q (List.mem_of_mem_take hq))
    · exact zeros_got (ext_refl _) _ q hq
  | transpose t =>
    refine pickLoop_good h0P (fun i h p h' e => ?_) _ _ _ (g1 _ _) (nil _)
    obtain ⟨_, _, e⟩ := res_bind_ok e
    exact map_got e fun hr => hv t (by simp [Kind.kids]) p (operand_mem hr)
  | fill t v =>
    have ht : ∀ q ∈ (get t).ops, P q := hv t (by simp [Kind.kids])
    refine Good.many (s := { s with mat := get t }) (g0.withMat fun q hq => .inl (ht q hq)) fun o ho => ?_
    obtain ⟨p, hp', rfl⟩ := List.mem_map.1 ho
    exact ⟨.inl (ht _ hp'), fun q hq => by rw [List.mem_singleton.1 hq]; exact .inl (hp _ (by simp [ptrs]))⟩
  | copy f t =>
    show EndsIn _ (Fin.copy (get f) (get t) s)
    unfold Fin.copy
    split
    · exact g0
    · refine Good.many (s := { s with mat := get t }) (g0.withMat fun q hq => .inl (hv t (by simp [Kind.kids]) q hq)) fun o ho => ?_
      exact copyLoop_in (fun q hq => .inl (hv t (by simp [Kind.kids]) q hq)) (fun q hq => .inl (hv f (by simp [Kind.kids]) q hq)) o ho

end Side
end Godeep
