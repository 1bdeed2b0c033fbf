import Verif.Lemmas.JFF
/-
  `CompileBackPropagation` keeps everything a prediction uses.
-/
set_option linter.unusedSectionVars false

namespace Godeep
open Spec GoNum

variable {T : Type} [GoNum T] {α β : Type}

/-- a relation between the state before and after, whether an error is returned or not -/
def EndsIn {S : Type} (R : S → Prop) : Out S α → Prop
  | .ok _ s => R s
  | .err _ s => R s
  | .panic => True

theorem EndsIn.mono {S : Type} {R R' : S → Prop} {o : Out S α} (h : EndsIn R o) (hR : ∀ s, R s → R' s) : EndsIn R' o := by
  cases o with
  | ok _ s => exact hR s h
  | err _ s => exact hR s h
  | panic => trivial

theorem EndsIn.bind {S : Type} {R R' : S → Prop} {o : Out S α} {f : α → S → Out S β} (h : EndsIn R o) (he : ∀ s, R s → R' s)
    (hf : ∀ a s, R s → EndsIn R' (f a s)) : EndsIn R' (o.bind f) := by
  cases o with
  | ok a s => exact hf a s h
  | err _ s => exact he s h
  | panic => trivial

/-! ### the scalars -/

theorem ext_refl (h : Heap T) : Extends h h := ⟨le_refl _, fun _ _ => rfl⟩

theorem ext_trans {a b c : Heap T} (h1 : Extends a b) (h2 : Extends b c) : Extends a c :=
  ⟨le_trans h1.1 h2.1, fun p hp => by rw [h2.2 p (lt_of_lt_of_le hp h1.1), h1.2 p hp]⟩

theorem ext_alloc (h : Heap T) (v : T) : Extends h (h.alloc v).2 :=
  ⟨by simp [Heap.alloc], fun p hp => by simp only [Heap.alloc]; rw [if_neg (by omega)]⟩

/-- old scalars are as they were -/
def FK (h : Heap T) (s : FSt T) : Prop := Extends h s.heap

theorem emitLoop_keeps {f : Nat → Res (Rhs T)} (h : Heap T) (l : List Nat) (acc : List Ptr) (s : FSt T) (hs : FK h s) :
    EndsIn (FK h) (FSt.emitLoop f l acc s) := by
  induction l generalizing acc s with
  | nil => exact hs
  | cons i l ih =>
    unfold FSt.emitLoop
    cases f i with
    | ok r => exact ih _ _ (ext_trans hs (ext_alloc _ _))
    | err e => exact hs
    | panic => trivial

theorem pickLoop_keeps {f : Nat → Heap T → Res (Ptr × Heap T)} (hf : ∀ i h p h', f i h = .ok (p, h') → Extends h h') (h : Heap T)
    (l : List Nat) (acc : List Ptr) (s : FSt T) (hs : FK h s) : EndsIn (FK h) (FSt.pickLoop f l acc s) := by
  induction l generalizing acc s with
  | nil => exact hs
  | cons i l ih =>
    unfold FSt.pickLoop
    cases e : f i s.heap with
    | ok r => exact ih _ _ (ext_trans hs (hf i _ _ _ e))
    | err e => exact hs
    | panic => trivial

theorem dotRow_keeps (h : Heap T) (a b : Mat) (da db : Nat) (ia ib : List Nat) (l : List Nat) (acc : List Ptr) (s : FSt T) (hs : FK h s) :
    EndsIn (FK h) (Fin.dotRow a b da db ia ib l acc s) := by
  induction l generalizing acc s with
  | nil => exact hs
  | cons i l ih =>
    unfold Fin.dotRow
    cases a.getOperand (ia.set da i) with
    | err e => exact hs
    | panic => trivial
    | ok x =>
      cases b.getOperand (ib.set db i) with
      | err e => exact hs
      | panic => trivial
      | ok y => exact ih _ _ (ext_trans hs (ext_alloc _ _))

theorem dotRows_keeps (h : Heap T) (a b : Mat) (n da db dim : Nat) (l : List Nat) (s : FSt T) (hs : FK h s) :
    EndsIn (FK h) (Fin.dotRows a b n da db dim l s) := by
  induction l generalizing s with
  | nil => exact hs
  | cons i l ih =>
    unfold Fin.dotRows
    cases (reverseIndex s.mat.mul s.mat.shape i).bind fun idx => (Res.index s.mat.ops i).map fun cell => (idx, cell) with
    | ok p =>
      refine (dotRow_keeps h a b da db _ _ _ _ s hs).bind (fun _ h => h) fun args s' hs' => ih _ ?_
      cases args <;> exact hs'
    | err e => exact hs
    | panic => trivial

theorem ext_zeros (n : Nat) (h : Heap T) : Extends h (Fin.zeros n h).2 := by
  rw [zeros_eq]; exact extends_allocZ n h

theorem map_pick {r : Res Ptr} {h h' : Heap T} {p : Ptr} (e : (r.map fun p => (p, h)) = .ok (p, h')) : Extends h h' := by
  cases r with
  | ok x => simp only [Res.map_ok, Res.ok.injEq, Prod.mk.injEq] at e; rw [← e.2]; exact ext_refl _
  | err _ => cases e
  | panic => cases e

theorem run_keeps (get : Nat → Mat) (k : Kind T) (s : FSt T) : EndsIn (FK s.heap) (Fin.run get k s) := by
  have r0 : ∀ {m : Mat} {c : List (Op T)}, FK s.heap { s with mat := m, ctx := c } := ext_refl _
  cases k with
  | leaf => exact r0
  | op2 o a b =>
    show EndsIn _ (Fin.op2 o (get a) (get b) s)
    unfold Fin.op2
    split
    · exact ext_refl s.heap
    · exact emitLoop_keeps _ _ _ _ r0
  | opScalar o t p => exact emitLoop_keeps _ _ _ _ r0
  | neg t => exact emitLoop_keeps _ _ _ _ r0
  | abs t => exact emitLoop_keeps _ _ _ _ r0
  | act f t => exact emitLoop_keeps _ _ _ _ r0
  | softMax t =>
    show EndsIn _ (Fin.softMax (get t) s)
    unfold Fin.softMax
    refine EndsIn.bind (emitLoop_keeps s.heap _ _ _ (ext_alloc s.heap _)) (fun _ h => h) fun _ s' hs' => ?_
    exact ext_trans hs' (ext_alloc _ _)
  | math r t => exact ext_alloc s.heap _
  | dimMath r d t =>
    show EndsIn _ (Fin.dimMath r d (get t) s)
    unfold Fin.dimMath
    split
    · exact ext_refl s.heap
    · dsimp only
      split
      · exact emitLoop_keeps _ _ _ _ r0
      · exact ext_refl s.heap
      · trivial
  | dot dims a b =>
    show EndsIn _ (Fin.dot dims (get a) (get b) s)
    unfold Fin.dot
    split
    · exact ext_refl s.heap
    · dsimp only
      split
      · split
        · exact ext_refl s.heap
        · split
          · unfold Fin.dotVector
            split
            · exact ext_refl s.heap
            · refine EndsIn.bind (emitLoop_keeps s.heap _ _ _ (ext_refl s.heap)) (fun _ h => h) fun _ s' hs' => ?_
              exact ext_trans hs' (ext_alloc _ _)
          · exact dotRows_keeps s.heap _ _ _ _ _ _ _ _ (ext_zeros _ s.heap)
      · trivial
  | concat d a b =>
    show EndsIn _ (Fin.concat d (get a) (get b) s)
    unfold Fin.concat
    dsimp only
    split
    · exact ext_refl s.heap
    · split
      · exact ext_refl s.heap
      · split
        · refine pickLoop_keeps (fun i h p h' e => ?_) s.heap _ _ _ r0
          obtain ⟨_, _, e⟩ := res_bind_ok e
          exact map_pick e
        · trivial
  | sub d st en g t =>
    show EndsIn _ (Fin.sub d st en g (get t) s)
    unfold Fin.sub
    split
    · exact ext_refl s.heap
    · split
      · exact ext_refl s.heap
      · split
        · exact ext_refl s.heap
        · split
          · exact ext_refl s.heap
          · refine pickLoop_keeps (fun i h p h' e => ?_) s.heap _ _ _ r0
            obtain ⟨_, _, e⟩ := res_bind_ok e
            obtain ⟨_, _, e⟩ := res_bind_ok e
            split at e
            · simp only [Res.ok.injEq, Prod.mk.injEq] at e
              rw [← e.2]; exact ext_alloc h _
            · exact map_pick e
  | reshape t => exact ext_zeros _ s.heap
  | transpose t =>
    refine pickLoop_keeps (fun i h p h' e => ?_) s.heap _ _ _ r0
    obtain ⟨_, _, e⟩ := res_bind_ok e
    exact map_pick e
  | fill t v => exact r0
  | copy f t =>
    show EndsIn _ (Fin.copy (get f) (get t) s)
    unfold Fin.copy
    split
    · exact ext_refl s.heap
    · exact r0

/-! ### the tensors -/

/-- built tensors and plain tensors are kept -/
structure SKept (s s' : Store T) : Prop where
  heap : Extends s.heap s'.heap
  kind : ∀ n, (s'.nodes n).kind = (s.nodes n).kind
  frozen : ∀ n, Spec.frozen s n → Spec.frozen s' n ∧ (s'.nodes n).mat = (s.nodes n).mat

theorem SKept.refl (s : Store T) : SKept s s := ⟨ext_refl _, fun _ => rfl, fun _ h => ⟨h, rfl⟩⟩

theorem SKept.trans {a b c : Store T} (h1 : SKept a b) (h2 : SKept b c) : SKept a c := by
  refine ⟨ext_trans h1.heap h2.heap, fun n => by rw [h2.kind, h1.kind], fun n h => ?_⟩
  obtain ⟨x1, x2⟩ := h1.frozen n h
  obtain ⟨y1, y2⟩ := h2.frozen n x1
  exact ⟨y1, by rw [y2, x2]⟩

/-- the same, except for tensor `k` -/
structure SKept1 (k : Nat) (s s' : Store T) : Prop where
  heap : Extends s.heap s'.heap
  kind : ∀ n, (s'.nodes n).kind = (s.nodes n).kind
  frozen : ∀ n, n ≠ k → Spec.frozen s n → Spec.frozen s' n ∧ (s'.nodes n).mat = (s.nodes n).mat

theorem SKept1.trans {k : Nat} {a b c : Store T} (h1 : SKept1 k a b) (h2 : SKept1 k b c) : SKept1 k a c := by
  refine ⟨ext_trans h1.heap h2.heap, fun n => by rw [h2.kind, h1.kind], fun n hn h => ?_⟩
  obtain ⟨x1, x2⟩ := h1.frozen n hn h
  obtain ⟨y1, y2⟩ := h2.frozen n hn x1
  exact ⟨y1, by rw [y2, x2]⟩

theorem SKept.one {k : Nat} {a b : Store T} (h : SKept a b) : SKept1 k a b := ⟨h.heap, h.kind, fun n _ => h.frozen n⟩

theorem finish_keeps (n : Nat) (s : Store T) : EndsIn (SKept1 n s) (Store.finish n s) := by
  have H := run_keeps (fun m => (s.nodes m).mat) (s.nodes n).kind ⟨s.heap, s.ctx, (s.nodes n).mat⟩
  have P : ∀ f : FSt T, FK s.heap f → SKept1 n s { (s.setNode n { s.nodes n with mat := f.mat }) with heap := f.heap, ctx := f.ctx } := by
    intro f hf
    refine ⟨hf, fun k => ?_, fun k hk hz => ?_⟩
    · simp only [Store.setNode]
      split
      · next h => rw [h]
      · rfl
    · simp only [Store.setNode, Spec.frozen, if_neg hk] at *
      exact ⟨hz, trivial⟩
  unfold Store.finish
  dsimp only
  cases e : Fin.run (fun m => (s.nodes m).mat) (s.nodes n).kind ⟨s.heap, s.ctx, (s.nodes n).mat⟩ with
  | ok _ f => rw [e] at H; exact P f H
  | err _ f => rw [e] at H; exact P f H
  | panic => trivial

theorem build_keeps (fuel n : Nat) (s : Store T) : EndsIn (SKept s) (Store.build fuel n s) := by
  induction fuel generalizing n s with
  | zero => trivial
  | succ fuel ih =>
    unfold Store.build
    split
    · exact SKept.refl s
    · next hb =>
      have each : ∀ (l : List Nat) (s0 : Store T), EndsIn (SKept s0) (Store.each (fun c s => Store.build fuel c s) l s0) := by
        intro l
        induction l with
        | nil => exact fun s0 => SKept.refl s0
        | cons c l ihl =>
          intro s0
          unfold Store.each
          refine EndsIn.bind (ih c s0) (fun _ h => h) fun _ s1 h1 => (ihl s1).mono fun s2 h2 => h1.trans h2
      by_cases hl : (s.nodes n).kind = .leaf
      · -- a plain tensor
        rw [hl]
        show EndsIn (SKept s) (Store.finish n (s.setNode n { s.nodes n with built := true }))
        unfold Store.finish
        have e1 : (s.setNode n { s.nodes n with built := true }).nodes n = { s.nodes n with built := true } := by simp [Store.setNode]
        dsimp only
        rw [e1]
        dsimp only
        rw [hl]
        refine ⟨ext_refl s.heap, fun k => ?_, fun k hz => ?_⟩
        · simp only [Store.setNode]
          split
          · next h => rw [h, hl]
          · rfl
        · simp only [Store.setNode, Spec.frozen] at *
          split
          · next h => exact ⟨Or.inl rfl, by rw [h]⟩
          · exact ⟨hz, rfl⟩
      · have S1 : SKept1 n s (s.setNode n { s.nodes n with built := true }) := by
          refine ⟨ext_refl _, fun k => ?_, fun k hk hz => ?_⟩
          · simp only [Store.setNode]
            split
            · next h => rw [h]
            · rfl
          · simp only [Store.setNode, Spec.frozen, if_neg hk] at *
            exact ⟨hz, trivial⟩
        have fin : ∀ s', SKept1 n s s' → SKept s s' := fun s' h => by
          refine ⟨h.heap, h.kind, fun k hz => ?_⟩
          by_cases hk : k = n
          · subst hk
            rcases hz with hz | hz
            · exact absurd hz hb
            · exfalso
              revert hz hl
              cases (s.nodes k).kind <;> simp
          · exact h.frozen k hk hz
        refine EndsIn.bind (each _ _) (fun s' h => fin s' (S1.trans h.one)) fun _ s' h => ?_
        exact (finish_keeps n s').mono fun s2 h2 => fin s2 (S1.trans (h.one.trans h2))

/-! ### the world -/

/-- the fields of a layer that feed-forward uses -/
def _root_.Godeep.Layer.forBP (x : Layer T) : Layer T :=
  { x with der := none, nWeights := none, mWeights := none, nBias := none, mBias := none, bp := false }

/-- the fields of a model that predictions use -/
def _root_.Godeep.Net.forBP (x : Net T) : Net T :=
  { x with target := none, loss := 0, calDif := none, bp := none, resetFit := none, alpha := 0, momentum := 0 }

/-- everything a prediction uses is as it was -/
structure PredKept (w w' : World T) : Prop where
  next : w.store.heap.next ≤ w'.store.heap.next
  val : ∀ q, q < w.store.heap.next → w'.store.heap.val q = w.store.heap.val q
  nodeNext : w.nodeNext ≤ w'.nodeNext
  kind : ∀ n, n < w.nodeNext → (w'.store.nodes n).kind = (w.store.nodes n).kind
  frozen : ∀ n, n < w.nodeNext → Spec.frozen w.store n →
    Spec.frozen w'.store n ∧ (w'.store.nodes n).mat = (w.store.nodes n).mat
  layers : ∀ l, (w'.layers l).forBP = (w.layers l).forBP
  nets : ∀ m, (w'.nets m).forBP = (w.nets m).forBP
  layerNext : w'.layerNext = w.layerNext
  netNext : w'.netNext = w.netNext

theorem PredKept.refl (w : World T) : PredKept w w :=
  ⟨le_refl _, fun _ _ => rfl, le_refl _, fun _ _ => rfl, fun _ _ h => ⟨h, rfl⟩, fun _ => rfl, fun _ => rfl, rfl, rfl⟩

theorem PredKept.trans {a b c : World T} (h1 : PredKept a b) (h2 : PredKept b c) : PredKept a c := by
  refine ⟨le_trans h1.next h2.next, fun q hq => by rw [h2.val q (lt_of_lt_of_le hq h1.next), h1.val q hq], le_trans h1.nodeNext h2.nodeNext,
    fun n hn => by rw [h2.kind n (lt_of_lt_of_le hn h1.nodeNext), h1.kind n hn], fun n hn hz => ?_, fun l => by rw [h2.layers, h1.layers],
    fun l => by rw [h2.nets, h1.nets], by rw [h2.layerNext, h1.layerNext], by rw [h2.netNext, h1.netNext]⟩
  obtain ⟨x1, x2⟩ := h1.frozen n hn hz
  obtain ⟨y1, y2⟩ := h2.frozen n (lt_of_lt_of_le hn h1.nodeNext) x1
  exact ⟨y1, by rw [y2, x2]⟩

theorem PredKept.ext {w w' : World T} (h : PredKept w w') : Ext w w' := ⟨h.next, h.nodeNext, h.kind, h.frozen⟩

theorem kept_store {w : World T} {s : Store T} (h : SKept w.store s) : PredKept w { w with store := s } :=
  ⟨h.heap.1, h.heap.2, le_refl _, fun n _ => h.kind n, fun n _ => h.frozen n, fun _ => rfl, fun _ => rfl, rfl, rfl⟩

/-- the program keeps everything a prediction uses -/
def Keeps (a : Run T α) : Prop := ∀ w, EndsIn (PredKept w) (a w)

theorem Keeps.pure (x : α) : Keeps (Pure.pure x : Run T α) := fun w => PredKept.refl w

theorem Keeps.bind {a : Run T α} {f : α → Run T β} (h : Keeps a) (hf : ∀ x, Keeps (f x)) : Keeps (a >>= f) := by
  intro w
  exact EndsIn.bind (h w) (fun _ h => h) fun x w' h' => (hf x w').mono fun _ h'' => h'.trans h''

theorem Keeps.each {ι : Type} {l : List ι} {f : ι → Run T Unit} (h : ∀ i, Keeps (f i)) : Keeps (Run.each l f) := by
  induction l with
  | nil => exact Keeps.pure ()
  | cons i l ih => exact Keeps.bind (h i) fun _ => ih

theorem Keeps.collect {ι : Type} {l : List ι} {f : ι → Run T α} (h : ∀ i, Keeps (f i)) : Keeps (Run.collect l f) := by
  induction l with
  | nil => exact Keeps.pure []
  | cons i l ih => exact Keeps.bind (h i) fun a => Keeps.bind ih fun as => Keeps.pure (a :: as)

theorem Keeps.foldlM {ι : Type} {l : List ι} {f : β → ι → Run T β} (h : ∀ b i, Keeps (f b i)) (b : β) : Keeps (l.foldlM f b) := by
  induction l generalizing b with
  | nil => exact Keeps.pure b
  | cons i l ih => exact Keeps.bind (h b i) fun b' => ih b'

theorem Keeps.layer (l : Nat) : Keeps (Run.layer l : Run T (Layer T)) := fun w => PredKept.refl w
theorem Keeps.net (l : Nat) : Keeps (Run.net l : Run T (Net T)) := fun w => PredKept.refl w
theorem Keeps.mat (l : Nat) : Keeps (Run.mat l : Run T Mat) := fun w => PredKept.refl w
theorem Keeps.fuel : Keeps (Run.fuel : Run T Nat) := fun w => PredKept.refl w
theorem Keeps.ops : Keeps (Run.ops : Run T (List (Op T))) := fun w => PredKept.refl w
theorem Keeps.abort : Keeps (Run.abort : Run T α) := fun _ => trivial
theorem Keeps.fail (e : Err) : Keeps (Run.fail e : Run T α) := fun w => PredKept.refl w

theorem Keeps.lift (r : Res α) : Keeps (Run.lift r : Run T α) := fun w => by
  cases r with
  | ok _ => exact PredKept.refl w
  | err _ => exact PredKept.refl w
  | panic => trivial

theorem Keeps.value (p : Ptr) : Keeps (Run.value p : Run T T) := fun w => by
  unfold Run.value
  cases w.store.heap.load p with
  | ok _ => exact PredKept.refl w
  | err _ => exact PredKept.refl w
  | panic => trivial

theorem Keeps.deref (o : Option α) : Keeps (Run.deref o : Run T α) := by
  cases o with
  | none => exact Keeps.abort
  | some a => exact Keeps.pure a

theorem Keeps.modify {l : Nat} {f : Layer T → Layer T} (h : ∀ x, (f x).forBP = x.forBP) : Keeps (Run.modify l f) := fun w => by
  refine ⟨le_refl _, fun _ _ => rfl, le_refl _, fun _ _ => rfl, fun _ _ h => ⟨h, rfl⟩, fun k => ?_, fun _ => rfl, rfl, rfl⟩
  show (if k = l then f (w.layers k) else w.layers k).forBP = _
  split
  · exact h _
  · rfl

theorem Keeps.modifyNet {l : Nat} {f : Net T → Net T} (h : ∀ x, (f x).forBP = x.forBP) : Keeps (Run.modifyNet l f) := fun w => by
  refine ⟨le_refl _, fun _ _ => rfl, le_refl _, fun _ _ => rfl, fun _ _ h => ⟨h, rfl⟩, fun _ => rfl, fun k => ?_, rfl, rfl⟩
  show (if k = l then f (w.nets k) else w.nets k).forBP = _
  split
  · exact h _
  · rfl

theorem Keeps.push (o : Op T) : Keeps (Run.push o) := fun _ => kept_store ⟨ext_refl _, fun _ => rfl, fun _ h => ⟨h, rfl⟩⟩
theorem Keeps.newCtx : Keeps (Run.newCtx : Run T Unit) := fun _ => kept_store ⟨ext_refl _, fun _ => rfl, fun _ h => ⟨h, rfl⟩⟩

theorem Keeps.scalar (v : T) : Keeps (Run.scalar v) := fun _ => kept_store ⟨ext_alloc _ _, fun _ => rfl, fun _ h => ⟨h, rfl⟩⟩

theorem Keeps.newNode (x : Node T) : Keeps (Run.newNode x) := fun w => by
  refine ⟨le_refl _, fun _ _ => rfl, Nat.le_succ _, fun n hn => ?_, fun n hn hz => ?_, fun _ => rfl, fun _ => rfl, rfl, rfl⟩
  · show (if n = w.nodeNext then x else w.store.nodes n).kind = _
    rw [if_neg (by omega)]
  · have e : (w.store.setNode w.nodeNext x).nodes n = w.store.nodes n := by simp only [Store.setNode]; rw [if_neg (by omega)]
    unfold Spec.frozen at *
    rw [e]
    exact ⟨hz, rfl⟩

theorem allocEach_keeps {ι : Type} {f : ι → Heap T → Res T} (l : List ι) (h0 h : Heap T) (hh : Extends h0 h) :
    EndsIn (Extends h0) (Heap.allocEach f l h) := by
  induction l generalizing h with
  | nil => exact hh
  | cons i l ih =>
    unfold Heap.allocEach
    cases f i h with
    | ok v =>
      have := ih (h.alloc v).2 (ext_trans hh (ext_alloc _ _))
      dsimp only
      cases e : Heap.allocEach f l (h.alloc v).2 with
      | ok _ _ => rw [e] at this; exact this
      | err _ _ => rw [e] at this; exact this
      | panic => trivial
    | err e => exact hh
    | panic => trivial

theorem Keeps.zeros (shape : List Nat) : Keeps (Run.zeros shape : Run T Nat) := by
  refine Keeps.bind (fun w => ?_) fun m => Keeps.newNode _
  have H := allocEach_keeps (f := fun (_ : Nat) (_ : Heap T) => Res.ok (zero : T)) (List.range (dataSize shape)) w.store.heap w.store.heap (ext_refl _)
  unfold Run.heap Mat.newZeros
  cases e : Heap.allocEach (fun (_ : Nat) (_ : Heap T) => Res.ok (zero : T)) (List.range (dataSize shape)) w.store.heap with
  | ok a h => rw [e] at H; exact kept_store ⟨H, fun _ => rfl, fun _ h => ⟨h, rfl⟩⟩
  | err a h => rw [e] at H; exact kept_store ⟨H, fun _ => rfl, fun _ h => ⟨h, rfl⟩⟩
  | panic => trivial

theorem Keeps.lazy (k : Kind T) : Keeps (Run.lazy k) := Keeps.newNode _
theorem Keeps.flatten (t : Nat) : Keeps (Run.flatten t : Run T Nat) := Keeps.bind (Keeps.mat t) fun _ => Keeps.newNode _

theorem Keeps.buildGraph (n : Nat) : Keeps (Run.buildGraph n : Run T Unit) := fun w => by
  have H := build_keeps (n + 1) n w.store
  unfold Run.buildGraph Run.store
  cases e : Store.build (n + 1) n w.store with
  | ok _ s => rw [e] at H; exact kept_store H
  | err _ s => rw [e] at H; exact kept_store H
  | panic => trivial

theorem Keeps.transfer (f t : Nat) : Keeps (Run.transfer f t : Run T Unit) := Keeps.bind (Keeps.lazy _) fun n => Keeps.buildGraph n
theorem Keeps.fill (t : Nat) (v : Ptr) : Keeps (Run.fill t v : Run T Unit) := Keeps.bind (Keeps.lazy _) fun n => Keeps.buildGraph n
theorem Keeps.operand (n : Nat) (idx : List Nat) : Keeps (Run.operand n idx : Run T Ptr) := Keeps.bind (Keeps.mat n) fun _ => Keeps.lift _
theorem Keeps.operandAt (n i : Nat) : Keeps (Run.operandAt n i : Run T Ptr) := Keeps.bind (Keeps.mat n) fun _ => Keeps.lift _
theorem Keeps.emit (r : Rhs T) : Keeps (Run.emit r) := Keeps.bind (Keeps.scalar _) fun o => Keeps.bind (Keeps.push _) fun _ => Keeps.pure o

theorem Keeps.delegated (field : Layer T → Option Nat) (f l : Nat) : Keeps (LayerM.delegated field f l) := by
  induction f generalizing l with
  | zero => exact Keeps.abort
  | succ f ih =>
    unfold LayerM.delegated
    refine Keeps.bind (Keeps.layer l) fun x => ?_
    split
    · exact ih _
    · exact Keeps.pure _

theorem Keeps.getDif (f l : Nat) : Keeps (LayerM.getDif f l : Run T _) := Keeps.delegated _ f l

theorem Keeps.ite {c : Prop} [Decidable c] {a b : Run T α} (ha : Keeps a) (hb : Keeps b) : Keeps (if c then a else b) := by
  split
  · exact ha
  · exact hb

/-- one step of a proof that a program keeps what predictions use -/
macro "keep1" : tactic => `(tactic| first
  | with_reducible exact Keeps.layer _
  | with_reducible exact Keeps.net _
  | with_reducible exact Keeps.mat _
  | with_reducible exact Keeps.fuel
  | with_reducible exact Keeps.ops
  | with_reducible exact Keeps.abort
  | with_reducible exact Keeps.fail _
  | with_reducible exact Keeps.lift _
  | with_reducible exact Keeps.value _
  | with_reducible exact Keeps.deref _
  | with_reducible exact Keeps.push _
  | with_reducible exact Keeps.newCtx
  | with_reducible exact Keeps.scalar _
  | with_reducible exact Keeps.zeros _
  | with_reducible exact Keeps.lazy _
  | with_reducible exact Keeps.flatten _
  | with_reducible exact Keeps.buildGraph _
  | with_reducible exact Keeps.transfer _ _
  | with_reducible exact Keeps.fill _ _
  | with_reducible exact Keeps.operand _ _
  | with_reducible exact Keeps.operandAt _ _
  | with_reducible exact Keeps.emit _
  | with_reducible exact Keeps.getDif _ _
  | with_reducible exact Keeps.pure _
  | (with_reducible refine Keeps.modify ?_); intro _; rfl
  | (with_reducible refine Keeps.modifyNet ?_); intro _; rfl
  | with_reducible refine Keeps.bind ?_ fun _ => ?_
  | with_reducible refine Keeps.each fun _ => ?_
  | with_reducible refine Keeps.collect fun _ => ?_
  | with_reducible refine Keeps.foldlM (fun _ _ => ?_) _
  | with_reducible refine Keeps.ite ?_ ?_)

macro "keep" : tactic => `(tactic| repeat' keep1)

theorem keeps_scaledDif (x : Layer T) : Keeps (LayerM.scaledDif x) := by unfold LayerM.scaledDif; keep

theorem keeps_baseDer (l : Nat) : Keeps (LayerM.baseDer l : Run T Nat) := by unfold LayerM.baseDer; keep

theorem keeps_maxPoolDer {rec : Nat → Run T Nat} (h : ∀ p, Keeps (rec p)) (sx sy l : Nat) : Keeps (LayerM.maxPoolDer rec sx sy l) := by
  unfold LayerM.maxPoolDer
  repeat' (first | exact h _ | keep1)

theorem keeps_upSamplingDer {rec : Nat → Run T Nat} (h : ∀ p, Keeps (rec p)) (sx sy l : Nat) : Keeps (LayerM.upSamplingDer rec sx sy l) := by
  unfold LayerM.upSamplingDer
  repeat' (first | exact h _ | keep1)

theorem keeps_buildDer (f l : Nat) : Keeps (LayerM.buildDer f l : Run T Nat) := by
  induction f generalizing l with
  | zero => exact Keeps.abort
  | succ f ih =>
    unfold LayerM.buildDer
    refine Keeps.bind (Keeps.layer l) fun x => ?_
    split
    · exact ih _
    · split
      · exact Keeps.pure _
      · split
        all_goals first
          | exact keeps_maxPoolDer ih _ _ _
          | exact keeps_upSamplingDer ih _ _ _
          | exact keeps_baseDer _
          | repeat' (first | exact ih _ | keep1)

theorem keeps_densePre (dif w der pdif o i : Nat) : Keeps (LayerM.densePre dif w der pdif o i : Run T Unit) := by
  unfold LayerM.densePre; keep

theorem keeps_denseUpdate (dif w b nw mw nb mb inp : Nat) (a m : Ptr) (n i : Nat) :
    Keeps (LayerM.denseUpdate dif w b nw mw nb mb inp a m n i : Run T Unit) := by
  unfold LayerM.denseUpdate; keep

theorem keeps_convPre (kw sx sy : Nat) (si so : List Nat) (dif w der pdif : Nat) :
    Keeps (LayerM.convPre kw sx sy si so dif w der pdif : Run T Unit) := by
  unfold LayerM.convPre; keep

theorem keeps_convBias (l : Nat) (x : Layer T) (b mb mw : Nat) (a m : Ptr) : Keeps (LayerM.convBias l x b mb mw a m) := by
  unfold LayerM.convBias; keep

theorem keeps_convUpdate (kw kh sy : Nat) (si so : List Nat) (inp dif w wm nw : Nat) :
    Keeps (LayerM.convUpdate kw kh sy si so inp dif w wm nw : Run T Unit) := by
  unfold LayerM.convUpdate; keep

theorem keeps_deconvPre (kw kh sx sy : Nat) (si so : List Nat) (dif w der pdif : Nat) :
    Keeps (LayerM.deconvPre kw kh sx sy si so dif w der pdif : Run T Unit) := by
  unfold LayerM.deconvPre; keep

theorem keeps_deconvUpdate (kw kh sx sy : Nat) (si so : List Nat) (inp dif w wm nw : Nat) :
    Keeps (LayerM.deconvUpdate kw kh sx sy si so inp dif w wm nw : Run T Unit) := by
  unfold LayerM.deconvUpdate; keep

macro "keepBP" : tactic => `(tactic| repeat' (first
  | with_reducible exact keeps_scaledDif _
  | with_reducible exact keeps_buildDer _ _
  | with_reducible exact keeps_densePre _ _ _ _ _ _
  | with_reducible exact keeps_denseUpdate _ _ _ _ _ _ _ _ _ _ _ _
  | with_reducible exact keeps_convPre _ _ _ _ _ _ _ _ _
  | with_reducible exact keeps_convBias _ _ _ _ _ _ _
  | with_reducible exact keeps_convUpdate _ _ _ _ _ _ _ _ _ _
  | with_reducible exact keeps_deconvPre _ _ _ _ _ _ _ _ _ _
  | with_reducible exact keeps_deconvUpdate _ _ _ _ _ _ _ _ _ _ _
  | keep1 | split))

theorem keeps_denseBP (f l : Nat) (a m : Ptr) : Keeps (LayerM.denseBP f l a m : Run T Unit) := by unfold LayerM.denseBP; keepBP
theorem keeps_flattenBP (f l : Nat) : Keeps (LayerM.flattenBP f l : Run T Unit) := by unfold LayerM.flattenBP; keepBP
theorem keeps_softMaxBP (l : Nat) : Keeps (LayerM.softMaxBP l : Run T Unit) := by unfold LayerM.softMaxBP; keepBP
theorem keeps_normBP (mn mx : T) (f l : Nat) : Keeps (LayerM.normBP mn mx f l : Run T Unit) := by unfold LayerM.normBP; keepBP
theorem keeps_subBP (d s e f l : Nat) : Keeps (LayerM.subBP d s e f l : Run T Unit) := by unfold LayerM.subBP; keepBP
theorem keeps_concatBP (l : Nat) : Keeps (LayerM.concatBP l : Run T Unit) := by unfold LayerM.concatBP; keepBP
theorem keeps_convBP (kw kh sx sy f l : Nat) (a m : Ptr) : Keeps (LayerM.convBP kw kh sx sy f l a m : Run T Unit) := by
  unfold LayerM.convBP; keepBP
theorem keeps_deconvBP (kw kh sx sy f l : Nat) (a m : Ptr) : Keeps (LayerM.deconvBP kw kh sx sy f l a m : Run T Unit) := by
  unfold LayerM.deconvBP; keepBP
theorem keeps_maxPoolBP (sx sy f l : Nat) : Keeps (LayerM.maxPoolBP sx sy f l : Run T Unit) := by unfold LayerM.maxPoolBP; keepBP
theorem keeps_upSamplingBP (sx sy f l : Nat) : Keeps (LayerM.upSamplingBP sx sy f l : Run T Unit) := by unfold LayerM.upSamplingBP; keepBP

theorem keeps_backProp (a m : Ptr) (f l : Nat) : Keeps (LayerM.backProp a m f l : Run T Unit) := by
  induction f generalizing l with
  | zero => exact Keeps.abort
  | succ f ih =>
    unfold LayerM.backProp
    refine Keeps.bind (Keeps.layer l) fun x => Keeps.ite (Keeps.pure _) (Keeps.bind (Keeps.value _) fun v => Keeps.ite (Keeps.pure _)
      (Keeps.bind (Keeps.modify fun _ => rfl) fun _ => ?_))
    split <;> dsimp only <;> split <;> repeat' (first
      | with_reducible exact ih _
      | with_reducible exact keeps_denseBP _ _ _ _
      | with_reducible exact keeps_flattenBP _ _
      | with_reducible exact keeps_softMaxBP _
      | with_reducible exact keeps_normBP _ _ _ _
      | with_reducible exact keeps_subBP _ _ _ _ _
      | with_reducible exact keeps_convBP _ _ _ _ _ _ _ _
      | with_reducible exact keeps_deconvBP _ _ _ _ _ _ _ _
      | with_reducible exact keeps_maxPoolBP _ _ _ _
      | with_reducible exact keeps_upSamplingBP _ _ _ _
      | with_reducible exact keeps_concatBP _
      | keep1)

theorem keeps_resetFit (f l : Nat) : Keeps (LayerM.resetFit f l : Run T Unit) := by
  induction f generalizing l with
  | zero => exact Keeps.abort
  | succ f ih =>
    unfold LayerM.resetFit
    refine Keeps.bind (Keeps.layer l) fun x => ?_
    repeat' (first | exact ih _ | keep1 | split)

theorem EndsIn.seq {w0 w : World T} {a : Run T α} {f : α → Run T β} (h : Keeps a) (hk : PredKept w0 w)
    (hf : ∀ x w', PredKept w0 w' → EndsIn (PredKept w0) (f x w')) : EndsIn (PredKept w0) ((a >>= f) w) :=
  EndsIn.bind ((h w).mono fun _ h' => hk.trans h') (fun _ h => h) hf

theorem EndsIn.known {w0 w w' : World T} {a : Run T α} {f : α → Run T β} {x : α} (h : a w = .ok x w')
    (hf : EndsIn (PredKept w0) (f x w')) : EndsIn (PredKept w0) ((a >>= f) w) := by
  show EndsIn _ ((a w).bind f)
  rw [h]; exact hf

theorem setBuild_kept {w : World T} {n : Nat} (h : (w.store.nodes n).kind = .leaf) (b : Bool) :
    PredKept w { w with store := w.store.setNode n { w.store.nodes n with built := b } } := by
  refine kept_store ⟨ext_refl _, fun k => ?_, fun k hz => ?_⟩
  · simp only [Store.setNode]
    split
    · next h => rw [h]
    · rfl
  · by_cases hk : k = n
    · subst hk
      refine ⟨Or.inr ?_, ?_⟩
      · simp [Store.setNode, h]
      · simp [Store.setNode]
    · have e : (w.store.setNode n { w.store.nodes n with built := b }).nodes k = w.store.nodes k := by
        simp only [Store.setNode]; rw [if_neg hk]
      unfold Spec.frozen at *
      rw [e]; exact ⟨hz, rfl⟩

theorem Keeps.buildMat (n : Nat) : Keeps (NetM.buildMat n : Run T Unit) := fun w => by
  unfold NetM.buildMat
  dsimp only
  split
  · exact PredKept.refl w
  · refine kept_store ⟨ext_refl _, fun k => ?_, fun k hz => ?_⟩
    · simp only [Store.setNode]
      split
      · next h => rw [h]
      · rfl
    · by_cases hk : k = n
      · subst hk
        exact ⟨Or.inl (by simp [Store.setNode]), by simp [Store.setNode]⟩
      · have e : (w.store.setNode n { w.store.nodes n with built := true }).nodes k = w.store.nodes k := by
          simp only [Store.setNode]; rw [if_neg hk]
        unfold Spec.frozen at *
        simp only [e]
        exact ⟨hz, trivial⟩

theorem Keeps.matNode (n : Nat) : Keeps (NetM.matNode n : Run T Nat) := fun w => Keeps.newNode _ w

theorem Keeps.ignoreErr {a : Run T Unit} (h : Keeps a) : Keeps (LayerM.ignoreErr a) := fun w => by
  have := h w
  unfold LayerM.ignoreErr
  cases e : a w with
  | ok _ w' => rw [e] at this; exact this
  | err _ w' => rw [e] at this; exact this
  | panic => trivial

theorem Keeps.calDif (d t o : Nat) : Keeps (NetM.calDif d t o : Run T Unit) := by unfold NetM.calDif; keep

/-- the world with an empty context -/
def clrW (w : World T) : World T := { w with store := { w.store with ctx := [] } }


/-- `CompileBackPropagation`, whether it returns an error or not -/
theorem compileBP_keeps {m last : Nat} {w : World T} (hl : (w.nets m).last = some last) (hs : Source w last last)
    (hd : LeafDif w last) : EndsIn (PredKept w) (NetM.compileBP m w) := by
  obtain ⟨d, dM, h1, h2, h3⟩ := hd
  have leaf : ∀ w', PredKept w w' → (w'.store.nodes d).kind = .leaf := fun w' h => by rw [h.kind d h2.lt, h3]
  unfold NetM.compileBP
  have k1 : PredKept w (clrW w) := Keeps.newCtx w
  refine EndsIn.known (w' := clrW w) rfl ?_
  refine EndsIn.known (w' := clrW w) (x := w.nets m) rfl ?_
  refine EndsIn.known (w' := clrW w) (x := last) (by rw [hl]; rfl) ?_
  refine EndsIn.known (w' := clrW w) (x := w.layerNext + 1) rfl ?_
  refine EndsIn.known (w' := clrW w) (x := some d) ?_ ?_
  · have := delegated_src (field := Layer.dif) (fuel := w.layerNext + 1) (w := clrW w) (p := last) (r := last) (by omega) ⟨hs.1, Or.inl rfl⟩ fun h => absurd rfl h
    rw [show (clrW w).layers = w.layers from rfl, h1] at this
    exact this
  refine EndsIn.known (w' := clrW w) (x := d) rfl ?_
  refine EndsIn.known (x := ()) rfl ?_
  have k2 := k1.trans (setBuild_kept (leaf _ k1) false)
  with_reducible refine EndsIn.seq (Keeps.buildMat d) k2 fun _ w3 k3 => ?_
  with_reducible refine EndsIn.seq (Keeps.deref _) k3 fun out w4 k4 => ?_
  with_reducible refine EndsIn.seq (Keeps.mat _) k4 fun om w5 k5 => ?_
  with_reducible refine EndsIn.seq (Keeps.zeros _) k5 fun t w6 k6 => ?_
  with_reducible refine EndsIn.seq (Keeps.modifyNet fun _ => rfl) k6 fun _ w7 k7 => ?_
  with_reducible refine EndsIn.seq (Keeps.calDif _ _ _) k7 fun _ w8 k8 => ?_
  with_reducible refine EndsIn.seq (Keeps.matNode _) k8 fun dm w9 k9 => ?_
  with_reducible refine EndsIn.seq (Keeps.lazy _) k9 fun a w10 k10 => ?_
  with_reducible refine EndsIn.seq (Keeps.lazy _) k10 fun s w11 k11 => ?_
  with_reducible refine EndsIn.seq (Keeps.ignoreErr (Keeps.buildGraph _)) k11 fun _ w12 k12 => ?_
  with_reducible refine EndsIn.seq (Keeps.operandAt _ _) k12 fun loss w13 k13 => ?_
  with_reducible refine EndsIn.seq (Keeps.modifyNet fun _ => rfl) k13 fun _ w14 k14 => ?_
  with_reducible refine EndsIn.seq Keeps.ops k14 fun cd w15 k15 => ?_
  with_reducible refine EndsIn.seq (Keeps.modifyNet fun _ => rfl) k15 fun _ w16 k16 => ?_
  with_reducible refine EndsIn.seq Keeps.newCtx k16 fun _ w17 k17 => ?_
  with_reducible refine EndsIn.seq (Keeps.scalar _) k17 fun al w18 k18 => ?_
  with_reducible refine EndsIn.seq (Keeps.scalar _) k18 fun mo w19 k19 => ?_
  with_reducible refine EndsIn.seq (Keeps.modifyNet fun _ => rfl) k19 fun _ w20 k20 => ?_
  refine EndsIn.known (x := ()) rfl ?_
  have k21 := k20.trans (setBuild_kept (leaf _ k20) false)
  with_reducible refine EndsIn.seq (keeps_backProp _ _ _ _) k21 fun _ w22 k22 => ?_
  with_reducible refine EndsIn.seq Keeps.ops k22 fun bp w23 k23 => ?_
  with_reducible refine EndsIn.seq Keeps.newCtx k23 fun _ w24 k24 => ?_
  with_reducible refine EndsIn.seq (keeps_resetFit _ _) k24 fun _ w25 k25 => ?_
  with_reducible refine EndsIn.seq Keeps.ops k25 fun rf w26 k26 => ?_
  exact (Keeps.modifyNet (l := m) (f := fun x => { x with bp := some bp, resetFit := some rf }) (fun _ => rfl) w26).mono fun _ h => k26.trans h

end Godeep
