import Verif.Lemmas.Run
import Mathlib.Data.List.GetD
/-
  Code that only looks up scalars of tensors, makes new scalars (zero) and pushes operations.
-/
set_option linter.unusedSectionVars false

namespace Godeep
open Spec GoNum

variable {T : Type} {α β : Type} [GoNum T]

/-- `k` new scalars and the operations `ops` -/
def emitted (k : Nat) (ops : List (Op T)) (w : World T) : World T :=
  { w with store := { w.store with heap := allocZ k w.store.heap, ctx := w.store.ctx ++ ops } }

theorem emitted_nil (w : World T) : emitted 0 [] w = w := by
  simp [emitted, allocZ_zero]

theorem emitted_emitted (k1 k2 : Nat) (o1 o2 : List (Op T)) (w : World T) :
    emitted k2 o2 (emitted k1 o1 w) = emitted (k1 + k2) (o1 ++ o2) w := by
  simp [emitted, allocZ_allocZ]

@[simp] theorem emitted_next (k : Nat) (o : List (Op T)) (w : World T) :
    (emitted k o w).store.heap.next = w.store.heap.next + k := rfl

@[simp] theorem emitted_nodes (k : Nat) (o : List (Op T)) (w : World T) :
    (emitted k o w).store.nodes = w.store.nodes := rfl

@[simp] theorem emitted_layers (k : Nat) (o : List (Op T)) (w : World T) :
    (emitted k o w).layers = w.layers := rfl

theorem grow_emitted {L : Nat → Prop} {C : Ptr → Prop} (k : Nat) (o : List (Op T)) (w : World T) :
    Grow L C o w (emitted k o w) :=
  ⟨(extends_allocZ k _).next, fun q h _ => (extends_allocZ k _).val q h, le_refl _, fun _ _ => rfl,
    fun _ _ h => ⟨h, rfl⟩, fun _ _ => rfl, rfl, rfl, rfl, rfl⟩

/-- In any world with the tensors `N` and next free scalar `p`, `a` returns `r p`, makes `k` scalars
and pushes `o p`. -/
def Emits (N : Nat → Node T) (a : Run T α) (r : Nat → α) (k : Nat) (o : Nat → List (Op T)) : Prop :=
  ∀ w, w.store.nodes = N → a w = .ok (r w.store.heap.next) (emitted k (o w.store.heap.next) w)

namespace Emits
variable {N : Nat → Node T}

theorem congr {a : Run T α} {r r' : Nat → α} {k k' : Nat} {o o' : Nat → List (Op T)} (h : Emits N a r k o)
    (hr : ∀ p, r p = r' p) (hk : k = k') (ho : ∀ p, o p = o' p) : Emits N a r' k' o' := by
  obtain rfl : r = r' := funext hr
  obtain rfl : o = o' := funext ho
  subst hk; exact h

theorem pure (a : α) : Emits N (Pure.pure a : Run T α) (fun _ => a) 0 (fun _ => []) := by
  intro w _; rw [emitted_nil]; rfl

theorem bind {a : Run T α} {f : α → Run T β} {r1 : Nat → α} {k1 : Nat} {o1 : Nat → List (Op T)}
    {r2 : Nat → Nat → β} {k2 : Nat} {o2 : Nat → Nat → List (Op T)} (h1 : Emits N a r1 k1 o1)
    (h2 : ∀ p, Emits N (f (r1 p)) (r2 p) k2 (o2 p)) :
    Emits N (a >>= f) (fun p => r2 p (p + k1)) (k1 + k2) (fun p => o1 p ++ o2 p (p + k1)) := by
  intro w hw
  show (a w).bind f = _
  rw [h1 w hw]
  show f (r1 w.store.heap.next) (emitted k1 (o1 w.store.heap.next) w) = _
  rw [h2 _ (emitted k1 (o1 w.store.heap.next) w) hw, emitted_emitted]
  rfl

theorem push (o : Op T) : Emits N (Run.push o) (fun _ => ()) 0 (fun _ => [o]) := by
  intro w _; simp [emitted, allocZ_zero, Run.push]

theorem scalar : Emits N (Run.scalar (zero : T)) (fun p => p) 1 (fun _ => []) := by
  intro w _
  simp [emitted, ← alloc_eq_allocZ, Run.scalar, Run.heap, Heap.alloc]

theorem emit (r : Rhs T) : Emits N (Run.emit r) (fun p => p) 1 (fun p => [.asg p r]) :=
  (bind scalar fun p => bind (push (.asg p r)) fun _ => pure p).congr (fun _ => rfl) rfl (fun _ => rfl)

/-- the scalar of a tensor at an index -/
def _root_.Godeep.cell (m : Mat) (idx : List Nat) : Ptr := m.ops.getD (offset m.shape idx) 0

theorem _root_.Godeep.cell_mem {h : Heap T} {m : Mat} (g : GoodMat h m) {idx : List Nat} (hi : InRange m.shape idx) :
    cell m idx ∈ m.ops := by
  have hk : offset m.shape idx < m.ops.length := by rw [g.len]; exact offset_lt hi
  unfold cell
  rw [List.getD_eq_getElem _ _ hk]
  exact List.getElem_mem hk

theorem _root_.Godeep.cell_at {m : Mat} {h : Heap T} (g : GoodMat h m) {idx : List Nat} (hi : InRange m.shape idx) :
    m.ops[offset m.shape idx]? = some (cell m idx) := by
  have hk : offset m.shape idx < m.ops.length := by rw [g.len]; exact offset_lt hi
  unfold cell
  rw [List.getD_eq_getElem _ _ hk, List.getElem?_eq_getElem hk]

theorem _root_.Godeep.cell_unflat {m : Mat} {i : Nat} (hi : i < size m.shape) :
    cell m (unflat m.shape i) = m.ops.getD i 0 := by
  unfold cell; rw [offset_unflat hi]

theorem _root_.Godeep.cell_inj {h : Heap T} {m : Mat} (g : GoodMat h m) (hnd : m.ops.Nodup) {i j : List Nat}
    (hi : InRange m.shape i) (hj : InRange m.shape j) (he : cell m i = cell m j) : i = j := by
  have h1 : offset m.shape i < m.ops.length := by rw [g.len]; exact offset_lt hi
  have h2 : offset m.shape j < m.ops.length := by rw [g.len]; exact offset_lt hj
  unfold cell at he
  rw [List.getD_eq_getElem _ _ h1, List.getD_eq_getElem _ _ h2, hnd.getElem_inj_iff] at he
  exact offset_inj hi hj he

theorem _root_.Godeep.holds_cell {h : Heap T} {m : Mat} {t : STensor T} (H : Holds h m t) {idx : List Nat}
    (hi : InRange m.shape idx) : h.val (cell m idx) = t.get idx := by
  have hk : offset m.shape idx < m.ops.length := by rw [H.len]; exact offset_lt hi
  have hp : m.ops[offset m.shape idx]? = some (cell m idx) := by
    unfold cell; rw [List.getD_eq_getElem _ _ hk, List.getElem?_eq_getElem hk]
  have hg := H.get idx (by rw [← H.shape]; exact hi)
  have hv := H.valid (cell m idx) (List.mem_of_getElem? hp)
  unfold Mat.get at hg
  rw [getOperand_ok (by rw [H.mul]; simp) hi hp] at hg
  simp only [Res.bind_ok] at hg
  rw [load_pos hv.1] at hg
  injection hg

theorem _root_.Godeep.holds_of_cell {h : Heap T} {m : Mat} {t : STensor T} (g : GoodMat h m) (hs : m.shape = t.shape)
    (hv : ∀ idx, InRange m.shape idx → h.val (cell m idx) = t.get idx) : Holds h m t := by
  refine ⟨hs, g.mul, g.len, g.valid, fun idx hi => ?_⟩
  rw [← hs] at hi
  unfold Mat.get
  rw [getOperand_ok (by rw [g.mul]; simp) hi (cell_at g hi), Res.bind_ok,
    load_pos (g.valid _ (cell_mem g hi)).1, hv idx hi]

theorem mat (n : Nat) : Emits N (Run.mat n : Run T Mat) (fun _ => (N n).mat) 0 (fun _ => []) := by
  intro w hw; rw [emitted_nil, ← hw]; rfl

theorem lift {r : Res α} {a : α} (h : r = .ok a) : Emits N (Run.lift r : Run T α) (fun _ => a) 0 (fun _ => []) := by
  intro w hw; subst h; rw [emitted_nil]; rfl

theorem operand {n : Nat} {idx : List Nat} {h : Heap T} {m : Mat} (hm : (N n).mat = m) (g : GoodMat h m)
    (hi : InRange m.shape idx) : Emits N (Run.operand n idx) (fun _ => cell m idx) 0 (fun _ => []) := by
  refine (bind (mat n) fun _ => lift (a := cell m idx) ?_).congr (fun _ => rfl) rfl (fun _ => rfl)
  rw [hm]
  exact getOperand_ok (by rw [g.mul]; simp) hi (cell_at g hi)

theorem operandAt {n i : Nat} {h : Heap T} {m : Mat} (hm : (N n).mat = m) (g : GoodMat h m)
    (hi : i < size m.shape) : Emits N (Run.operandAt n i) (fun _ => m.ops.getD i 0) 0 (fun _ => []) := by
  refine (bind (mat n) fun _ => lift (a := m.ops.getD i 0) ?_).congr (fun _ => rfl) rfl (fun _ => rfl)
  rw [hm]
  have hk : i < m.ops.length := by rw [g.len]; exact hi
  simp [Res.index, hk]

theorem each {n k : Nat} {f : Nat → Run T Unit} {o : Nat → Nat → List (Op T)}
    (h : ∀ i, i < n → Emits N (f i) (fun _ => ()) k (o i)) :
    Emits N (Run.each (List.range n) f) (fun _ => ()) (n * k) (fun p => (List.range n).flatMap fun i => o i (p + i * k)) := by
  suffices H : ∀ (c s : Nat), s + c = n →
      Emits N (Run.each (List.range' s c) f) (fun _ => ()) (c * k)
        (fun p => (List.range' s c).flatMap fun i => o i (p + (i - s) * k)) by
    have := H n 0 (by omega)
    rw [← List.range_eq_range'] at this
    exact this
  intro c
  induction c with
  | zero =>
    intro s _
    simp only [List.range'_zero, Run.each, List.flatMap_nil, Nat.zero_mul]
    exact pure ()
  | succ c ih =>
    intro s hs
    rw [List.range'_succ]
    refine (bind (h s (by omega)) (fun _ => ih (s + 1) (by omega))).congr (fun _ => rfl) (by rw [Nat.succ_mul]; omega) fun p => ?_
    rw [List.flatMap_cons, Nat.sub_self, Nat.zero_mul, Nat.add_zero]
    congr 1
    apply List.flatMap_congr
    intro i hi
    rw [List.mem_range'_1] at hi
    obtain ⟨j, rfl⟩ : ∃ j, i = s + 1 + j := ⟨i - (s + 1), by omega⟩
    rw [show s + 1 + j - (s + 1) = j by omega, show s + 1 + j - s = j + 1 by omega, Nat.succ_mul]
    congr 1
    omega

theorem collect {n k : Nat} {f : Nat → Run T α} {r : Nat → Nat → α} {o : Nat → Nat → List (Op T)}
    (h : ∀ i, i < n → Emits N (f i) (r i) k (o i)) :
    Emits N (Run.collect (List.range n) f) (fun p => (List.range n).map fun i => r i (p + i * k)) (n * k)
      (fun p => (List.range n).flatMap fun i => o i (p + i * k)) := by
  suffices H : ∀ (c s : Nat), s + c = n →
      Emits N (Run.collect (List.range' s c) f) (fun p => (List.range' s c).map fun i => r i (p + (i - s) * k)) (c * k)
        (fun p => (List.range' s c).flatMap fun i => o i (p + (i - s) * k)) by
    have := H n 0 (by omega)
    rw [← List.range_eq_range'] at this
    exact this
  intro c
  induction c with
  | zero =>
    intro s _
    simp only [List.range'_zero, Run.collect, List.flatMap_nil, Nat.zero_mul, List.map_nil]
    exact pure []
  | succ c ih =>
    intro s hs
    rw [List.range'_succ]
    have hidx : ∀ p i, i ∈ List.range' (s + 1) c → p + k + (i - (s + 1)) * k = p + (i - s) * k := by
      intro p i hi
      rw [List.mem_range'_1] at hi
      obtain ⟨j, rfl⟩ : ∃ j, i = s + 1 + j := ⟨i - (s + 1), by omega⟩
      rw [show s + 1 + j - (s + 1) = j by omega, show s + 1 + j - s = j + 1 by omega, Nat.succ_mul]
      omega
    refine (bind (h s (by omega)) (fun p => bind (ih (s + 1) (by omega)) fun q =>
      pure (r s p :: (List.range' (s + 1) c).map fun i => r i (q + (i - (s + 1)) * k)))).congr (fun p => ?_)
      (by rw [Nat.succ_mul]; omega) fun p => ?_
    · show r s p :: _ = _
      rw [List.map_cons, Nat.sub_self, Nat.zero_mul, Nat.add_zero]
      congr 1
      exact List.map_congr_left fun i hi => by rw [hidx p i hi]
    · rw [List.flatMap_cons, Nat.sub_self, Nat.zero_mul, Nat.add_zero, List.append_nil]
      congr 1
      exact List.flatMap_congr fun i hi => by rw [hidx p i hi]

/-- a list of cells -/
theorem collectPure {ι : Type} {l : List ι} {f : ι → Run T α} {r : ι → α}
    (h : ∀ i ∈ l, Emits N (f i) (fun _ => r i) 0 (fun _ => [])) :
    Emits N (Run.collect l f) (fun _ => l.map r) 0 (fun _ => []) := by
  induction l with
  | nil => exact pure []
  | cons i l ih =>
    exact (bind (h i (by simp)) (fun p => bind (ih fun j hj => h j (by simp [hj])) fun q =>
      pure (r i :: l.map r))).congr (fun _ => rfl) rfl (fun _ => rfl)

end Emits

/-- an operation that cannot abort -/
def Fine : Op T → Prop
  | .nop _ => True
  | .asg p r => 0 < p ∧ (∀ q ∈ r.reads, 0 < q) ∧ ArgsNonempty (.asg p r) ∧
    (match r with
      | .div _ _ => ∀ x y : T, divPanics x y = false
      | .avg _ => ∀ x y : T, divPanics x y = false
      | _ => True)

theorem exec_fine : ∀ (ops : List (Op T)) (h : Heap T), (∀ o ∈ ops, Fine o) → ∃ h', exec ops h = .ok () h' := by
  intro ops
  induction ops with
  | nil => intro h _; exact ⟨h, rfl⟩
  | cons o ops ih =>
    intro h hf
    have h1 := hf o (by simp)
    cases o with
    | nop p =>
      obtain ⟨h', he⟩ := ih h fun o ho => hf o (by simp [ho])
      exact ⟨h', by simpa [exec, Op.cal] using he⟩
    | asg p r =>
      obtain ⟨f1, f2, f3, f4⟩ := h1
      have hv : ∃ v, r.eval h = .ok v := by
        cases r with
        | div a b => exact eval_total f4 f2 f3
        | avg a => exact eval_total f4 f2 f3
        | add a b =>
          simp only [Rhs.reads, List.mem_cons, List.not_mem_nil, or_false, forall_eq_or_imp, forall_eq] at f2
          simp only [Rhs.eval]; rw [load_pos f2.1, load_pos f2.2]; exact ⟨_, rfl⟩
        | sub a b =>
          simp only [Rhs.reads, List.mem_cons, List.not_mem_nil, or_false, forall_eq_or_imp, forall_eq] at f2
          simp only [Rhs.eval]; rw [load_pos f2.1, load_pos f2.2]; exact ⟨_, rfl⟩
        | mul a b =>
          simp only [Rhs.reads, List.mem_cons, List.not_mem_nil, or_false, forall_eq_or_imp, forall_eq] at f2
          simp only [Rhs.eval]; rw [load_pos f2.1, load_pos f2.2]; exact ⟨_, rfl⟩
        | equals a b =>
          simp only [Rhs.reads, List.mem_cons, List.not_mem_nil, or_false, forall_eq_or_imp, forall_eq] at f2
          simp only [Rhs.eval]; rw [load_pos f2.1, load_pos f2.2]; exact ⟨_, rfl⟩
        | neg a => simp only [Rhs.eval]; rw [load_pos (f2 a (by simp [Rhs.reads]))]; exact ⟨_, rfl⟩
        | abs a => simp only [Rhs.eval]; rw [load_pos (f2 a (by simp [Rhs.reads]))]; exact ⟨_, rfl⟩
        | set a => simp only [Rhs.eval]; rw [load_pos (f2 a (by simp [Rhs.reads]))]; exact ⟨_, rfl⟩
        | func f a => simp only [Rhs.eval]; rw [load_pos (f2 a (by simp [Rhs.reads]))]; exact ⟨_, rfl⟩
        | sum args =>
          simp only [Rhs.eval]; rw [loadAll_pos (ps := args) f2]
          cases args with
          | nil => exact absurd rfl f3
          | cons a args => exact ⟨_, rfl⟩
        | max args =>
          simp only [Rhs.eval]; rw [loadAll_pos (ps := args) f2]
          cases args with
          | nil => exact absurd rfl f3
          | cons a args => exact ⟨_, rfl⟩
        | min args =>
          simp only [Rhs.eval]; rw [loadAll_pos (ps := args) f2]
          cases args with
          | nil => exact absurd rfl f3
          | cons a args => exact ⟨_, rfl⟩
      obtain ⟨v, hv⟩ := hv
      obtain ⟨h', he⟩ := ih (h.put p v) fun o ho => hf o (by simp [ho])
      exact ⟨h', exec_cons_asg_ok.2 ⟨Nat.pos_iff_ne_zero.1 f1, v, hv, he⟩⟩

/-- executing the operations of a loop -/
theorem exec_loop {n : Nat} {g : Nat → List (Op T)} (I : Nat → Heap T → Prop) {h h' : Heap T} (h0 : I 0 h)
    (hs : ∀ i, i < n → ∀ h1 h2, I i h1 → exec (g i) h1 = .ok () h2 → I (i + 1) h2)
    (he : exec ((List.range n).flatMap g) h = .ok () h') : I n h' := by
  induction n generalizing h' with
  | zero => simp only [List.range_zero, List.flatMap_nil, exec, Out.ok.injEq, true_and] at he; subst he; exact h0
  | succ n ih =>
    rw [List.range_succ, List.flatMap_append, exec_append_ok] at he
    obtain ⟨h1, e1, e2⟩ := he
    refine hs n (by omega) h1 h' (ih (fun i hi => hs i (by omega)) e1) ?_
    simpa using e2

theorem dsts_flatMap {ι : Type} (l : List ι) (g : ι → List (Op T)) {q : Ptr} :
    q ∈ dsts (l.flatMap g) ↔ ∃ i ∈ l, q ∈ dsts (g i) := by
  simp only [mem_dsts, List.mem_flatMap]
  exact ⟨fun ⟨r, i, h1, h2⟩ => ⟨i, h1, r, h2⟩, fun ⟨i, h1, r, h2⟩ => ⟨r, i, h1, h2⟩⟩

theorem exec_asg1 {p : Ptr} {r : Rhs T} {h h' : Heap T} (he : exec [.asg p r] h = .ok () h') :
    ∃ v, r.eval h = .ok v ∧ h' = h.put p v := by
  obtain ⟨_, v, hv, he⟩ := exec_cons_asg_ok.1 he
  simp only [exec, Out.ok.injEq, true_and] at he
  exact ⟨v, hv, he.symm⟩

end Godeep
