import Verif.Lemmas.OwnNet
import Verif.Spec.Program
/-
  The methods of tensors that compute at once: they make new cells and change no others.
-/
set_option linter.unusedSectionVars false

namespace Godeep
open Spec GoNum

variable {T : Type} [GoNum T] {α β : Type}

namespace Own
variable {A : Nat → Prop} {B : Chg} {g g' : G T}

/-- elements are new cells, or nil, or satisfy `S` -/
def AllocsOr (S : Nat → Prop) (f : Heap T → Out (Heap T) Mat) : Prop := ∀ h, match f h with
  | .ok m h' => Extends h h' ∧ ∀ q ∈ m.ops, q = 0 ∨ S q ∨ h.next ≤ q ∧ q < h'.next
  | .err _ h' => Extends h h'
  | .panic => True

theorem Allocs.or {f : Heap T → Out (Heap T) Mat} {S : Nat → Prop} (h : Allocs f) : AllocsOr S f := fun x => by
  have H := h x
  cases e : f x with
  | ok m h' => rw [e] at H; exact ⟨H.1, fun q hq => .inr (.inr (H.2 q hq))⟩
  | err _ h' => rw [e] at H; exact H
  | panic => trivial

theorem At.leafOr {f : Heap T → Out (Heap T) Mat} {S : Nat → Prop} (hf : AllocsOr S f) (hS : Inv g → ∀ q, S q → Safe g q) :
    At A B g (Run.leaf f) fun g' n => g'.clean n := by
  refine At.bind (a := Run.heap f) (Q := fun g' m => Inv g' → ∀ q ∈ m.ops, Safe g' q) (At.heap fun hi => ?_) fun g1 m l1 h1 => ?_
  · have H := hf g.w.store.heap
    cases e : f g.w.store.heap with
    | ok m h =>
      rw [e] at H
      refine ⟨H.1.1, fun q l hq _ => H.1.2 q (own_lt hi hq), fun _ q hq => ?_⟩
      rcases H.2 q hq with h0 | h0 | h0
      · rw [h0]; exact ⟨lt_of_lt_of_le hi.next H.1.1, hi.zero⟩
      · exact ⟨lt_of_lt_of_le (hS hi q h0).1 H.1.1, (hS hi q h0).2⟩
      · exact ⟨h0.2, hi.fresh q h0.1⟩
    | err _ h => rw [e] at H; exact ⟨H.1, fun q l hq _ => H.2 q (own_lt hi hq)⟩
    | panic => trivial
  · intro hi
    exact ((At.newNode' ⟨.leaf, m, false⟩ True (fun t ht => by cases ht) (fun _ t ht => by cases ht) fun _ => h1 hi).mono
      fun g' n _ h => h.1 trivial) hi

theorem At.leafAny {f : Heap T → Out (Heap T) Mat} {S : Nat → Prop} (hf : AllocsOr S f) : At A B g (Run.leaf f) fun _ _ => True := by
  refine At.bind (a := Run.heap f) (Q := fun _ _ => True) (At.heap fun hi => ?_) fun g1 m l1 h1 => ?_
  · have H := hf g.w.store.heap
    cases e : f g.w.store.heap with
    | ok m h => rw [e] at H; exact ⟨H.1.1, fun q l hq _ => H.1.2 q (own_lt hi hq), trivial⟩
    | err _ h => rw [e] at H; exact ⟨H.1, fun q l hq _ => H.2 q (own_lt hi hq)⟩
    | panic => trivial
  · exact (At.newNode' ⟨.leaf, m, false⟩ False (fun t ht => by cases ht) (fun h => h.elim) fun h => h.elim).mono fun _ _ _ _ => trivial

/-! ### the methods -/

/-- what `Allocs` says of one run -/
def AllocsAt (h : Heap T) (o : Out (Heap T) Mat) : Prop := match o with
  | .ok m h' => Extends h h' ∧ ∀ q ∈ m.ops, h.next ≤ q ∧ q < h'.next
  | .err _ h' => Extends h h'
  | .panic => True

/-- what `AllocsOr` says of one run -/
def AllocsOrAt (S : Nat → Prop) (h : Heap T) (o : Out (Heap T) Mat) : Prop := match o with
  | .ok m h' => Extends h h' ∧ ∀ q ∈ m.ops, q = 0 ∨ S q ∨ h.next ≤ q ∧ q < h'.next
  | .err _ h' => Extends h h'
  | .panic => True

theorem allocsAt_each (f : α → Heap T → Res T) (l : List α) (k : List Nat → Mat) (hk : ∀ ops, (k ops).ops = ops) (h : Heap T) :
    AllocsAt h ((Heap.allocEach f l h).map k) := by
  have H := allocEach_allocs (f := f) l h
  cases e : Heap.allocEach f l h with
  | ok ops h1 => rw [e] at H; exact ⟨H.1, fun q hq => H.2 q (by rw [← hk ops]; exact hq)⟩
  | err _ h1 => rw [e] at H; exact H
  | panic => trivial

theorem allocs_op2 (f : T → T → Res T) (p m : Mat) : Allocs (Mat.op2 f p m) := fun h => by
  show AllocsAt h (Mat.op2 f p m h)
  unfold Mat.op2
  cases eqShapeErr p.shape m.shape with
  | some e => exact ext_refl _
  | none => exact allocsAt_each _ _ _ (fun _ => rfl) h

theorem allocs_op1 (f : T → Heap T → Res T) (p : Mat) : Allocs (Mat.op1 f p) := allocs_map fun _ => rfl

theorem allocs_reduce (r : List T → Res T) (p : Mat) : Allocs (Mat.reduce r p) := allocs_map fun _ => rfl

theorem allocs_dimReduce (r : List T → Res T) (p : Mat) (d : Nat) : Allocs (Mat.dimReduce r p d) := fun h => by
  show AllocsAt h (Mat.dimReduce r p d h)
  unfold Mat.dimReduce
  split
  · exact ext_refl _
  · dsimp only
    cases Res.index p.mul d with
    | ok mi => exact allocsAt_each _ _ _ (fun _ => rfl) h
    | err e => exact ext_refl _
    | panic => trivial

theorem allocs_softMax (p : Mat) : Allocs (Mat.softMax (T := T) p) := fun h => by
  show AllocsAt h (Mat.softMax p h)
  unfold Mat.softMax
  split
  · exact allocsAt_each _ _ _ (fun _ => rfl) h
  · exact ext_refl _
  · trivial

theorem allocs_transpose (p : Mat) : Allocs (Mat.transpose (T := T) p) := allocs_map fun _ => rfl

theorem allocs_sub (p : Mat) (d lo hi : Nat) : Allocs (Mat.subTensor (T := T) p d lo hi) := fun h => by
  show AllocsAt h (Mat.subTensor p d lo hi h)
  unfold Mat.subTensor
  repeat' split
  all_goals first | exact ext_refl _ | exact allocsAt_each _ _ _ (fun _ => rfl) h

theorem allocs_foSub (p : Mat) (d lo hi : Nat) (v : T) : Allocs (Mat.foSubTensor p d lo hi v) := fun h => by
  show AllocsAt h (Mat.foSubTensor p d lo hi v h)
  unfold Mat.foSubTensor
  split
  · exact ext_refl _
  · split
    · exact ext_refl _
    · exact allocsAt_each _ _ _ (fun _ => rfl) h

theorem allocs_reshape (p : Mat) (s : List Nat) (S : Nat → Prop) : AllocsOr S (Mat.reshape (T := T) p s) := fun h => by
  show AllocsOrAt S h (Mat.reshape p s h)
  unfold Mat.reshape
  dsimp only
  generalize (if p.getSize > dataSize s then dataSize s else p.getSize) = k
  have H := allocEach_allocs (f := fun i (h : Heap T) => h.loadAt p.ops i) (List.range k) h
  cases e : Heap.allocEach (fun i (h : Heap T) => h.loadAt p.ops i) (List.range k) h with
  | ok ops h1 =>
    rw [e] at H
    simp only [Out.bind]
    split
    · trivial
    · refine ⟨H.1, fun q hq => ?_⟩
      rcases List.mem_append.1 hq with hq | hq
      · exact .inr (.inr (H.2 q hq))
      · exact .inl (List.eq_of_mem_replicate hq)
  | err x h1 => rw [e] at H; exact H
  | panic => trivial

/-- cells that exist from `n` on may change, others not -/
def From (n : Nat) (h h' : Heap T) : Prop := h'.next = h.next ∧ ∀ q, q < n → h'.val q = h.val q

theorem dotLoop_from {n : Nat} (p m : Mat) {cell : Nat} (hc : n ≤ cell) (d1 d2 : Nat) (ia ib : List Nat) (l : List Nat) (h : Heap T) :
    EndsIn (From n h) (Mat.dotLoop p m cell d1 d2 ia ib l h) := by
  induction l generalizing h with
  | nil => exact ⟨rfl, fun _ _ => rfl⟩
  | cons k l ih =>
    unfold Mat.dotLoop
    split
    · exact ⟨rfl, fun _ _ => rfl⟩
    · trivial
    · split
      · exact ⟨rfl, fun _ _ => rfl⟩
      · trivial
      · split
        · next v _ =>
          refine EndsIn.bind (R := From n h) ?_ (fun _ h => h) fun _ h1 x1 => (ih h1).mono fun h2 x2 => ⟨x2.1.trans x1.1, fun q hq => (x2.2 q hq).trans (x1.2 q hq)⟩
          unfold Heap.store
          split
          · trivial
          · refine ⟨rfl, fun q hq => ?_⟩
            simp only [Heap.put]
            rw [if_neg (by omega)]
        · exact ⟨rfl, fun _ _ => rfl⟩
        · trivial

theorem dotOuter_from {n : Nat} (p m : Mat) (size d1 d2 d : Nat) (mul shape : List Nat) {ops : List Nat} (ho : ∀ q ∈ ops, n ≤ q) (l : List Nat) (h : Heap T) :
    EndsIn (From n h) (Mat.dotOuter p m size d1 d2 d mul shape ops l h) := by
  induction l generalizing h with
  | nil => exact ⟨rfl, fun _ _ => rfl⟩
  | cons k l ih =>
    unfold Mat.dotOuter
    split
    · next idx cell hc =>
      have hn : n ≤ cell := by
        obtain ⟨x, _, e⟩ := res_bind_ok hc
        cases e2 : Res.index ops k with
        | ok c => rw [e2] at e; cases e; exact ho _ (index_mem e2)
        | err _ => rw [e2] at e; cases e
        | panic => rw [e2] at e; cases e
      exact EndsIn.bind (R := From n h) (dotLoop_from p m hn _ _ _ _ _ h) (fun _ h => h) fun _ h1 x1 => (ih h1).mono fun h2 x2 => ⟨x2.1.trans x1.1, fun q hq => (x2.2 q hq).trans (x1.2 q hq)⟩
    · exact ⟨rfl, fun _ _ => rfl⟩
    · trivial

theorem allocs_dotVector (p m : Mat) : Allocs (Mat.dotVector (T := T) p m) := fun h => by
  show AllocsAt h (Mat.dotVector p m h)
  unfold Mat.dotVector
  split
  · exact ext_refl _
  · have H := allocEach_allocs (f := fun i (h : Heap T) => (h.loadAt p.ops i).bind fun a => (h.loadAt m.ops i).map fun b => GoNum.mul a b) (List.range p.ops.length) h
    cases e : Heap.allocEach (fun i (h : Heap T) => (h.loadAt p.ops i).bind fun a => (h.loadAt m.ops i).map fun b => GoNum.mul a b) (List.range p.ops.length) h with
    | ok tmp h1 =>
      rw [e] at H
      have H2 := allocsAt_each (fun (_ : Unit) (h : Heap T) => (h.loadAll tmp).bind Mat.toolsSum) [()] (fun ops => (⟨[1], [1], ops⟩ : Mat)) (fun _ => rfl) h1
      simp only [Out.bind]
      revert H2
      cases (Heap.allocEach (fun (_ : Unit) (h : Heap T) => (h.loadAll tmp).bind Mat.toolsSum) [()] h1).map fun ops => (⟨[1], [1], ops⟩ : Mat) with
      | ok r h2 => exact fun H2 => ⟨ext_trans H.1 H2.1, fun q hq => ⟨le_trans H.1.1 (H2.2 q hq).1, (H2.2 q hq).2⟩⟩
      | err _ h2 => exact fun H2 => ext_trans H.1 H2
      | panic => exact fun _ => trivial
    | err x h1 => rw [e] at H; exact H
    | panic => trivial

theorem allocs_dotAt (p m : Mat) (d1 d2 : Nat) : Allocs (Mat.dotAt (T := T) p m d1 d2) := fun h => by
  show AllocsAt h (Mat.dotAt p m d1 d2 h)
  unfold Mat.dotAt
  split
  · exact ext_refl _
  · split
    · next n1 n2 _ _ =>
      split
      · exact ext_refl _
      · split
        · exact allocs_dotVector p m h
        · dsimp only
          generalize p.shape.eraseIdx d1 = sa
          generalize sa ++ m.shape.take d2 ++ m.shape.drop (d2 + 1) = shape
          have H := allocEach_allocs (f := fun (_ : Nat) (_ : Heap T) => .ok zero) (List.range (dataSize shape)) h
          cases e : Heap.allocEach (fun (_ : Nat) (_ : Heap T) => .ok zero) (List.range (dataSize shape)) h with
          | ok ops h1 =>
            rw [e] at H
            have H2 := dotOuter_from p m n1 d1 d2 sa.length (indexMul shape) shape (fun q hq => (H.2 q hq).1) (List.range ops.length) h1
            simp only [Out.bind]
            cases e2 : Mat.dotOuter p m n1 d1 d2 sa.length (indexMul shape) shape ops (List.range ops.length) h1 with
            | ok _ h2 =>
              rw [e2] at H2
              have x : Extends h h2 := ⟨by rw [H2.1]; exact H.1.1, fun q hq => (H2.2 q hq).trans (H.1.2 q hq)⟩
              exact ⟨x, fun q hq => ⟨(H.2 q hq).1, by rw [H2.1]; exact (H.2 q hq).2⟩⟩
            | err _ h2 =>
              rw [e2] at H2
              exact ⟨by rw [H2.1]; exact H.1.1, fun q hq => (H2.2 q hq).trans (H.1.2 q hq)⟩
            | panic => trivial
          | err x h1 => rw [e] at H; exact H
          | panic => trivial
    · trivial

theorem mapM_mem {f : α → Res β} {P : β → Prop} (l : List α) (hf : ∀ x ∈ l, ∀ y, f x = .ok y → P y) (ys : List β) (h : Res.mapM f l = .ok ys) : ∀ y ∈ ys, P y := by
  induction l generalizing ys with
  | nil => cases h; exact fun y hy => absurd hy List.not_mem_nil
  | cons x l ih =>
    unfold Res.mapM at h
    cases e : f x with
    | ok y =>
      rw [e] at h
      cases e2 : Res.mapM f l with
      | ok zs =>
        simp only [Res.bind, Res.map, e2] at h
        cases h
        intro z hz
        rcases List.mem_cons.1 hz with rfl | hz
        · exact hf x List.mem_cons_self _ e
        · exact ih (fun x hx => hf x (List.mem_cons_of_mem _ hx)) zs e2 z hz
      | err _ => simp only [Res.bind, Res.map, e2] at h; cases h
      | panic => simp only [Res.bind, Res.map, e2] at h; cases h
    | err _ => simp only [Res.bind, Res.map, e] at h; cases h
    | panic => simp only [Res.bind, Res.map, e] at h; cases h

theorem concat_mem {p m r : Mat} {d : Nat} (h : Mat.concat p m d = .ok r) : ∀ q ∈ r.ops, q ∈ p.ops ∨ q ∈ m.ops := by
  unfold Mat.concat at h
  obtain ⟨k, _, h⟩ := res_bind_ok h
  obtain ⟨j, _, h⟩ := res_bind_ok h
  dsimp only at h
  cases e : Res.mapM (fun i => (reverseIndex (indexMul (p.shape.set d (k + j))) (p.shape.set d (k + j)) i).bind fun idx => Mat.concatPick p m d k idx)
      (List.range (p.getSize + m.getSize)) with
  | ok ops =>
    rw [e] at h
    cases h
    refine mapM_mem _ (fun i _ y hy => ?_) ops e
    obtain ⟨idx, _, hy⟩ := res_bind_ok hy
    unfold Mat.concatPick at hy
    split at hy
    · cases hy
    · split at hy
      · exact .inl (operand_mem hy)
      · exact .inr (operand_mem hy)
  | err _ => rw [e] at h; cases h
  | panic => rw [e] at h; cases h

/-- methods that give new elements -/
theorem allocs_mat (fill : T) (get : Nat → Mat) (c : Call T) (hc : ∀ a b d s, c ≠ .concat a b d ∧ c ≠ .reshape a s) : Allocs (c.mat fill get) := by
  cases c with
  | concat a b d => exact absurd rfl (hc a b d []).1
  | reshape a s => exact absurd rfl (hc a 0 0 s).2
  | add | sub | mul | div => exact allocs_op2 _ _ _
  | addScalar | subScalar | mulScalar | divScalar | neg | abs | activate => exact allocs_op1 _ _
  | softMax => exact allocs_softMax _
  | sum | avg | max | min => exact allocs_reduce _ _
  | dSum | dAvg | dMax | dMin => exact allocs_dimReduce _ _ _
  | dot => exact allocs_dotAt _ _ _ _
  | dotAt => exact allocs_dotAt _ _ _ _
  | subTensor => exact allocs_sub _ _ _ _
  | subExtended => exact allocs_foSub _ _ _ _ _
  | transpose => exact allocs_transpose _

/-- all methods: elements are new, or nil, or elements of the arguments -/
theorem allocsOr_mat (fill : T) (get : Nat → Mat) (c : Call T) : AllocsOr (fun q => ∃ t ∈ c.args, q ∈ (get t).ops) (c.mat fill get) := by
  cases c with
  | concat a b d =>
    intro h
    show match Out.ofRes h ((get a).concat (get b) d) with
      | .ok m h' => Extends h h' ∧ ∀ q ∈ m.ops, _
      | .err _ h' => Extends h h'
      | .panic => True
    cases e : (get a).concat (get b) d with
    | ok r =>
      refine ⟨ext_refl _, fun q hq => .inr (.inl ?_)⟩
      rcases concat_mem e q hq with hq | hq
      · exact ⟨a, by simp [Call.args], hq⟩
      · exact ⟨b, by simp [Call.args], hq⟩
    | err _ => exact ext_refl _
    | panic => trivial
  | reshape a s => exact allocs_reshape _ _ _
  | _ => exact (allocs_mat fill get _ (fun _ _ _ _ => ⟨(fun h => by cases h), (fun h => by cases h)⟩)).or

theorem At.now (fill : T) (c : Call T) (hc : ∀ t ∈ c.args, g.clean t) : At A B g (c.now fill) fun g' n => g'.clean n :=
  At.leafOr (f := c.mat fill fun n => (g.w.store.nodes n).mat) (allocsOr_mat fill _ c) fun hi q ⟨t, ht, hq⟩ => hi.sound t (hc t ht) q hq

theorem At.nowAny (fill : T) (c : Call T) : At A B g (c.now fill) fun _ _ => True :=
  At.leafAny (f := c.mat fill fun n => (g.w.store.nodes n).mat) (allocsOr_mat fill _ c)

theorem At.nowOwn (K : Nat) (fill : T) (c : Call T) (hc : ∀ a b d s, c ≠ .concat a b d ∧ c ≠ .reshape a s) : At A B g (c.now fill) fun g' n => Owned g' K n :=
  At.own K (f := c.mat fill fun n => (g.w.store.nodes n).mat) (allocs_mat fill _ c hc)

end Own
end Godeep
