import Verif.Lemmas.OwnNow
/-
  Parts of a state that are closed: what the layers, models and tensors of a part refer to is in the part, and so is what
  their operations read and write.  Calls on a part change only the part; it grows by what is new.
-/
set_option linter.unusedSectionVars false

namespace Godeep
open Spec GoNum

variable {T : Type} [GoNum T] {α β : Type}

namespace Side

/-- a part of a state: cells, tensors, layers, models -/
structure Sd where
  cell : Nat → Prop
  node : Nat → Prop
  layer : Nat → Prop
  net : Nat → Prop

/-- the scalars a tensor refers to -/
def ptrs : Kind T → List Nat
  | .opScalar _ _ s => [s]
  | .fill _ v => [v]
  | _ => []

/-- nil, or in the part -/
def Opt (P : Nat → Prop) (o : Option Nat) : Prop := ∀ n, o = some n → P n

/-- an operation reads and writes these cells -/
def OpC (C : Nat → Prop) : Op T → Prop
  | .nop _ => True
  | .asg p r => C p ∧ ∀ q ∈ r.reads, C q

/-- an operation reads and writes the part -/
abbrev OpIn (g : Sd) (o : Op T) : Prop := OpC g.cell o

def OpsIn (g : Sd) (l : List (Op T)) : Prop := ∀ o ∈ l, OpIn g o

def OptOps (g : Sd) (o : Option (List (Op T))) : Prop := ∀ l, o = some l → OpsIn g l

structure NodeIn (g : Sd) (x : Node T) : Prop where
  ops : ∀ q ∈ x.mat.ops, g.cell q
  kids : ∀ k ∈ x.kind.kids, g.node k
  ptrs : ∀ q ∈ ptrs x.kind, g.cell q

/-- the layers a concatenation joins -/
def KindIn (g : Sd) : LKind T → Prop
  | .concat a b _ => g.layer a ∧ g.layer b
  | _ => True

structure LayerIn (g : Sd) (x : Layer T) : Prop where
  kind : KindIn g x.kind
  pre : Opt g.layer x.pre
  weights : Opt g.node x.weights
  bias : Opt g.node x.bias
  nWeights : Opt g.node x.nWeights
  mWeights : Opt g.node x.mWeights
  nBias : Opt g.node x.nBias
  mBias : Opt g.node x.mBias
  input : Opt g.node x.input
  neta : Opt g.node x.neta
  output : Opt g.node x.output
  dif : Opt g.node x.dif
  der : Opt g.node x.der
  ref : g.cell x.ref
  maxScalar : g.cell x.maxScalar

structure NetIn (g : Sd) (x : Net T) : Prop where
  first : Opt g.layer x.first
  last : Opt g.layer x.last
  input : Opt g.node x.input
  output : Opt g.node x.output
  target : Opt g.node x.target
  alpha : g.cell x.alpha
  momentum : g.cell x.momentum
  loss : g.cell x.loss
  ff : OptOps g x.ff
  bp : OptOps g x.bp
  calDif : OptOps g x.calDif
  resetFit : OptOps g x.resetFit
  reset : OptOps g x.reset

/-- the part is closed; `b`: the context belongs to it -/
structure In (b : Bool) (g : Sd) (w : World T) : Prop where
  next : 0 < w.store.heap.next
  zero : g.cell 0
  cell : ∀ q, g.cell q → q < w.store.heap.next
  node : ∀ n, g.node n → n < w.nodeNext
  layer : ∀ l, g.layer l → l < w.layerNext
  net : ∀ m, g.net m → m < w.netNext
  nodes : ∀ n, g.node n → NodeIn g (w.store.nodes n)
  layers : ∀ l, g.layer l → LayerIn g (w.layers l)
  nets : ∀ m, g.net m → NetIn g (w.nets m)
  ctx : b = true → OpsIn g w.store.ctx

/-- the part grows -/
structure Le (g g' : Sd) : Prop where
  cell : ∀ q, g.cell q → g'.cell q
  node : ∀ q, g.node q → g'.node q
  layer : ∀ q, g.layer q → g'.layer q
  net : ∀ q, g.net q → g'.net q

/-- from `w` to `w'` only the part changes, and it grows only by what is new -/
structure Step (g : Sd) (w : World T) (g' : Sd) (w' : World T) : Prop where
  ncell : w.store.heap.next ≤ w'.store.heap.next
  nnode : w.nodeNext ≤ w'.nodeNext
  nlayer : w.layerNext ≤ w'.layerNext
  nnet : w.netNext ≤ w'.netNext
  gcell : ∀ q, g'.cell q → g.cell q ∨ w.store.heap.next ≤ q
  gnode : ∀ q, g'.node q → g.node q ∨ w.nodeNext ≤ q
  glayer : ∀ q, g'.layer q → g.layer q ∨ w.layerNext ≤ q
  gnet : ∀ q, g'.net q → g.net q ∨ w.netNext ≤ q
  cell : ∀ q, q < w.store.heap.next → ¬ g.cell q → w'.store.heap.val q = w.store.heap.val q
  node : ∀ q, q < w.nodeNext → ¬ g.node q → w'.store.nodes q = w.store.nodes q
  layer : ∀ q, q < w.layerNext → ¬ g.layer q → w'.layers q = w.layers q
  net : ∀ q, q < w.netNext → ¬ g.net q → w'.nets q = w.nets q

variable {b : Bool} {g g' g'' : Sd} {w w' w'' : World T}

theorem Le.refl (g : Sd) : Le g g := ⟨fun _ h => h, fun _ h => h, fun _ h => h, fun _ h => h⟩

theorem Le.trans (h : Le g g') (h' : Le g' g'') : Le g g'' :=
  ⟨fun q x => h'.cell q (h.cell q x), fun q x => h'.node q (h.node q x), fun q x => h'.layer q (h.layer q x), fun q x => h'.net q (h.net q x)⟩

theorem Opt.mono {P Q : Nat → Prop} {o : Option Nat} (h : Opt P o) (hl : ∀ n, P n → Q n) : Opt Q o := fun n hn => hl n (h n hn)

theorem opt_none {P : Nat → Prop} : Opt P none := fun _ h => by cases h

theorem opt_some {P : Nat → Prop} {n : Nat} (h : P n) : Opt P (some n) := fun _ e => by cases e; exact h

theorem OpC.mono {C D : Nat → Prop} {o : Op T} (h : OpC C o) (hl : ∀ q, C q → D q) : OpC D o := by
  cases o with
  | nop _ => trivial
  | asg p r => exact ⟨hl _ h.1, fun q hq => hl _ (h.2 q hq)⟩

theorem OpsIn.le {l : List (Op T)} (h : OpsIn g l) (hl : Le g g') : OpsIn g' l := fun o ho => (h o ho).mono hl.cell

theorem OptOps.le {o : Option (List (Op T))} (h : OptOps g o) (hl : Le g g') : OptOps g' o := fun l e => (h l e).le hl

theorem NodeIn.le {x : Node T} (h : NodeIn g x) (hl : Le g g') : NodeIn g' x :=
  ⟨fun q hq => hl.cell _ (h.ops q hq), fun q hq => hl.node _ (h.kids q hq), fun q hq => hl.cell _ (h.ptrs q hq)⟩

theorem KindIn.le {k : LKind T} (h : KindIn g k) (hl : Le g g') : KindIn g' k := by
  cases k <;> first | trivial | exact ⟨hl.layer _ h.1, hl.layer _ h.2⟩

theorem LayerIn.le {x : Layer T} (h : LayerIn g x) (hl : Le g g') : LayerIn g' x :=
  ⟨h.kind.le hl, h.pre.mono hl.layer, h.weights.mono hl.node, h.bias.mono hl.node, h.nWeights.mono hl.node, h.mWeights.mono hl.node,
    h.nBias.mono hl.node, h.mBias.mono hl.node, h.input.mono hl.node, h.neta.mono hl.node, h.output.mono hl.node, h.dif.mono hl.node,
    h.der.mono hl.node, hl.cell _ h.ref, hl.cell _ h.maxScalar⟩

theorem NetIn.le {x : Net T} (h : NetIn g x) (hl : Le g g') : NetIn g' x :=
  ⟨h.first.mono hl.layer, h.last.mono hl.layer, h.input.mono hl.node, h.output.mono hl.node, h.target.mono hl.node, hl.cell _ h.alpha,
    hl.cell _ h.momentum, hl.cell _ h.loss, h.ff.le hl, h.bp.le hl, h.calDif.le hl, h.resetFit.le hl, h.reset.le hl⟩

theorem In.forget (h : In b g w) : In false g w := { h with ctx := fun e => by cases e }

theorem Step.refl (g : Sd) (w : World T) : Step g w g w :=
  ⟨le_refl _, le_refl _, le_refl _, le_refl _, fun _ h => .inl h, fun _ h => .inl h, fun _ h => .inl h, fun _ h => .inl h,
    fun _ _ _ => rfl, fun _ _ _ => rfl, fun _ _ _ => rfl, fun _ _ _ => rfl⟩

theorem Step.trans (h : Step g w g' w') (h' : Step g' w' g'' w'') : Step g w g'' w'' where
  ncell := le_trans h.ncell h'.ncell
  nnode := le_trans h.nnode h'.nnode
  nlayer := le_trans h.nlayer h'.nlayer
  nnet := le_trans h.nnet h'.nnet
  gcell := fun q hq => (h'.gcell q hq).elim (h.gcell q) fun x => .inr (le_trans h.ncell x)
  gnode := fun q hq => (h'.gnode q hq).elim (h.gnode q) fun x => .inr (le_trans h.nnode x)
  glayer := fun q hq => (h'.glayer q hq).elim (h.glayer q) fun x => .inr (le_trans h.nlayer x)
  gnet := fun q hq => (h'.gnet q hq).elim (h.gnet q) fun x => .inr (le_trans h.nnet x)
  cell := fun q hq hn => (h'.cell q (lt_of_lt_of_le hq h.ncell) fun x => (h.gcell q x).elim hn (by omega)).trans (h.cell q hq hn)
  node := fun q hq hn => (h'.node q (lt_of_lt_of_le hq h.nnode) fun x => (h.gnode q x).elim hn (by omega)).trans (h.node q hq hn)
  layer := fun q hq hn => (h'.layer q (lt_of_lt_of_le hq h.nlayer) fun x => (h.glayer q x).elim hn (by omega)).trans (h.layer q hq hn)
  net := fun q hq hn => (h'.net q (lt_of_lt_of_le hq h.nnet) fun x => (h.gnet q x).elim hn (by omega)).trans (h.net q hq hn)


/-- the run stays in the part; `b` and `b'`: the context is in it before and after -/
def Cl2 (b b' : Bool) (g : Sd) (a : Run T α) (R : Sd → α → Prop) : Prop := ∀ w, In b g w → match a w with
  | .ok r w' => ∃ g', Le g g' ∧ Step g w g' w' ∧ In b' g' w' ∧ R g' r
  | .err _ w' => ∃ g', Le g g' ∧ Step g w g' w' ∧ In false g' w'
  | .panic => True

abbrev Cl (b : Bool) (g : Sd) (a : Run T α) (R : Sd → α → Prop) : Prop := Cl2 b b g a R

variable {b1 b2 b3 : Bool}

theorem Cl2.bind {a : Run T α} {f : α → Run T β} {Q : Sd → α → Prop} {R : Sd → β → Prop} (h : Cl2 b1 b2 g a Q)
    (hf : ∀ g' x, Le g g' → Q g' x → Cl2 b2 b3 g' (f x) R) : Cl2 b1 b3 g (a >>= f) R := by
  intro w hi
  have H := h w hi
  show match (a w).bind f with
    | .ok r w' => ∃ g', Le g g' ∧ Step g w g' w' ∧ In b3 g' w' ∧ R g' r
    | .err _ w' => ∃ g', Le g g' ∧ Step g w g' w' ∧ In false g' w'
    | .panic => True
  cases e : a w with
  | ok x w1 =>
    rw [e] at H
    obtain ⟨g1, l1, s1, i1, q⟩ := H
    have H2 := hf g1 x l1 q w1 i1
    show match f x w1 with
      | .ok r w' => ∃ g', Le g g' ∧ Step g w g' w' ∧ In b3 g' w' ∧ R g' r
      | .err _ w' => ∃ g', Le g g' ∧ Step g w g' w' ∧ In false g' w'
      | .panic => True
    cases e2 : f x w1 with
    | ok y w2 =>
      rw [e2] at H2
      obtain ⟨g2, l2, s2, i2, q2⟩ := H2
      exact ⟨g2, l1.trans l2, s1.trans s2, i2, q2⟩
    | err e w2 =>
      rw [e2] at H2
      obtain ⟨g2, l2, s2, i2⟩ := H2
      exact ⟨g2, l1.trans l2, s1.trans s2, i2⟩
    | panic => trivial
  | err e1 w' => rw [e] at H; exact H
  | panic => trivial

theorem Cl.bind {a : Run T α} {f : α → Run T β} {Q : Sd → α → Prop} {R : Sd → β → Prop} (h : Cl b g a Q)
    (hf : ∀ g' x, Le g g' → Q g' x → Cl b g' (f x) R) : Cl b g (a >>= f) R := Cl2.bind h hf

theorem Cl2.mono {a : Run T α} {Q R : Sd → α → Prop} (h : Cl2 b1 b2 g a Q) (hq : ∀ g' x, Le g g' → Q g' x → R g' x) : Cl2 b1 b2 g a R := by
  intro w hi
  have H := h w hi
  cases e : a w with
  | ok x w' => rw [e] at H; obtain ⟨g1, l1, s1, i1, q⟩ := H; exact ⟨g1, l1, s1, i1, hq _ _ l1 q⟩
  | err e1 w' => rw [e] at H; exact H
  | panic => trivial

theorem Cl2.forget {a : Run T α} {Q : Sd → α → Prop} (h : Cl2 b1 b2 g a Q) : Cl2 b1 false g a Q := by
  intro w hi
  have H := h w hi
  cases e : a w with
  | ok x w' => rw [e] at H; obtain ⟨g1, l1, s1, i1, q⟩ := H; exact ⟨g1, l1, s1, i1.forget, q⟩
  | err e1 w' => rw [e] at H; exact H
  | panic => trivial

theorem Cl.pure {R : Sd → α → Prop} (x : α) (h : R g x) : Cl b g (Pure.pure x : Run T α) R := fun w hi => ⟨g, Le.refl g, Step.refl g w, hi, h⟩

theorem Cl.abort {R : Sd → α → Prop} : Cl2 b1 b2 g (Run.abort : Run T α) R := fun _ _ => trivial

theorem Cl.fail {R : Sd → α → Prop} (e : Err) : Cl2 b1 b2 g (Run.fail e : Run T α) R := fun w hi => ⟨g, Le.refl g, Step.refl g w, hi.forget⟩

theorem Cl.deref {P : Sd → α → Prop} {o : Option α} (h : ∀ x, o = some x → P g x) : Cl b g (Run.deref o : Run T α) P := by
  cases o with
  | none => exact Cl.abort
  | some x => exact Cl.pure x (h x rfl)

theorem Cl.lift {P : Sd → α → Prop} (r : Res α) (h : ∀ x, r = .ok x → P g x) : Cl b g (Run.lift r : Run T α) P := by
  cases r with
  | ok x => exact Cl.pure x (h x rfl)
  | err e => exact Cl.fail e
  | panic => exact Cl.abort

theorem Cl.each {ι : Type} {l : List ι} {f : ι → Run T Unit} (h : ∀ i ∈ l, ∀ g', Le g g' → Cl b g' (f i) fun _ _ => True) :
    Cl b g (Run.each l f) fun _ _ => True := by
  induction l generalizing g with
  | nil => exact Cl.pure () trivial
  | cons i l ih =>
    exact Cl.bind (h i List.mem_cons_self g (Le.refl g)) fun g1 _ l1 _ => ih fun j hj g2 l2 => h j (List.mem_cons_of_mem _ hj) g2 (l1.trans l2)

theorem Cl.collect {ι : Type} {l : List ι} {f : ι → Run T α} {P : Sd → α → Prop} (hP : ∀ g g' x, Le g g' → P g x → P g' x)
    (h : ∀ i ∈ l, ∀ g', Le g g' → Cl b g' (f i) P) : Cl b g (Run.collect l f) fun g' as => ∀ a ∈ as, P g' a := by
  induction l generalizing g with
  | nil => exact Cl.pure [] fun a ha => by cases ha
  | cons i l ih =>
    refine Cl.bind (h i List.mem_cons_self g (Le.refl g)) fun g1 x l1 h1 => Cl.bind (ih fun j hj g2 l2 => h j (List.mem_cons_of_mem _ hj) g2 (l1.trans l2)) fun g2 y l2 h2 => ?_
    refine Cl.pure (x :: y) fun a ha => ?_
    rcases List.mem_cons.1 ha with rfl | ha
    · exact hP _ _ _ l2 h1
    · exact h2 a ha

theorem Cl.foldlM {ι : Type} {l : List ι} {f : β → ι → Run T β} {P : Sd → β → Prop} (hP : ∀ g g' x, Le g g' → P g x → P g' x) (x : β) (hx : P g x)
    (h : ∀ x i g', Le g g' → P g' x → Cl b g' (f x i) P) : Cl b g (l.foldlM f x) P := by
  induction l generalizing g x with
  | nil => exact Cl.pure x hx
  | cons i l ih =>
    exact Cl.bind (h x i g (Le.refl g) hx) fun g1 b1 l1 h1 => ih b1 h1 fun b' j g2 l2 hb => h b' j g2 (l1.trans l2) hb

theorem Cl.layer {l : Nat} (h : g.layer l) : Cl b g (Run.layer l : Run T (Layer T)) fun g' x => LayerIn g' x :=
  fun w hi => ⟨g, Le.refl g, Step.refl g w, hi, hi.layers l h⟩

theorem Cl.net {m : Nat} (h : g.net m) : Cl b g (Run.net m : Run T (Net T)) fun g' x => NetIn g' x :=
  fun w hi => ⟨g, Le.refl g, Step.refl g w, hi, hi.nets m h⟩

theorem Cl.matAny (n : Nat) : Cl b g (Run.mat n : Run T Mat) fun _ _ => True := fun w hi => ⟨g, Le.refl g, Step.refl g w, hi, trivial⟩

theorem Cl.mat {n : Nat} (h : g.node n) : Cl b g (Run.mat n : Run T Mat) fun g' x => ∀ q ∈ x.ops, g'.cell q :=
  fun w hi => ⟨g, Le.refl g, Step.refl g w, hi, (hi.nodes n h).ops⟩

theorem Cl.fuel : Cl b g (Run.fuel : Run T Nat) fun _ _ => True := fun w hi => ⟨g, Le.refl g, Step.refl g w, hi, trivial⟩

theorem Cl.ops : Cl true g (Run.ops : Run T (List (Op T))) fun g' x => OpsIn g' x := fun w hi => ⟨g, Le.refl g, Step.refl g w, hi, hi.ctx rfl⟩

theorem Cl.value (p : Nat) : Cl b g (Run.value p : Run T T) fun _ _ => True := by
  intro w hi
  unfold Run.value
  cases w.store.heap.load p with
  | ok _ => exact ⟨g, Le.refl g, Step.refl g w, hi, trivial⟩
  | err _ => exact ⟨g, Le.refl g, Step.refl g w, hi.forget⟩
  | panic => trivial

theorem Cl.operand {n : Nat} (h : g.node n) (idx : List Nat) : Cl b g (Run.operand n idx : Run T Nat) fun g' p => g'.cell p :=
  Cl.bind (Cl.mat h) fun _ _ _ hx => Cl.lift _ fun p hp => hx p (Own.operand_mem hp)

theorem Cl.operandAt {n : Nat} (h : g.node n) (i : Nat) : Cl b g (Run.operandAt n i : Run T Nat) fun g' p => g'.cell p :=
  Cl.bind (Cl.mat h) fun _ _ _ hx => Cl.lift _ fun p hp => hx p (Own.index_mem hp)

theorem Cl.ite {c : Prop} [Decidable c] {a a' : Run T α} {Q : Sd → α → Prop} (ha : c → Cl2 b1 b2 g a Q) (hb : ¬ c → Cl2 b1 b2 g a' Q) :
    Cl2 b1 b2 g (if c then a else a') Q := by
  split
  · next h => exact ha h
  · next h => exact hb h

theorem Cl.ignoreErr {a : Run T Unit} (h : Cl2 b1 b2 g a fun _ _ => True) : Cl2 b1 false g (LayerM.ignoreErr a) fun _ _ => True := by
  intro w hi
  have H := h w hi
  unfold LayerM.ignoreErr
  cases e : a w with
  | ok x w' => rw [e] at H; obtain ⟨g1, h1, h2, h3, h4⟩ := H; exact ⟨g1, h1, h2, h3.forget, trivial⟩
  | err e1 w' => rw [e] at H; obtain ⟨g1, h1, h2, h3⟩ := H; exact ⟨g1, h1, h2, h3, trivial⟩
  | panic => trivial

end Side
end Godeep
