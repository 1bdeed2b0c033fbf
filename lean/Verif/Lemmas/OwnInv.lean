import Verif.Lemmas.OwnFin
/-
  Weights and biases belong to their layers: a labelling of the cells by the layer whose weights or bias they are, an
  invariant of all states, and what may change from one state to a later one.
-/
set_option linter.unusedSectionVars false

namespace Godeep
open Spec GoNum

variable {T : Type} [GoNum T] {α β : Type}

namespace Own

/-- a state with labels: for each cell the layer whose weights or bias it is in, which tensors have no elements in a
layer's weights or bias, and for each cell the random number that it held first -/
structure G (T : Type) where
  own : Nat → Option Nat
  clean : Nat → Prop
  src : Nat → Option (Nat × Nat)
  w : World T

/-- a cell that is in no layer's weights or bias -/
def Safe (g : G T) (q : Nat) : Prop := q < g.w.store.heap.next ∧ g.own q = none

/-- the tensors that fill and copy write to -/
def target : Kind T → List Nat
  | .fill t _ => [t]
  | .copy _ t => [t]
  | _ => []

/-- the operations write to safe cells only -/
def SafeOps (g : G T) (l : List (Op T)) : Prop := ∀ o ∈ l, ∀ q, dst o = some q → Safe g q

/-- a plain tensor whose elements are in the weights or bias of layer `l` -/
structure Owned (g : G T) (l n : Nat) : Prop where
  lt : n < g.w.nodeNext
  leaf : (g.w.store.nodes n).kind = .leaf
  ops : ∀ q ∈ (g.w.store.nodes n).mat.ops, q < g.w.store.heap.next ∧ g.own q = some l

/-- elements are all different, as many as the shape says -/
structure Solid (m : Mat) : Prop where
  mul : m.mul = indexMul m.shape
  len : m.ops.length = dataSize m.shape
  nodup : m.ops.Nodup

/-- weights and bias are solid and share no element -/
structure Neat (w : World T) (x : Layer T) : Prop where
  solid : ∀ n, x.weights = some n ∨ x.bias = some n → Solid (w.store.nodes n).mat
  apart : ∀ n k, x.weights = some n → x.bias = some k → ∀ q ∈ (w.store.nodes n).mat.ops, q ∉ (w.store.nodes k).mat.ops

/-- no two cells held the same random number first, and all these numbers have been drawn -/
structure SrcOk (g : G T) : Prop where
  inj : ∀ q q' s, g.src q = some s → g.src q' = some s → q = q'
  lt : ∀ q s, g.src q = some s → q < g.w.store.heap.next ∧ s.1 < g.w.draws

/-- the elements of a tensor held the numbers of one draw first -/
def Drawn (g : G T) (n : Nat) : Prop := ∃ k, k < g.w.draws ∧ ∀ i q, (g.w.store.nodes n).mat.ops[i]? = some q → g.src q = some (k, i)

/-- holds in all states -/
structure Inv (g : G T) : Prop where
  next : 0 < g.w.store.heap.next
  zero : g.own 0 = none
  fresh : ∀ q, g.w.store.heap.next ≤ q → g.own q = none
  ctx : SafeOps g g.w.store.ctx
  sound : ∀ n, g.clean n → ∀ q ∈ (g.w.store.nodes n).mat.ops, Safe g q
  lt : ∀ n, g.clean n → n < g.w.nodeNext
  views : ∀ n, g.clean n → ∀ k ∈ (g.w.store.nodes n).kind.views, g.clean k
  tgt : ∀ n, ∀ t ∈ target (g.w.store.nodes n).kind, g.clean t
  input : ∀ l n, (g.w.layers l).input = some n → g.clean n
  output : ∀ l n, (g.w.layers l).output = some n → g.clean n
  dif : ∀ l n, (g.w.layers l).dif = some n → g.clean n
  ref : ∀ l, Safe g (g.w.layers l).ref
  wts : ∀ l n, (g.w.layers l).weights = some n ∨ (g.w.layers l).bias = some n → Owned g l n
  neat : ∀ l, Neat g.w (g.w.layers l)
  unff : ∀ l, (g.w.layers l).ff = false → (g.w.layers l).weights = none ∧ (g.w.layers l).bias = none
  unused : ∀ l, g.w.layerNext ≤ l → (g.w.layers l).ff = false
  pre : ∀ l p, (g.w.layers l).pre = some p → p < g.w.layerNext
  cat : ∀ l a b d, (g.w.layers l).kind = .concat a b d → a < g.w.layerNext ∧ b < g.w.layerNext
  nin : ∀ m n, (g.w.nets m).input = some n → g.clean n
  nout : ∀ m n, (g.w.nets m).output = some n → g.clean n
  ntgt : ∀ m n, (g.w.nets m).target = some n → g.clean n
  nal : ∀ m, Safe g (g.w.nets m).alpha
  nmo : ∀ m, Safe g (g.w.nets m).momentum
  nff : ∀ m l, (g.w.nets m).ff = some l → SafeOps g l
  nbp : ∀ m l, (g.w.nets m).bp = some l → SafeOps g l
  ncd : ∀ m l, (g.w.nets m).calDif = some l → SafeOps g l
  nrf : ∀ m l, (g.w.nets m).resetFit = some l → SafeOps g l
  nrs : ∀ m l, (g.w.nets m).reset = some l → SafeOps g l
  nfirst : ∀ m l, (g.w.nets m).first = some l → l < g.w.layerNext
  nlast : ∀ m l, (g.w.nets m).last = some l → l < g.w.layerNext
  src : SrcOk g
  drawn : ∀ l n, (g.w.layers l).weights = some n ∨ (g.w.layers l).bias = some n → Drawn g n

/-- the layers that may get other weight and bias tensors, and whether the links of layers, the last layers of models and
the layers that are trainable may change; and whether layers that are not trainable may become trainable -/
abbrev Chg := (Nat → Prop) × Prop × Prop

/-- what may change: only layers in `A` may get other values in their weights and bias, and only what `B` says -/
structure Le (A : Nat → Prop) (B : Chg) (g g' : G T) : Prop where
  heap : g.w.store.heap.next ≤ g'.w.store.heap.next
  own : ∀ q, q < g.w.store.heap.next → g'.own q = g.own q
  clean : ∀ n, g.clean n → g'.clean n
  val : ∀ q l, g.own q = some l → ¬ A l → g'.w.store.heap.val q = g.w.store.heap.val q
  node : g.w.nodeNext ≤ g'.w.nodeNext
  kind : ∀ n, n < g.w.nodeNext → (g'.w.store.nodes n).kind = (g.w.store.nodes n).kind
  leaf : ∀ n, n < g.w.nodeNext → (g.w.store.nodes n).kind = .leaf → (g'.w.store.nodes n).mat = (g.w.store.nodes n).mat
  layer : g.w.layerNext ≤ g'.w.layerNext
  ff : ∀ l, (g.w.layers l).ff = true → (g'.w.layers l).ff = true
  wts : ∀ l, ¬ B.1 l → (g.w.layers l).ff = true → (g'.w.layers l).weights = (g.w.layers l).weights ∧ (g'.w.layers l).bias = (g.w.layers l).bias
  same : ¬ B.2.1 → (∀ l, (g'.w.layers l).trainable = (g.w.layers l).trainable ∧ (g'.w.layers l).pre = (g.w.layers l).pre) ∧
    ∀ m, (g'.w.nets m).last = (g.w.nets m).last
  src : ∀ q, q < g.w.store.heap.next → g'.src q = g.src q
  draws : g.w.draws ≤ g'.w.draws
  rnd : g'.w.rnd = g.w.rnd
  new : ∀ q l s, g.w.store.heap.next ≤ q → g'.src q = some s → g'.own q = some l → ¬ A l → g'.w.store.heap.val q = g'.w.rnd s.1 s.2
  train : ¬ B.2.2 → ∀ l, l < g.w.layerNext → (g.w.layers l).trainable = false → (g'.w.layers l).trainable = false
  net : g.w.netNext ≤ g'.w.netNext
  kinds : ∀ l, l < g.w.layerNext → (g'.w.layers l).kind = (g.w.layers l).kind
  first : ¬ B.2.1 → ∀ m, (g'.w.nets m).first = (g.w.nets m).first

variable {A : Nat → Prop} {B : Chg} {g g' g'' : G T}

/-- no new random numbers -/
theorem SrcOk.new (h : SrcOk g) {P : Prop} (q : Nat) (s : Nat × Nat) (hq : g.w.store.heap.next ≤ q) (hs : g.src q = some s) : P :=
  absurd (h.lt q s hs).1 (not_lt.2 hq)

theorem Le.refl (hi : Inv g) : Le A B g g :=
  ⟨le_refl _, fun _ _ => rfl, fun _ h => h, fun _ _ _ _ => rfl, le_refl _, fun _ _ => rfl, fun _ _ _ => rfl, le_refl _, fun _ h => h, fun _ _ _ => ⟨rfl, rfl⟩, fun _ => ⟨fun _ => ⟨rfl, rfl⟩, fun _ => rfl⟩,
    fun _ _ => rfl, le_refl _, rfl, fun q _ s h1 h2 _ _ => hi.src.new q s h1 h2, fun _ _ _ h => h, le_refl _, fun _ _ => rfl, fun _ _ => rfl⟩

theorem Le.trans (hi : Inv g) (h1 : Le A B g g') (h2 : Le A B g' g'') : Le A B g g'' := by
  have lt : ∀ q l, g.own q = some l → q < g.w.store.heap.next := fun q l h => by
    by_contra hc
    rw [hi.fresh q (not_lt.1 hc)] at h
    cases h
  refine ⟨le_trans h1.heap h2.heap, fun q hq => by rw [h2.own q (lt_of_lt_of_le hq h1.heap), h1.own q hq], fun n h => h2.clean n (h1.clean n h), fun q l hq hA => ?_,
    le_trans h1.node h2.node, fun n hn => by rw [h2.kind n (lt_of_lt_of_le hn h1.node), h1.kind n hn],
    fun n hn hl => by rw [h2.leaf n (lt_of_lt_of_le hn h1.node) (by rw [h1.kind n hn]; exact hl), h1.leaf n hn hl],
    le_trans h1.layer h2.layer, fun l h => h2.ff l (h1.ff l h), fun l hB h => ?_,
    fun hB => ⟨fun l => ⟨(((h2.same hB).1 l).1).trans ((h1.same hB).1 l).1, (((h2.same hB).1 l).2).trans ((h1.same hB).1 l).2⟩,
      fun m => ((h2.same hB).2 m).trans ((h1.same hB).2 m)⟩,
    fun q hq => by rw [h2.src q (lt_of_lt_of_le hq h1.heap), h1.src q hq], le_trans h1.draws h2.draws, h2.rnd.trans h1.rnd, fun q l s hq hs ho hA => ?_,
    fun hB l hl ht => h2.train hB l (lt_of_lt_of_le hl h1.layer) (h1.train hB l hl ht), le_trans h1.net h2.net,
    fun l hl => (h2.kinds l (lt_of_lt_of_le hl h1.layer)).trans (h1.kinds l hl), fun hB m => (h2.first hB m).trans (h1.first hB m)⟩
  · rw [h2.val q l (by rw [h1.own q (lt q l hq)]; exact hq) hA, h1.val q l hq hA]
  · obtain ⟨x1, x2⟩ := h1.wts l hB h
    obtain ⟨y1, y2⟩ := h2.wts l hB (h1.ff l h)
    exact ⟨by rw [y1, x1], by rw [y2, x2]⟩
  · by_cases hq' : q < g'.w.store.heap.next
    · rw [h2.src q hq'] at hs
      rw [h2.own q hq'] at ho
      rw [h2.val q l ho hA, h2.rnd]
      exact h1.new q l s hq hs ho hA
    · exact h2.new q l s (not_lt.1 hq') hs ho hA

theorem Safe.le {q : Nat} (h : Safe g q) (hl : Le A B g g') : Safe g' q := ⟨lt_of_lt_of_le h.1 hl.heap, by rw [hl.own q h.1]; exact h.2⟩

theorem SafeOps.le {l : List (Op T)} (h : SafeOps g l) (hl : Le A B g g') : SafeOps g' l := fun o ho q hq => (h o ho q hq).le hl

theorem Owned.le {l n : Nat} (h : Owned g l n) (hl : Le A B g g') : Owned g' l n :=
  ⟨lt_of_lt_of_le h.lt hl.node, by rw [hl.kind n h.lt]; exact h.leaf, fun q hq => by
    rw [hl.leaf n h.lt h.leaf] at hq
    obtain ⟨x, y⟩ := h.ops q hq
    exact ⟨lt_of_lt_of_le x hl.heap, by rw [hl.own q x]; exact y⟩⟩

theorem Drawn.le {l n : Nat} (h : Drawn g n) (ho : Owned g l n) (hl : Le A B g g') : Drawn g' n := by
  obtain ⟨k, hk, h⟩ := h
  refine ⟨k, lt_of_lt_of_le hk hl.draws, fun i q hq => ?_⟩
  rw [hl.leaf n ho.lt ho.leaf] at hq
  rw [hl.src q (ho.ops q (List.mem_of_getElem? hq)).1]
  exact h i q hq

theorem SrcOk.le (h : SrcOk g) (hl : Le A B g g') (e : g'.src = g.src) : SrcOk g' :=
  ⟨by rw [e]; exact h.inj, by rw [e]; exact fun q s hs => ⟨lt_of_lt_of_le (h.lt q s hs).1 hl.heap, lt_of_lt_of_le (h.lt q s hs).2 hl.draws⟩⟩

theorem Neat.congr {w w' : World T} {x : Layer T} (h : Neat w x) (hn : ∀ n, x.weights = some n ∨ x.bias = some n → (w'.store.nodes n).mat = (w.store.nodes n).mat) :
    Neat w' x :=
  ⟨fun n hx => by rw [hn n hx]; exact h.solid n hx, fun n k h1 h2 => by rw [hn n (.inl h1), hn k (.inr h2)]; exact h.apart n k h1 h2⟩

/-- `k` is `l` or in front of it -/
inductive Path (w : World T) : Nat → Nat → Prop
  | refl (l : Nat) : Path w l l
  | step {l p k : Nat} : (w.layers l).pre = some p → Path w p k → Path w l k

/-- the trainable layers in front of `l` are in `A` -/
def Tr (A : Nat → Prop) (g : G T) (l : Nat) : Prop := ∀ k, Path g.w l k → (g.w.layers k).trainable = true → A k

theorem Path.congr {w w' : World T} (h : ∀ l, (w'.layers l).pre = (w.layers l).pre) {l k : Nat} (hp : Path w' l k) : Path w l k := by
  induction hp with
  | refl l => exact .refl l
  | step hq _ ih => exact .step (by rw [← h]; exact hq) ih

theorem Tr.le {l : Nat} (h : Tr A g l) (hB : ¬ B.2.1) (hl : Le A B g g') : Tr A g' l := fun k hp ht =>
  h k (hp.congr fun x => ((hl.same hB).1 x).2) (by rw [← ((hl.same hB).1 k).1]; exact ht)

/-- from a state `g`: whatever the result, the invariant holds again and only what may change has changed; with a result
`x`, `Q` holds -/
def At (A : Nat → Prop) (B : Chg) (g : G T) (a : Run T α) (Q : G T → α → Prop) : Prop :=
  Inv g → match a g.w with
    | .ok x w' => ∃ g' : G T, g'.w = w' ∧ Inv g' ∧ Le A B g g' ∧ Q g' x
    | .err _ w' => ∃ g' : G T, g'.w = w' ∧ Inv g' ∧ Le A B g g'
    | .panic => True

theorem At.bind {a : Run T α} {f : α → Run T β} {Q : G T → α → Prop} {R : G T → β → Prop} (h : At A B g a Q)
    (hf : ∀ g' x, Le A B g g' → Q g' x → At A B g' (f x) R) : At A B g (a >>= f) R := by
  intro hi
  have H := h hi
  show match (a g.w).bind f with
    | .ok x w' => ∃ g' : G T, g'.w = w' ∧ Inv g' ∧ Le A B g g' ∧ R g' x
    | .err _ w' => ∃ g' : G T, g'.w = w' ∧ Inv g' ∧ Le A B g g'
    | .panic => True
  cases e : a g.w with
  | ok x w' =>
    rw [e] at H
    obtain ⟨g1, rfl, i1, l1, q⟩ := H
    have H2 := hf g1 x l1 q i1
    show match f x g1.w with
      | .ok x w' => ∃ g' : G T, g'.w = w' ∧ Inv g' ∧ Le A B g g' ∧ R g' x
      | .err _ w' => ∃ g' : G T, g'.w = w' ∧ Inv g' ∧ Le A B g g'
      | .panic => True
    cases e2 : f x g1.w with
    | ok y w'' =>
      rw [e2] at H2
      obtain ⟨g2, rfl, i2, l2, q2⟩ := H2
      exact ⟨g2, rfl, i2, l1.trans hi l2, q2⟩
    | err e w'' =>
      rw [e2] at H2
      obtain ⟨g2, rfl, i2, l2⟩ := H2
      exact ⟨g2, rfl, i2, l1.trans hi l2⟩
    | panic => trivial
  | err e1 w' => rw [e] at H; exact H
  | panic => trivial

theorem At.mono {a : Run T α} {Q R : G T → α → Prop} (h : At A B g a Q) (hq : ∀ g' x, Le A B g g' → Q g' x → R g' x) : At A B g a R := by
  intro hi
  have H := h hi
  cases e : a g.w with
  | ok x w' => rw [e] at H; obtain ⟨g1, rfl, i1, l1, q⟩ := H; exact ⟨g1, rfl, i1, l1, hq _ _ l1 q⟩
  | err e1 w' => rw [e] at H; exact H
  | panic => trivial

theorem At.pure {Q : G T → α → Prop} (x : α) (h : Inv g → Q g x) : At A B g (Pure.pure x : Run T α) Q := fun hi => ⟨g, rfl, hi, Le.refl hi, h hi⟩

theorem At.abort {Q : G T → α → Prop} : At A B g (Run.abort : Run T α) Q := fun _ => trivial

theorem At.fail {Q : G T → α → Prop} (e : Err) : At A B g (Run.fail e : Run T α) Q := fun hi => ⟨g, rfl, hi, Le.refl hi⟩

theorem At.deref {Q : G T → α → Prop} (o : Option α) (h : ∀ x, o = some x → Inv g → Q g x) : At A B g (Run.deref o : Run T α) Q := by
  cases o with
  | none => exact At.abort
  | some x => exact At.pure x (h x rfl)

theorem At.lift {Q : G T → α → Prop} (r : Res α) (h : ∀ x, r = .ok x → Inv g → Q g x) : At A B g (Run.lift r : Run T α) Q := by
  cases r with
  | ok x => exact At.pure x (h x rfl)
  | err e => exact At.fail e
  | panic => exact At.abort

theorem At.each {ι : Type} {l : List ι} {f : ι → Run T Unit} (h : ∀ i g', Le A B g g' → At A B g' (f i) fun _ _ => True) :
    At A B g (Run.each l f) fun _ _ => True := by
  induction l generalizing g with
  | nil => exact At.pure () fun _ => trivial
  | cons i l ih =>
    intro hi
    exact At.bind (h i g (Le.refl hi)) (fun g1 _ l1 _ => ih fun j g2 l2 => h j g2 (l1.trans hi l2)) hi

theorem At.collect {ι : Type} {l : List ι} {f : ι → Run T α} (h : ∀ i g', Le A B g g' → At A B g' (f i) fun _ _ => True) :
    At A B g (Run.collect l f) fun _ _ => True := by
  induction l generalizing g with
  | nil => exact At.pure [] fun _ => trivial
  | cons i l ih =>
    intro hi
    exact At.bind (Q := fun _ _ => True) (R := fun _ _ => True) (h i g (Le.refl hi)) (fun g1 x l1 _ => At.bind (Q := fun _ _ => True) (R := fun _ _ => True) (ih fun j g2 l2 => h j g2 (l1.trans hi l2)) fun g3 y _ _ => At.pure (x :: y) fun _ => trivial) hi

theorem At.foldlM {ι : Type} {l : List ι} {f : β → ι → Run T β} (b : β) (h : ∀ b i g', Le A B g g' → At A B g' (f b i) fun _ _ => True) :
    At A B g (l.foldlM f b) fun _ _ => True := by
  induction l generalizing g b with
  | nil => exact At.pure b fun _ => trivial
  | cons i l ih =>
    intro hi
    exact At.bind (h b i g (Le.refl hi)) (fun g1 b1 l1 _ => ih b1 fun b' j g2 l2 => h b' j g2 (l1.trans hi l2)) hi

theorem At.layer (l : Nat) : At A B g (Run.layer l) fun g' x => Inv g' ∧ x = g'.w.layers l := fun hi => ⟨g, rfl, hi, Le.refl hi, hi, rfl⟩

theorem At.net (l : Nat) : At A B g (Run.net l) fun g' x => Inv g' ∧ x = g'.w.nets l := fun hi => ⟨g, rfl, hi, Le.refl hi, hi, rfl⟩

theorem At.mat (n : Nat) : At A B g (Run.mat n) fun g' x => Inv g' ∧ x = (g'.w.store.nodes n).mat := fun hi => ⟨g, rfl, hi, Le.refl hi, hi, rfl⟩

theorem At.fuel : At A B g (Run.fuel : Run T Nat) fun _ _ => True := fun hi => ⟨g, rfl, hi, Le.refl hi, trivial⟩

theorem At.ops : At A B g (Run.ops : Run T (List (Op T))) fun g' x => SafeOps g' x := fun hi => ⟨g, rfl, hi, Le.refl hi, hi.ctx⟩

theorem At.value (p : Nat) : At A B g (Run.value p : Run T T) fun _ _ => True := by
  intro hi
  unfold Run.value
  cases g.w.store.heap.load p with
  | ok _ => exact ⟨g, rfl, hi, Le.refl hi, trivial⟩
  | err _ => exact ⟨g, rfl, hi, Le.refl hi⟩
  | panic => trivial

theorem At.operand (n : Nat) (idx : List Nat) : At A B g (Run.operand n idx : Run T Nat) fun g' p => g'.clean n → Safe g' p :=
  At.bind (At.mat n) fun g' x _ hx => At.lift _ fun p hp hi hc => by
    rw [hx.2] at hp
    exact hi.sound n hc p (operand_mem hp)

theorem At.operandAt (n i : Nat) : At A B g (Run.operandAt n i : Run T Nat) fun g' p => g'.clean n → Safe g' p :=
  At.bind (At.mat n) fun g' x _ hx => At.lift _ fun p hp hi hc => by
    rw [hx.2] at hp
    exact hi.sound n hc p (index_mem hp)

theorem At.ite {c : Prop} [Decidable c] {a b : Run T α} {Q : G T → α → Prop} (ha : c → At A B g a Q) (hb : ¬ c → At A B g b Q) :
    At A B g (if c then a else b) Q := by
  split
  · next h => exact ha h
  · next h => exact hb h

end Own
end Godeep
