import Verif.Spec.Net
import Verif.Lemmas.Write
/-
  Rules for reasoning about programs that change the world.
-/
set_option linter.unusedSectionVars false

namespace Godeep
open Spec GoNum

variable {T : Type} {α β : Type}

/-- `a` started in `w` ends in `Q`; if `tot` it does end, otherwise it may also return an error or
abort -/
def wp (tot : Prop) (a : Run T α) (Q : α → World T → Prop) (w : World T) : Prop :=
  match a w with
  | .ok r w' => Q r w'
  | _ => ¬ tot

theorem wp_ok {tot : Prop} {a : Run T α} {Q : α → World T → Prop} {w w' : World T} {r : α}
    (h : wp tot a Q w) (e : a w = .ok r w') : Q r w' := by
  simpa only [wp, e] using h

theorem wp_total {a : Run T α} {Q : α → World T → Prop} {w : World T} (h : wp True a Q w) :
    ∃ r w', a w = .ok r w' ∧ Q r w' := by
  unfold wp at h
  split at h
  · exact ⟨_, _, by assumption, h⟩
  · exact absurd trivial h

theorem wp_mono {tot : Prop} {a : Run T α} {Q Q' : α → World T → Prop} {w : World T} (h : wp tot a Q w)
    (hq : ∀ r w', Q r w' → Q' r w') : wp tot a Q' w := by
  unfold wp at h ⊢
  split <;> simp_all

theorem wp_of_ok {tot : Prop} {a : Run T α} {Q : α → World T → Prop} {w w' : World T} {r : α}
    (e : a w = .ok r w') (h : Q r w') : wp tot a Q w := by
  simpa only [wp, e] using h

theorem wp_pure {tot : Prop} {a : α} {Q : α → World T → Prop} {w : World T} (h : Q a w) :
    wp tot (pure a : Run T α) Q w := h

theorem wp_bind {tot : Prop} {a : Run T α} {f : α → Run T β} {Q : β → World T → Prop} {w : World T}
    (h : wp tot a (fun r w' => wp tot (f r) Q w') w) : wp tot (a >>= f) Q w := by
  show wp tot (fun w => (a w).bind f) Q w
  unfold wp at h ⊢
  simp only
  cases ha : a w with
  | ok r w' => simp only [ha] at h; simpa only [Out.bind] using h
  | err e w' => simp only [ha] at h; simpa only [Out.bind] using h
  | panic => simp only [ha] at h; simpa only [Out.bind] using h

theorem wp_bind' {tot : Prop} {a : Run T α} {f : α → Run T β} {Q : β → World T → Prop} {w : World T}
    (h : wp tot a (fun r w' => wp tot (f r) Q w') w) : wp tot (Run.bind a f) Q w := wp_bind h

theorem wp_layer {tot : Prop} {l : Nat} {Q : Layer T → World T → Prop} {w : World T}
    (h : Q (w.layers l) w) : wp tot (Run.layer l) Q w := h

theorem wp_modify {tot : Prop} {l : Nat} {f : Layer T → Layer T} {Q : Unit → World T → Prop} {w : World T}
    (h : Q () { w with layers := fun k => if k = l then f (w.layers k) else w.layers k }) :
    wp tot (Run.modify l f) Q w := h

theorem wp_net {tot : Prop} {l : Nat} {Q : Net T → World T → Prop} {w : World T}
    (h : Q (w.nets l) w) : wp tot (Run.net l) Q w := h

theorem wp_mat {tot : Prop} {n : Nat} {Q : Mat → World T → Prop} {w : World T}
    (h : Q (w.store.nodes n).mat w) : wp tot (Run.mat n) Q w := h

theorem wp_deref {tot : Prop} {o : Option α} {a : α} {Q : α → World T → Prop} {w : World T}
    (ho : o = some a) (h : Q a w) : wp tot (Run.deref o) Q w := by subst ho; exact h

theorem wp_fail {e : Err} {Q : α → World T → Prop} {w : World T} {tot : Prop} (h : ¬ tot) :
    wp tot (Run.fail e : Run T α) Q w := h

theorem wp_abort {Q : α → World T → Prop} {w : World T} {tot : Prop} (h : ¬ tot) :
    wp tot (Run.abort : Run T α) Q w := h

theorem wp_lift {tot : Prop} {r : Res α} {a : α} {Q : α → World T → Prop} {w : World T} (hr : r = .ok a)
    (h : Q a w) : wp tot (Run.lift r) Q w := by subst hr; exact h

/-- a loop with an invariant on what has been done -/
theorem wp_each {tot : Prop} {ι : Type} {l : List ι} {f : ι → Run T Unit}
    (I : List ι → World T → Prop) {w : World T} (h0 : I [] w)
    (hs : ∀ d i r, l = d ++ i :: r → ∀ w, I d w → wp tot (f i) (fun _ w' => I (d ++ [i]) w') w) :
    wp tot (Run.each l f) (fun _ w' => I l w') w := by
  suffices H : ∀ (r d : List ι), l = d ++ r → ∀ w, I d w →
      wp tot (Run.each r f) (fun _ w' => I l w') w from H l [] rfl w h0
  intro r
  induction r with
  | nil => intro d hd w hI; rw [List.append_nil] at hd; subst hd; exact hI
  | cons i r ih =>
    intro d hd w hI
    refine wp_bind' (wp_mono (hs d i r hd w hI) fun _ w' hw' => ?_)
    exact ih (d ++ [i]) (by rw [hd]; simp) w' hw'

/-- a loop over `0 ..< n` -/
theorem wp_range {tot : Prop} {n : Nat} {f : Nat → Run T Unit} (I : Nat → World T → Prop) {w : World T}
    (h0 : I 0 w) (hs : ∀ i, i < n → ∀ w, I i w → wp tot (f i) (fun _ w' => I (i + 1) w') w) :
    wp tot (Run.each (List.range n) f) (fun _ w' => I n w') w := by
  have := wp_each (tot := tot) (l := List.range n) (f := f) (fun d w => I d.length w) (w := w) h0 ?_
  · simpa using this
  · intro d i r hd w hI
    have hl : d.length < n := by
      have := congrArg List.length hd; simp at this; omega
    have hi : i = d.length := by
      have := congrArg (fun l => l[d.length]?) hd
      simp [hl] at this
      exact this.symm
    subst hi
    simpa using hs _ hl w hI

/-- a collecting loop -/
theorem wp_collect {tot : Prop} {ι : Type} {l : List ι} {f : ι → Run T α}
    (I : List ι → List α → World T → Prop) {w : World T} (h0 : I [] [] w)
    (hs : ∀ d i r, l = d ++ i :: r → ∀ as w, I d as w →
      wp tot (f i) (fun a w' => I (d ++ [i]) (as ++ [a]) w') w) :
    wp tot (Run.collect l f) (fun as w' => I l as w') w := by
  suffices H : ∀ (r d : List ι) (as : List α), l = d ++ r → ∀ w, I d as w →
      wp tot (Run.collect r f) (fun bs w' => I l (as ++ bs) w') w by
    simpa using H l [] [] rfl w h0
  intro r
  induction r with
  | nil =>
    intro d as hd w hI; rw [List.append_nil] at hd; subst hd
    simp only [Run.collect]
    exact wp_pure (by simpa using hI)
  | cons i r ih =>
    intro d as hd w hI
    refine wp_bind' (wp_mono (hs d i r hd as w hI) fun a w' hw' => ?_)
    refine wp_bind' (wp_mono (ih (d ++ [i]) (as ++ [a]) (by rw [hd]; simp) w' hw') fun bs w'' hw'' => ?_)
    refine wp_pure ?_
    simpa using hw''

theorem wp_collect_range {tot : Prop} {n : Nat} {f : Nat → Run T α} (I : Nat → List α → World T → Prop)
    {w : World T} (h0 : I 0 [] w)
    (hs : ∀ i, i < n → ∀ as w, I i as w → wp tot (f i) (fun a w' => I (i + 1) (as ++ [a]) w') w) :
    wp tot (Run.collect (List.range n) f) (fun as w' => I n as w') w := by
  have := wp_collect (tot := tot) (l := List.range n) (f := f) (fun d as w => I d.length as w) (w := w) h0 ?_
  · simpa using this
  · intro d i r hd as w hI
    have hl : d.length < n := by
      have := congrArg List.length hd; simp at this; omega
    have hi : i = d.length := by
      have := congrArg (fun l => l[d.length]?) hd
      simp [hl] at this
      exact this.symm
    subst hi
    simpa using hs _ hl as w hI

variable [GoNum T]

/-- What code that builds part of a graph may change: it allocates scalars and tensors and pushes
`new`; it changes layers in `L` and scalars in `C`. -/
structure Grow (L : Nat → Prop) (C : Ptr → Prop) (new : List (Op T)) (w w' : World T) : Prop where
  next : w.store.heap.next ≤ w'.store.heap.next
  val : ∀ q, q < w.store.heap.next → ¬ C q → w'.store.heap.val q = w.store.heap.val q
  nodeNext : w.nodeNext ≤ w'.nodeNext
  kind : ∀ n, n < w.nodeNext → (w'.store.nodes n).kind = (w.store.nodes n).kind
  frozen : ∀ n, n < w.nodeNext → Spec.frozen w.store n →
    Spec.frozen w'.store n ∧ (w'.store.nodes n).mat = (w.store.nodes n).mat
  layers : ∀ l, ¬ L l → w'.layers l = w.layers l
  layerNext : w'.layerNext = w.layerNext
  nets : w'.nets = w.nets
  netNext : w'.netNext = w.netNext
  ctx : w'.store.ctx = w.store.ctx ++ new

theorem Grow.refl (L : Nat → Prop) (C : Ptr → Prop) (w : World T) : Grow L C [] w w :=
  ⟨le_refl _, fun _ _ _ => rfl, le_refl _, fun _ _ => rfl, fun _ _ h => ⟨h, rfl⟩, fun _ _ => rfl, rfl, rfl,
    rfl, by simp⟩

theorem Grow.trans {L : Nat → Prop} {C : Ptr → Prop} {n1 n2 : List (Op T)} {w1 w2 w3 : World T}
    (a : Grow L C n1 w1 w2) (b : Grow L C n2 w2 w3) : Grow L C (n1 ++ n2) w1 w3 where
  next := le_trans a.next b.next
  val q h1 h2 := by rw [b.val q (lt_of_lt_of_le h1 a.next) h2, a.val q h1 h2]
  nodeNext := le_trans a.nodeNext b.nodeNext
  kind n h := by rw [b.kind n (lt_of_lt_of_le h a.nodeNext), a.kind n h]
  frozen n h1 h2 := by
    obtain ⟨x1, x2⟩ := a.frozen n h1 h2
    obtain ⟨y1, y2⟩ := b.frozen n (lt_of_lt_of_le h1 a.nodeNext) x1
    exact ⟨y1, by rw [y2, x2]⟩
  layers l h := by rw [b.layers l h, a.layers l h]
  layerNext := by rw [b.layerNext, a.layerNext]
  nets := by rw [b.nets, a.nets]
  netNext := by rw [b.netNext, a.netNext]
  ctx := by rw [b.ctx, a.ctx, List.append_assoc]

theorem Grow.weaken {L L' : Nat → Prop} {C C' : Ptr → Prop} {new : List (Op T)} {w w' : World T}
    (a : Grow L C new w w') (hL : ∀ l, L l → L' l) (hC : ∀ q, C q → C' q) : Grow L' C' new w w' :=
  ⟨a.next, fun q h1 h2 => a.val q h1 fun h => h2 (hC q h), a.nodeNext, a.kind, a.frozen,
    fun l h => a.layers l fun h' => h (hL l h'), a.layerNext, a.nets, a.netNext, a.ctx⟩

/-- tensor `n` exists, is a plain tensor or already built, and its `TensorMat` is `m` -/
structure Ready (w : World T) (n : Nat) (m : Mat) : Prop where
  lt : n < w.nodeNext
  mat : (w.store.nodes n).mat = m
  frozen : Spec.frozen w.store n
  good : GoodMat w.store.heap m
  kids : ∀ c ∈ (w.store.nodes n).kind.kids, c < n
  scal : ScalarOK w.store.heap (w.store.nodes n).kind
  expr : (w.store.nodes n).kind.isExpr

theorem Ready.grow {L : Nat → Prop} {C : Ptr → Prop} {new : List (Op T)} {w w' : World T} {n : Nat} {m : Mat}
    (r : Ready w n m) (g : Grow L C new w w') : Ready w' n m := by
  obtain ⟨f1, f2⟩ := g.frozen n r.lt r.frozen
  refine ⟨lt_of_lt_of_le r.lt g.nodeNext, by rw [f2, r.mat], f1, r.good.mono g.next, ?_, ?_, ?_⟩
  · rw [g.kind n r.lt]; exact r.kids
  · rw [g.kind n r.lt]; exact scalarOK_mono r.scal g.next
  · rw [g.kind n r.lt]; exact r.expr

theorem Ready.toExpr {w : World T} {n : Nat} {m : Mat} (r : Ready w n m) : Expr w.store n := by
  have honly : ∀ k, Reach w.store n k → k = n := by
    intro k hk
    cases hk with
    | refl _ => rfl
    | step hb hc _ =>
      rcases frozen_cases r.frozen with h | h
      · rw [hb] at h; cases h
      · rw [h] at hc; simp [Kind.kids] at hc
  intro k hk
  rw [honly k hk]
  exact ⟨r.kids, fun _ => by rw [r.mat]; exact r.good, r.scal, r.expr⟩

theorem grow_modify {L : Nat → Prop} {C : Ptr → Prop} {l : Nat} (hl : L l) (f : Layer T → Layer T) (w : World T) :
    Grow L C [] w { w with layers := fun k => if k = l then f (w.layers k) else w.layers k } :=
  ⟨le_refl _, fun _ _ _ => rfl, le_refl _, fun _ _ => rfl, fun _ _ h => ⟨h, rfl⟩,
    fun k hk => if_neg (fun h : k = l => hk (by rw [h]; exact hl)), rfl, rfl, rfl, by simp⟩

theorem wp_push {tot : Prop} {o : Op T} {L : Nat → Prop} {C : Ptr → Prop} {w : World T} {Q : Unit → World T → Prop}
    (h : ∀ w', Grow L C [o] w w' → w'.store.heap = w.store.heap → w'.layers = w.layers →
      w'.nodeNext = w.nodeNext → w'.store.nodes = w.store.nodes → Q () w') :
    wp tot (Run.push o) Q w :=
  h _ ⟨le_refl _, fun _ _ _ => rfl, le_refl _, fun _ _ => rfl, fun _ _ h => ⟨h, rfl⟩,
    fun _ _ => rfl, rfl, rfl, rfl, rfl⟩ rfl rfl rfl rfl

theorem wp_scalar {tot : Prop} {v : T} {L : Nat → Prop} {C : Ptr → Prop} {w : World T} {Q : Ptr → World T → Prop}
    (h : ∀ w', Grow L C [] w w' → w'.store.heap.next = w.store.heap.next + 1 →
      w'.store.heap.val w.store.heap.next = v → w'.layers = w.layers → w'.store.nodes = w.store.nodes →
      w'.nodeNext = w.nodeNext → Q w.store.heap.next w') :
    wp tot (Run.scalar v) Q w := by
  refine h _ ⟨by simp [Heap.alloc], fun q h1 _ => ?_, le_refl _, fun _ _ => rfl, fun _ _ h => ⟨h, rfl⟩,
    fun _ _ => rfl, rfl, rfl, rfl, by simp⟩ rfl (by simp [Heap.alloc]) rfl rfl rfl
  show (if q = w.store.heap.next then v else w.store.heap.val q) = _
  rw [if_neg (by omega)]

theorem grow_newNode {L : Nat → Prop} {C : Ptr → Prop} (x : Node T) (w : World T) :
    Grow L C [] w { w with store := w.store.setNode w.nodeNext x, nodeNext := w.nodeNext + 1 } := by
  have h : ∀ n, n < w.nodeNext → (w.store.setNode w.nodeNext x).nodes n = w.store.nodes n := fun n hn => by
    simp only [Store.setNode]; rw [if_neg (by omega)]
  refine ⟨le_refl _, fun _ _ _ => rfl, Nat.le_succ _, fun n hn => ?_, fun n hn hf => ?_,
    fun _ _ => rfl, rfl, rfl, rfl, by simp [Store.setNode]⟩
  · show ((w.store.setNode w.nodeNext x).nodes n).kind = _; rw [h n hn]
  · refine ⟨?_, ?_⟩
    · show frozen (w.store.setNode w.nodeNext x) n
      unfold frozen; rw [h n hn]; exact hf
    · show ((w.store.setNode w.nodeNext x).nodes n).mat = _; rw [h n hn]

/-- a tensor constructor: a new plain tensor with distinct new scalars -/
theorem wp_leaf {tot : Prop} {f : Heap T → Out (Heap T) Mat} {L : Nat → Prop} {C : Ptr → Prop} {w : World T}
    {Q : Nat → World T → Prop} {t : STensor T} {h' : Heap T} {m : Mat} (hf : f w.store.heap = .ok m h')
    (hn : NewTensor w.store.heap h' m t)
    (h : ∀ w', Grow L C [] w w' → w'.store.heap = h' → w'.layers = w.layers → w'.nodeNext = w.nodeNext + 1 →
      w'.store.nodes w.nodeNext = ⟨.leaf, m, false⟩ → Ready w' w.nodeNext m → Q w.nodeNext w') :
    wp tot (Run.leaf f) Q w := by
  refine wp_bind' ?_
  have e : Run.heap f w = .ok m { w with store := { w.store with heap := h' } } := by
    simp only [Run.heap, hf]
  refine wp_of_ok e ?_
  set w1 : World T := { w with store := { w.store with heap := h' } } with hw1
  have g1 : Grow L C [] w w1 := ⟨hn.frame.next, fun q h1 _ => hn.frame.val q h1, le_refl _, fun _ _ => rfl,
    fun _ _ h => ⟨h, rfl⟩, fun _ _ => rfl, rfl, rfl, rfl, by simp [hw1]⟩
  show Q w1.nodeNext _
  have g2 := grow_newNode (L := L) (C := C) (⟨.leaf, m, false⟩ : Node T) w1
  have hnode : (w1.store.setNode w1.nodeNext ⟨.leaf, m, false⟩).nodes w.nodeNext = ⟨.leaf, m, false⟩ := by
    simp [Store.setNode, hw1]
  refine h _ (by simpa using g1.trans g2) rfl rfl rfl hnode ⟨Nat.lt_succ_self _, ?_, ?_, ?_, ?_, ?_, ?_⟩
  · show ((w1.store.setNode w1.nodeNext ⟨.leaf, m, false⟩).nodes w.nodeNext).mat = m; rw [hnode]
  · refine frozen_leaf ?_
    show ((w1.store.setNode w1.nodeNext ⟨.leaf, m, false⟩).nodes w.nodeNext).kind = _; rw [hnode]
  · exact ⟨hn.holds.mul, hn.holds.len, hn.holds.valid⟩
  · show ∀ c ∈ ((w1.store.setNode w1.nodeNext ⟨.leaf, m, false⟩).nodes w.nodeNext).kind.kids, _
    rw [hnode]; simp [Kind.kids]
  · show ScalarOK _ ((w1.store.setNode w1.nodeNext ⟨.leaf, m, false⟩).nodes w.nodeNext).kind
    rw [hnode]; trivial
  · show ((w1.store.setNode w1.nodeNext ⟨.leaf, m, false⟩).nodes w.nodeNext).kind.isExpr
    rw [hnode]; trivial

theorem newRand_new (rnd : Nat → T) (shape : List Nat) {h : Heap T} (hpos : 0 < h.next) :
    ∃ h' m, Mat.newRand rnd shape h = .ok m h' ∧ m.shape = shape ∧
      NewTensor h h' m (STensor.ofValues ((List.range (size shape)).map rnd) shape) := by
  obtain ⟨h', h1, h2, h3, h4⟩ := allocEach_ok (f := fun i (_ : Heap T) => Res.ok (rnd i)) (v := rnd)
    (l := List.range (dataSize shape)) (h := h) (fun _ _ _ _ => rfl)
  refine ⟨h', ⟨shape, indexMul shape, List.range' h.next (size shape)⟩, ?_, rfl, ?_⟩
  · simp only [Mat.newRand, h1, Out.map_ok]; simp
  · refine newTensor_of_alloc rfl h2 (by simpa using h3) hpos ?_
    rw [ofValues_flat]
    simp only [dataSize_eq, List.length_range] at h4
    rw [h4]
    apply List.map_congr_left
    intro k hk
    simp [List.getD, List.mem_range.1 hk]

theorem newZeros_new (shape : List Nat) {h : Heap T} (hpos : 0 < h.next) :
    ∃ h' m, Mat.newZeros shape h = .ok m h' ∧ m.shape = shape ∧ NewTensor h h' m (STensor.const shape zero) := by
  obtain ⟨h', h1, h2, h3, h4⟩ := allocEach_ok (f := fun (_ : Nat) (_ : Heap T) => Res.ok (zero : T)) (v := fun _ => zero)
    (l := List.range (dataSize shape)) (h := h) (fun _ _ _ _ => rfl)
  refine ⟨h', ⟨shape, indexMul shape, List.range' h.next (size shape)⟩, ?_, rfl, ?_⟩
  · simp only [Mat.newZeros, h1, Out.map_ok]; simp
  · refine newTensor_of_alloc rfl h2 (by simpa using h3) hpos ?_
    rw [flat_eq_range]
    simpa [STensor.const] using h4

/-- `NewZeros` -/
theorem wp_zeros {tot : Prop} {shape : List Nat} {L : Nat → Prop} {C : Ptr → Prop} {w : World T}
    {Q : Nat → World T → Prop} (hpos : 0 < w.store.heap.next)
    (h : ∀ w' m, Grow L C [] w w' → w'.layers = w.layers → w'.nodeNext = w.nodeNext + 1 → Ready w' w.nodeNext m →
      m.shape = shape → m.ops.Nodup → (∀ p ∈ m.ops, w.store.heap.next ≤ p) → Q w.nodeNext w') :
    wp tot (Run.zeros shape) Q w := by
  obtain ⟨h', m, h1, h2, h3⟩ := newZeros_new shape hpos
  exact wp_leaf h1 h3 fun w' g _ hl hn _ hr => h w' m g hl hn hr h2 h3.nodup h3.fresh

/-- `NewNormRand` -/
theorem wp_normRand {tot : Prop} {shape : List Nat} {L : Nat → Prop} {C : Ptr → Prop} {w : World T}
    {Q : Nat → World T → Prop} (hpos : 0 < w.store.heap.next)
    (h : ∀ w' m, Grow L C [] w w' → w'.layers = w.layers → w'.nodeNext = w.nodeNext + 1 → Ready w' w.nodeNext m →
      m.shape = shape → m.ops.Nodup → (∀ p ∈ m.ops, w.store.heap.next ≤ p) → Q w.nodeNext w') :
    wp tot (Run.normRand shape) Q w := by
  obtain ⟨h', m, h1, h2, h3⟩ := newRand_new (w.rnd w.draws) shape hpos
  set w1 : World T := { w with draws := w.draws + 1 } with hw1
  show wp tot (Run.leaf (Mat.newRand (w.rnd w.draws) shape)) Q w1
  refine wp_leaf (L := L) (C := C) (w := w1) h1 h3 fun w' g _ hl hn _ hr => ?_
  refine h w' m ?_ hl hn hr h2 h3.nodup h3.fresh
  have g0 : Grow L C [] w w1 := ⟨le_refl _, fun _ _ _ => rfl, le_refl _, fun _ _ => rfl,
    fun _ _ h => ⟨h, rfl⟩, fun _ _ => rfl, rfl, rfl, rfl, by simp [hw1]⟩
  simpa using g0.trans g

/-- a lazily evaluated tensor -/
theorem wp_lazy {tot : Prop} {k : Kind T} {L : Nat → Prop} {C : Ptr → Prop} {w : World T}
    {Q : Nat → World T → Prop}
    (h : ∀ w', Grow L C [] w w' → w'.layers = w.layers → w'.store.heap = w.store.heap →
      w'.nodeNext = w.nodeNext + 1 → w'.store.nodes w.nodeNext = Store.lazyNode k [] →
      (∀ n, n ≠ w.nodeNext → w'.store.nodes n = w.store.nodes n) → Q w.nodeNext w') :
    wp tot (Run.lazy k) Q w :=
  h _ (grow_newNode _ w) rfl rfl rfl (by simp [Store.setNode]) fun n hn => by simp [Store.setNode, hn]

theorem wp_reshape {tot : Prop} {t : Nat} {shape : List Nat} {L : Nat → Prop} {C : Ptr → Prop} {w : World T}
    {Q : Nat → World T → Prop}
    (h : ∀ w', Grow L C [] w w' → w'.layers = w.layers → w'.store.heap = w.store.heap →
      w'.nodeNext = w.nodeNext + 1 → w'.store.nodes w.nodeNext = Store.lazyNode (.reshape t) shape →
      (∀ n, n ≠ w.nodeNext → w'.store.nodes n = w.store.nodes n) → Q w.nodeNext w') :
    wp tot (Run.reshape t shape) Q w :=
  h _ (grow_newNode _ w) rfl rfl rfl (by simp [Store.setNode]) fun n hn => by simp [Store.setNode, hn]

/-- `GetOperand` with an index in range -/
theorem wp_operand {tot : Prop} {n : Nat} {idx : List Nat} {m : Mat} {w : World T} {Q : Ptr → World T → Prop}
    (r : Ready w n m) (hi : InRange m.shape idx)
    (h : ∀ p, m.ops[offset m.shape idx]? = some p → p ∈ m.ops → Q p w) : wp tot (Run.operand n idx) Q w := by
  have hk : offset m.shape idx < m.ops.length := by rw [r.good.len]; exact offset_lt hi
  have hp := List.getElem?_eq_getElem hk
  refine wp_bind ?_
  refine wp_mat ?_
  refine wp_lift (a := m.ops[offset m.shape idx]) ?_ (h _ hp (List.getElem_mem hk))
  rw [r.mat]
  exact getOperand_ok (by rw [r.good.mul]; simp) hi hp

theorem wp_operandAt {tot : Prop} {n i : Nat} {m : Mat} {w : World T} {Q : Ptr → World T → Prop}
    (r : Ready w n m) (hi : i < size m.shape)
    (h : ∀ p, m.ops[i]? = some p → p ∈ m.ops → Q p w) : wp tot (Run.operandAt n i) Q w := by
  have hk : i < m.ops.length := by rw [r.good.len]; exact hi
  have hp := List.getElem?_eq_getElem hk
  refine wp_bind ?_
  refine wp_mat ?_
  refine wp_lift (a := m.ops[i]) ?_ (h _ hp (List.getElem_mem hk))
  rw [r.mat]
  simp [Res.index, hp]

end Godeep
