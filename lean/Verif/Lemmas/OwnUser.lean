import Verif.Lemmas.OwnProg
/-
  Tensors that programs hold: their cells get a label of their own, which is that of a layer that is never made.
-/
set_option linter.unusedSectionVars false

namespace Godeep
open Spec GoNum

variable {T : Type} [GoNum T] {α β : Type}

namespace Own
variable {A : Nat → Prop} {B : Chg} {g g' : G T}

theorem owned_copy (K : Nat) (n : Nat) : At A B g (NetM.copyTensor n : Run T Nat) fun g' n => Owned g' K n :=
  At.bind (At.mat n) fun _ _ _ _ => At.own K (allocs_map fun _ => rfl)

theorem owned_predict (K m t : Nat) : At A B g (NetM.predict m t : Run T Nat) fun g' n => Owned g' K n := by
  unfold NetM.predict
  refine At.bind (At.netm m) fun g1 x l1 hx => ?_
  have tail : ∀ g2 : G T, At A B g2 (do
      let x ← Run.net m
      let i ← Run.deref x.input
      LayerM.loadFrom i t
      NetM.run x.ff
      let o ← Run.deref x.output
      NetM.copyTensor o : Run T Nat) fun g' n => Owned g' K n := fun g2 =>
    At.bind (At.netm m) fun g3 y l3 hy => At.bind (At.opt _) fun g4 i l4 h4 => At.bind (own_loadClean t (l4.clean _ (hy.input i h4))) fun g5 _ l5 _ =>
      At.bind (At.run ((hy.le l4).le l5).ff) fun g6 _ l6 _ => At.bind (At.opt _) fun g7 o l7 _ => owned_copy K _
  split
  · exact At.bind (own_compile m) fun g2 _ _ _ => tail g2
  · exact tail g1

variable [Bin T]

/-- assignments to elements of tensors and to numbers -/
def isAssign : Act T → Prop
  | .setScalar _ _ | .set _ _ _ | .loadData _ _ | .loadTensor _ _ | .fill _ _ | .fillData _ _ | .readTensor _ _ => True
  | _ => False

theorem any_of {a : Run T α} {f : α → Ret} {Q : G T → α → Prop} (h : At A B g a Q) : At A B g (do return f (← a) : Run T Ret) fun _ _ => True :=
  At.bind h fun _ n _ _ => At.pure (f n) fun _ => trivial

theorem any_nothing {a : Run T α} {Q : G T → α → Prop} (h : At A B g a Q) : At A B g (Act.nothingOf a) fun _ _ => True :=
  At.bind h fun _ _ _ _ => At.pure Ret.nothing fun _ => trivial

theorem any_call (c : Call T) : At A B g c.run fun _ _ => True := by
  have h : ∀ (k : Kind T) (s : List Nat), target k = [] → At A B g (Run.newNode (Store.lazyNode k s)) fun _ _ => True := fun k s ht =>
    (At.newNode' (Store.lazyNode k s) False (fun t h => by rw [show target (Store.lazyNode k s).kind = [] from ht] at h; cases h) (fun h => h.elim) fun h => h.elim).mono fun _ _ _ _ => trivial
  cases c <;> exact h _ _ rfl

omit [Bin T] in
theorem path_lt (hi : Inv g) {l k : Nat} (hl : l < g.w.layerNext) (h : Path g.w l k) : k < g.w.layerNext := by
  induction h with
  | refl => exact hl
  | step hp _ ih => exact ih (hi.pre _ _ hp)

omit [Bin T] in
theorem feeds_lt (hi : Inv g) {l k : Nat} (hl : l < g.w.layerNext) (h : Feeds g.w l k) : k < g.w.layerNext := by
  induction h with
  | refl => exact hl
  | @step l p k hp _ ih =>
    refine ih ?_
    unfold parents at hp
    split at hp
    · next a b d e =>
      have := hi.cat l a b d e
      simp only [List.mem_cons, List.not_mem_nil, or_false] at hp
      rcases hp with rfl | rfl
      · exact this.1
      · exact this.2
    · exact hi.pre l p (by simpa using hp)

omit [Bin T] in
theorem assign_heap {f : Heap T → Out (Heap T) Unit} (hA : ∀ l, A l) (hf : ∀ h, EndsIn (fun h' => h'.next = h.next) (f h)) : At A B g (Run.heap f) fun _ _ => True :=
  at_ends fun _ => (hf _).mono fun _ e => ⟨e, fun _ k _ hk => absurd (hA k) hk⟩

/-- the tensors that a call makes a tensor assign to later -/
def later : Act T → List Nat
  | .fillWith t _ => [t]
  | .copyTo _ t => [t]
  | _ => []

/-- what calls do to cells that have a label of their own: only assignments change them -/
theorem user_act {K : Nat} {e : Env} (c : Act T) (hu : c.uses e) (he : ∀ l ∈ e.layers, l < g.w.layerNext) (hK : g.w.layerNext ≤ K) (ha : ∀ t ∈ later c, g.clean t) :
    At (fun l => isAssign c ∨ l ≠ K) ⟨fun _ => False, links c, marks c⟩ g c.run fun _ _ => True := by
  cases c with
  | scalar v => exact any_of (At.scalar v)
  | setScalar p v =>
    refine any_nothing (assign_heap (fun _ => .inl trivial) fun h => ?_)
    unfold Heap.store
    split
    · trivial
    · exact rfl
  | zeros s => exact any_of (At.zeros s)
  | ones s => exact any_of (At.leaf (allocs_map fun _ => rfl))
  | fromValues vs s => exact any_of (At.leaf (allocs_fromValues vs s))
  | rand s => exact any_of (At.rand s)
  | copy t => exact any_of (At.copyTensor t)
  | tensor c => exact any_of (any_call c)
  | now v c => exact any_of (At.nowAny v c)
  | element t i => exact any_of (At.operand t i)
  | flatten t => exact any_of (At.flatten t)
  | fillWith t p => exact any_of (At.lazy ha)
  | copyTo t u => exact any_of (At.lazy ha)
  | eval t => exact any_nothing (own_eval t)
  | fill t p =>
    exact any_nothing (At.bind (At.mat t) fun g1 m l1 h1 => assign_heap (fun _ => .inl trivial) fun h =>
      (storeEach_val (g := g1) (A := fun _ => True) (fun _ _ _ _ _ _ _ => trivial) h).mono fun _ h => h.1)
  | fillData t v =>
    exact any_nothing (At.bind (At.mat t) fun g1 m l1 h1 => assign_heap (fun _ => .inl trivial) fun h =>
      (storeEach_val (g := g1) (A := fun _ => True) (fun _ _ _ _ _ _ _ => trivial) h).mono fun _ h => h.1)
  | readTensor t bs => exact any_nothing (at_stream bs fun hi => loadTensor_any hi _ _ (kin_refl hi) fun _ _ _ _ _ _ _ _ _ => .inl trivial)
  | set t v i =>
    refine any_nothing (At.bind (At.mat t) fun g1 m l1 h1 => assign_heap (fun _ => .inl trivial) fun h => ?_)
    unfold Mat.set
    cases m.getOperand i with
    | ok p =>
      show EndsIn _ (h.store p v)
      unfold Heap.store
      split
      · trivial
      · exact rfl
    | err x => exact rfl
    | panic => trivial
  | loadData t vs =>
    refine any_nothing (At.bind (At.mat t) fun g1 m l1 h1 => assign_heap (fun _ => .inl trivial) fun h => ?_)
    unfold Mat.loadData
    split
    · exact rfl
    · exact (storeEach_val (g := g1) (A := fun _ => True) (fun _ _ _ _ _ _ _ => trivial) h).mono fun _ h => h.1
  | loadTensor t u => exact any_nothing (At.loadFrom fun _ _ _ _ _ => .inl trivial)
  | input s =>
    refine any_of (At.bind (At.zeros s) fun g1 i l1 h1 => At.bind (At.zeros s) fun g2 d l2 h2 => At.newLayer trivial ?_)
    exact { new_blank (g := g2) .input (fun _ _ _ h => by cases h) with input := fun n h => by cases h; exact l2.clean _ h1, dif := fun n h => by cases h; exact h2 }
  | dense n a =>
    refine any_of (At.bind (At.zeros _) fun g1 i l1 h1 => At.newLayer trivial ?_)
    exact { new_blank (g := g1) .dense (fun _ _ _ h => by cases h) with output := fun n h => by cases h; exact h1 }
  | inDense i n a =>
    refine any_of (At.bind (At.zeros _) fun g1 i l1 h1 => At.bind (At.zeros _) fun g2 d l2 h2 => At.newLayer trivial ?_)
    exact { new_blank (g := g2) .dense (fun _ _ _ h => by cases h) with input := fun n h => by cases h; exact l2.clean _ h1, output := fun n h => by cases h; exact h2 }
  | flattenLayer => exact any_of (own_blank trivial _ fun _ _ _ h => by cases h)
  | softMaxLayer => exact any_of (own_blank trivial _ fun _ _ _ h => by cases h)
  | normLayer => exact any_of (own_blank trivial _ fun _ _ _ h => by cases h)
  | eNormLayer => exact any_of (own_blank trivial _ fun _ _ _ h => by cases h)
  | subLayer d f t => exact any_of (own_blank trivial _ fun _ _ _ h => by cases h)
  | concatLayer l k d => exact any_of (own_blank trivial _ fun _ _ _ h => by cases h; exact ⟨he l hu.1, he k hu.2⟩)
  | conv n kw kh sx sy a => exact any_of (At.newLayer trivial { new_blank (g := g) (.conv n kw kh sx sy) (fun _ _ _ h => by cases h) with })
  | deconv n kw kh sx sy a => exact any_of (At.newLayer trivial { new_blank (g := g) (.deconv n kw kh sx sy) (fun _ _ _ h => by cases h) with })
  | maxPool sx sy => exact any_of (own_blank trivial _ fun _ _ _ h => by cases h)
  | upSampling s => exact any_of (own_blank trivial _ fun _ _ _ h => by cases h)
  | upSamplingXY sx sy => exact any_of (own_blank trivial _ fun _ _ _ h => by cases h)
  | connect l k => exact any_nothing (own_connect trivial l (he k hu.2))
  | setLayerTrainable l t => exact any_nothing (own_setOne trivial l t fun h => h)
  | newModel => exact any_of (own_newModel trivial)
  | fromInOut i o => exact any_of (own_fromInOut trivial (he i hu.1) (he o hu.2))
  | fromModels ms => exact any_of (own_fromModels trivial ms)
  | push m l => exact any_nothing (own_pushLayer trivial m (he l hu.2))
  | compile m => exact any_nothing (own_compile m)
  | compileBP m => exact any_nothing (own_compileBP m)
  | resetIS m => exact any_nothing (own_resetIS m)
  | predict m t => exact any_of (own_predict m t)
  | trainOne m x y a mo =>
    intro hi
    exact any_nothing (own_trainOne m x y a mo (fun h => h) fun l hl k hk ht => .inr (by have := path_lt hi (hi.nlast m l hl) hk; omega)) hi
  | train m xs ys ep b a mo d =>
    intro hi
    exact any_nothing (own_train m xs ys ep b a mo d (fun h => h) fun l hl k hk ht => .inr (by have := path_lt hi (hi.nlast m l hl) hk; omega)) hi
  | setTrainable m t => exact any_nothing (own_setTrainable trivial m t fun h => h)
  | resetSave m => exact any_nothing (own_netResetSave m)
  | resetLoad m => exact any_nothing (own_netResetLoad m)
  | save m s => exact any_nothing (own_save m s)
  | load m bs =>
    intro hi
    exact any_nothing (own_load (fun h => h) m bs fun l k hl hk => .inr (by have := feeds_lt hi (hi.nlast m l hl) hk; omega)) hi

theorem owned_tensor {K : Nat} {a : Run T Nat} (h : At A B g a fun g' n => Owned g' K n) : At A B g (Act.tensorOf a) fun g' r => ∃ n, r = .tensor n ∧ Owned g' K n :=
  At.bind h fun _ n _ hn => At.pure (Ret.tensor n) fun _ => ⟨n, rfl, hn⟩

/-- calls that make plain tensors -/
theorem make_act (K : Nat) {c : Act T} (hc : c.makes) : At A B g c.run fun g' r => ∃ n, r = .tensor n ∧ Owned g' K n := by
  cases c with
  | zeros s => exact owned_tensor (At.own K (allocs_map fun _ => rfl))
  | ones s => exact owned_tensor (At.own K (allocs_map fun _ => rfl))
  | fromValues vs s => exact owned_tensor (At.own K (allocs_fromValues vs s))
  | rand s => exact owned_tensor ((At.normRand K s).mono fun _ _ _ h => h.1)
  | copy t => exact owned_tensor (owned_copy K t)
  | predict m t => exact owned_tensor (owned_predict K m t)
  | now v c => exact owned_tensor (At.nowOwn K v c hc)
  | _ => exact hc.elim

/-- layers are never removed -/
theorem layers_grow {e : Env} {w w' : World T} (hr : Reached e w) (c : Act T) (hu : c.uses e)
    (hw : (∃ r, c.run w = .ok r w') ∨ ∃ x, c.run w = .err x w') : w.layerNext ≤ w'.layerNext := by
  obtain ⟨g, rfl, hi, he⟩ := reached_inv hr
  have H := own_act c hu he hi
  rcases hw with ⟨r, hw⟩ | ⟨r, hw⟩
  · rw [hw] at H
    obtain ⟨g2, rfl, i2, l2, _⟩ := H
    exact l2.layer
  · rw [hw] at H
    obtain ⟨g2, rfl, i2, l2⟩ := H
    exact l2.layer

/-! ### assignments -/

omit [Bin T] in
/-- writing to cells of a tensor changes only them -/
theorem heap_only {f : Heap T → Out (Heap T) Unit} {P : Nat → Prop} {w w' : World T} (hf : EndsIn (fun h' => ∀ q, ¬ P q → h'.val q = w.store.heap.val q) (f w.store.heap))
    (hw : (∃ r, Run.heap f w = .ok r w') ∨ ∃ x, Run.heap f w = .err x w') :
    w'.store.nodes = w.store.nodes ∧ ∀ q, ¬ P q → w'.store.heap.val q = w.store.heap.val q := by
  unfold Run.heap at hw
  cases e : f w.store.heap with
  | ok a h =>
    rw [e] at hf hw
    rcases hw with ⟨r, hw⟩ | ⟨r, hw⟩ <;> cases hw
    exact ⟨rfl, hf⟩
  | err a h =>
    rw [e] at hf hw
    rcases hw with ⟨r, hw⟩ | ⟨r, hw⟩ <;> cases hw
    exact ⟨rfl, hf⟩
  | panic => rw [e] at hw; rcases hw with ⟨r, hw⟩ | ⟨r, hw⟩ <;> cases hw

omit [Bin T] in
theorem storeEach_only {ι : Type} {P : Nat → Prop} {f : ι → Heap T → Res (Nat × T)} (l : List ι) (hf : ∀ i h p v, f i h = .ok (p, v) → P p) (h : Heap T) :
    EndsIn (fun h' => ∀ q, ¬ P q → h'.val q = h.val q) (Heap.storeEach f l h) := by
  classical
  refine (storeEach_val (g := ⟨fun q => if P q then none else some 0, fun _ => False, fun _ => none, start fun _ _ => zero⟩) (A := fun _ => False) (fun i h p v e k hk => ?_) h).mono fun h' H q hq =>
    H.2 q 0 (by show (if _ then _ else _) = _; rw [if_neg hq]) fun h => h
  have hk' : (if P p then none else some 0) = some k := hk
  rw [if_pos (hf i h p v e)] at hk'
  cases hk'

omit [Bin T] in
theorem nothing_inv {α : Type} {a : Run T α} {w w' : World T} (hw : (∃ r, Act.nothingOf a w = .ok r w') ∨ ∃ x, Act.nothingOf a w = .err x w') :
    (∃ r, a w = .ok r w') ∨ ∃ x, a w = .err x w' := by
  have e : Act.nothingOf a w = (a w).bind fun _ w => .ok Ret.nothing w := rfl
  rw [e] at hw
  cases h : a w with
  | ok r w1 => rw [h] at hw; rcases hw with ⟨r, hw⟩ | ⟨r, hw⟩ <;> cases hw; exact .inl ⟨_, rfl⟩
  | err r w1 => rw [h] at hw; rcases hw with ⟨r, hw⟩ | ⟨r, hw⟩ <;> cases hw; exact .inr ⟨_, rfl⟩
  | panic => rw [h] at hw; rcases hw with ⟨r, hw⟩ | ⟨r, hw⟩ <;> cases hw

theorem assign_only {c : Act T} (hc : isAssign c) {w w' : World T} (hw : (∃ r, c.run w = .ok r w') ∨ ∃ x, c.run w = .err x w') {t : Nat} (ht : ¬ c.assigns w t) :
    w'.store.nodes = w.store.nodes ∧ ∀ q ∈ (w.store.nodes t).mat.ops, w'.store.heap.val q = w.store.heap.val q := by
  cases c with
  | setScalar p v =>
    have H := heap_only (P := fun q => q = p) (f := fun h => h.store p v) (w := w) (w' := w') (by
      unfold Heap.store
      split
      · trivial
      · intro q hq
        simp only [Heap.put]
        rw [if_neg hq]) (nothing_inv hw)
    exact ⟨H.1, fun q hq => H.2 q fun hc => ht (by rw [← hc]; exact hq)⟩
  | fill u p =>
    have H := heap_only (P := fun q => q ∈ (w.store.nodes u).mat.ops) (f := (w.store.nodes u).mat.fill p) (w := w) (w' := w')
      (storeEach_only _ (fun i h q v e => by
        obtain ⟨x, hx, e⟩ := res_bind_ok e
        cases e2 : h.load p <;> rw [e2] at e <;> cases e
        exact index_mem hx) _) (nothing_inv hw)
    exact ⟨H.1, fun q hq => H.2 q fun hc => ht ⟨q, hc, hq⟩⟩
  | fillData u v =>
    have H := heap_only (P := fun q => q ∈ (w.store.nodes u).mat.ops) (f := (w.store.nodes u).mat.fillData v) (w := w) (w' := w')
      (storeEach_only _ (fun i h q x e => by
        cases e2 : Res.index (w.store.nodes u).mat.ops i <;> rw [e2] at e <;> cases e
        exact index_mem e2) _) (nothing_inv hw)
    exact ⟨H.1, fun q hq => H.2 q fun hc => ht ⟨q, hc, hq⟩⟩
  | readTensor u bs =>
    have H := loadOps_val (P := fun q => q ∈ (w.store.nodes u).mat.ops) (w.store.nodes u).mat.ops (fun _ h => h) (w.store.heap, bs)
    have hw := nothing_inv hw
    unfold Act.streamRun LayerM.loadTensor Mat.load at hw
    dsimp only at hw
    cases e : Mat.loadOps (w.store.nodes u).mat.ops (w.store.heap, bs) with
    | ok _ x =>
      rw [e] at H hw
      rcases hw with ⟨r, hw⟩ | ⟨r, hw⟩ <;> cases hw
      exact ⟨rfl, fun q hq => H.2 q fun hc => ht ⟨q, hc, hq⟩⟩
    | err _ x =>
      rw [e] at H hw
      rcases hw with ⟨r, hw⟩ | ⟨r, hw⟩ <;> cases hw
      exact ⟨rfl, fun q hq => H.2 q fun hc => ht ⟨q, hc, hq⟩⟩
    | panic => rw [e] at hw; rcases hw with ⟨r, hw⟩ | ⟨r, hw⟩ <;> cases hw
  | set u v i =>
    have H := heap_only (P := fun q => q ∈ (w.store.nodes u).mat.ops) (f := (w.store.nodes u).mat.set v i) (w := w) (w' := w') (by
      unfold Mat.set
      cases e : (w.store.nodes u).mat.getOperand i with
      | ok p =>
        show EndsIn _ (w.store.heap.store p v)
        unfold Heap.store
        split
        · trivial
        · intro q hq
          simp only [Heap.put]
          rw [if_neg (by rintro rfl; exact hq (operand_mem e))]
      | err x => exact fun _ _ => rfl
      | panic => trivial) (nothing_inv hw)
    exact ⟨H.1, fun q hq => H.2 q fun hc => ht ⟨q, hc, hq⟩⟩
  | loadData u vs =>
    have H := heap_only (P := fun q => q ∈ (w.store.nodes u).mat.ops) (f := (w.store.nodes u).mat.loadData vs) (w := w) (w' := w') (by
      unfold Mat.loadData
      split
      · exact fun _ _ => rfl
      · refine storeEach_only _ (fun i h p v e => ?_) _
        obtain ⟨x, hx, e⟩ := res_bind_ok e
        cases e2 : Res.index vs i <;> rw [e2] at e <;> cases e
        exact index_mem hx) (nothing_inv hw)
    exact ⟨H.1, fun q hq => H.2 q fun hc => ht ⟨q, hc, hq⟩⟩
  | loadTensor u s =>
    have H := heap_only (P := fun q => q ∈ (w.store.nodes u).mat.ops) (f := (w.store.nodes u).mat.loadFromTensor (w.store.nodes s).mat) (w := w) (w' := w') (by
      unfold Mat.loadFromTensor
      split
      · exact fun _ _ => rfl
      · refine storeEach_only _ (fun i h p v e => ?_) _
        obtain ⟨x, hx, e⟩ := res_bind_ok e
        cases e2 : h.loadAt (w.store.nodes s).mat.ops i <;> rw [e2] at e <;> cases e
        exact index_mem hx) (nothing_inv hw)
    exact ⟨H.1, fun q hq => H.2 q fun hc => ht ⟨q, hc, hq⟩⟩
  | _ => exact hc.elim

omit [Bin T] in
/-- One labelling from two: the cells of a tensor have a label of their own, all others have the labels of the other one.  Tensors with
elements of their own that share none with that tensor are clean. -/
theorem merge {K t : Nat} {gK g0 : G T} (hw : gK.w = g0.w) (iK : Inv gK) (i0 : Inv g0) (hK : g0.w.layerNext ≤ K) (ho : Owned gK K t) :
    ∃ g : G T, g.w = g0.w ∧ Inv g ∧ Owned g K t ∧
      ∀ n, g0.clean n → (g0.w.store.nodes n).kind = .leaf → (∀ q ∈ (g0.w.store.nodes n).mat.ops, q ∉ (g0.w.store.nodes t).mat.ops) → g.clean n := by
  classical
  obtain ⟨ownK, cleanK, srcK, wK⟩ := gK
  dsimp only at hw
  subst hw
  have hno : ∀ q, ownK q = none → q ∉ (g0.w.store.nodes t).mat.ops := fun q h hq => by
    have := (ho.ops q hq).2
    dsimp only at this
    rw [h] at this
    cases this
  let g : G T := ⟨fun q => if q ∈ (g0.w.store.nodes t).mat.ops then some K else g0.own q,
    fun n => g0.clean n ∧ (cleanK n ∨ (g0.w.store.nodes n).kind = .leaf ∧ ∀ q ∈ (g0.w.store.nodes n).mat.ops, q ∉ (g0.w.store.nodes t).mat.ops), g0.src, g0.w⟩
  have own : ∀ q, q ∉ (g0.w.store.nodes t).mat.ops → g.own q = g0.own q := fun q h => if_neg h
  have safe : ∀ q, ownK q = none → Safe g0 q → Safe g q := fun q h1 h2 => ⟨h2.1, by rw [own q (hno q h1)]; exact h2.2⟩
  have ops : ∀ l, SafeOps (⟨ownK, cleanK, srcK, g0.w⟩ : G T) l → SafeOps g0 l → SafeOps g l := fun l h1 h2 o ho q hq => safe q (h1 o ho q hq).2 (h2 o ho q hq)
  refine ⟨g, rfl, ?_, ⟨ho.lt, ho.leaf, fun q hq => ⟨(ho.ops q hq).1, if_pos hq⟩⟩, fun n h1 h2 h3 => ⟨h1, .inr ⟨h2, h3⟩⟩⟩
  constructor
  case next => exact i0.next
  case zero => rw [own 0 (hno 0 iK.zero)]; exact i0.zero
  case fresh => exact fun q hq => by rw [own q (hno q (iK.fresh q hq))]; exact i0.fresh q hq
  case ctx => exact ops _ iK.ctx i0.ctx
  case sound =>
    intro n hn q hq
    rcases hn.2 with h | h
    · exact safe q (iK.sound n h q hq).2 (i0.sound n hn.1 q hq)
    · have h2 := i0.sound n hn.1 q hq
      exact ⟨h2.1, by rw [own q (h.2 q hq)]; exact h2.2⟩
  case lt => exact fun n hn => i0.lt n hn.1
  case views =>
    intro n hn k hk
    rcases hn.2 with h | h
    · exact ⟨i0.views n hn.1 k hk, .inl (iK.views n h k hk)⟩
    · have hk' : k ∈ (g0.w.store.nodes n).kind.views := hk
      rw [h.1] at hk'
      cases hk'
  case tgt => exact fun n k hk => ⟨i0.tgt n k hk, .inl (iK.tgt n k hk)⟩
  case input => exact fun l n h => ⟨i0.input l n h, .inl (iK.input l n h)⟩
  case output => exact fun l n h => ⟨i0.output l n h, .inl (iK.output l n h)⟩
  case dif => exact fun l n h => ⟨i0.dif l n h, .inl (iK.dif l n h)⟩
  case ref => exact fun l => safe _ (iK.ref l).2 (i0.ref l)
  case wts =>
    intro l n h
    have h0 := i0.wts l n h
    have hk := iK.wts l n h
    have hl : l < g0.w.layerNext := by
      by_contra hc
      have := i0.unff l (i0.unused l (not_lt.1 hc))
      have h' : (g0.w.layers l).weights = some n ∨ (g0.w.layers l).bias = some n := h
      rw [this.1, this.2] at h'
      rcases h' with h' | h' <;> cases h'
    refine ⟨h0.lt, h0.leaf, fun q hq => ⟨(h0.ops q hq).1, ?_⟩⟩
    rw [own q fun hc => ?_]
    · exact (h0.ops q hq).2
    · have h1 := (ho.ops q hc).2
      have h2 := (hk.ops q hq).2
      dsimp only at h1 h2
      rw [h1] at h2
      cases h2
      omega
  case neat => exact i0.neat
  case unff => exact i0.unff
  case unused => exact i0.unused
  case pre => exact i0.pre
  case cat => exact i0.cat
  case nin => exact fun l n h => ⟨i0.nin l n h, .inl (iK.nin l n h)⟩
  case nout => exact fun l n h => ⟨i0.nout l n h, .inl (iK.nout l n h)⟩
  case ntgt => exact fun l n h => ⟨i0.ntgt l n h, .inl (iK.ntgt l n h)⟩
  case nal => exact fun m => safe _ (iK.nal m).2 (i0.nal m)
  case nmo => exact fun m => safe _ (iK.nmo m).2 (i0.nmo m)
  case nff => exact fun m l h => ops l (iK.nff m l h) (i0.nff m l h)
  case nbp => exact fun m l h => ops l (iK.nbp m l h) (i0.nbp m l h)
  case ncd => exact fun m l h => ops l (iK.ncd m l h) (i0.ncd m l h)
  case nrf => exact fun m l h => ops l (iK.nrf m l h) (i0.nrf m l h)
  case nrs => exact fun m l h => ops l (iK.nrs m l h) (i0.nrs m l h)
  case nfirst => exact i0.nfirst
  case nlast => exact i0.nlast
  case src => exact ⟨i0.src.inj, i0.src.lt⟩
  case drawn => exact i0.drawn

/-- a call that does not assign to a tensor whose cells have a label of their own -/
theorem call_kept {K : Nat} {e : Env} {w w' : World T} (hr : Reached e w) (c : Act T) (hu : c.uses e) (hK : w.layerNext ≤ K) {t : Nat}
    (hg : ∃ g : G T, g.w = w ∧ Inv g ∧ Owned g K t) (hc : ¬ c.assigns w t) (hw : (∃ r, c.run w = .ok r w') ∨ ∃ x, c.run w = .err x w') :
    (∃ g : G T, g.w = w' ∧ Inv g ∧ Owned g K t) ∧ numbers w' (some t) = numbers w (some t) := by
  obtain ⟨g0, h0, i0, he⟩ := reached_inv hr
  obtain ⟨gK, hw0, iK, oK⟩ := hg
  obtain ⟨g, hg, hi, ho, hcl⟩ := merge (hw0.trans h0.symm) iK i0 (by rw [h0]; exact hK) oK
  have h1 : g.w = w := hg.trans h0
  subst h1
  have H := user_act c hu (fun l hl => by rw [← h0]; exact he.layers l hl) hK (fun u hl => by
    have kept : (∀ x ∈ e.tensors, x = u → ¬ ((g.w.store.nodes u).kind ≠ .leaf ∨ ∃ p ∈ (g.w.store.nodes u).mat.ops, p ∈ (g.w.store.nodes t).mat.ops) → g.clean u) := by
      rintro x hx rfl h
      rw [hg] at h
      push Not at h
      exact hcl x (he.tensors x hx) h.1 h.2
    cases c with
    | fillWith x p => cases List.mem_singleton.1 hl; exact kept _ hu.1 rfl hc
    | copyTo x y => cases List.mem_singleton.1 hl; exact kept _ hu.2 rfl hc
    | _ => cases hl) hi
  have fin : ∀ g2 : G T, g2.w = w' → Inv g2 → Le (fun l => isAssign c ∨ l ≠ K) ⟨fun _ => False, links c, marks c⟩ g g2 →
      (∃ g : G T, g.w = w' ∧ Inv g ∧ Owned g K t) ∧ numbers w' (some t) = numbers g.w (some t) := fun g2 h2 i2 l2 => by
    refine ⟨⟨g2, h2, i2, ho.le l2⟩, ?_⟩
    have hm : (w'.store.nodes t).mat = (g.w.store.nodes t).mat := by rw [← h2]; exact l2.leaf t ho.lt ho.leaf
    show some (_, _) = some (_, _)
    rw [hm]
    congr 2
    refine List.map_congr_left fun q hq => ?_
    by_cases ha : isAssign c
    · exact (assign_only ha hw hc).2 q hq
    · rw [← h2]
      exact l2.val q _ (ho.ops q hq).2 (by
        rintro (h | h)
        · exact ha h
        · exact h rfl)
  rcases hw with ⟨r, hw'⟩ | ⟨r, hw'⟩
  · rw [hw'] at H
    obtain ⟨g2, h2, i2, l2, _⟩ := H
    exact fin g2 h2 i2 l2
  · rw [hw'] at H
    obtain ⟨g2, h2, i2, l2⟩ := H
    exact fin g2 h2 i2 l2

end Own
end Godeep
