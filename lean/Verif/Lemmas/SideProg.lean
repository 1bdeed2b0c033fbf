import Verif.Lemmas.SideNet
import Verif.Lemmas.OwnProg
import Verif.Spec.Separate
/-
  Calls of programs stay in a part: those on layers and models in the part that has them, those on tensors in a part of tensors.
-/
set_option linter.unusedSectionVars false

namespace Godeep
open Spec GoNum

variable {T : Type} [GoNum T] {α β : Type}

namespace Side
variable {b : Bool} {g g' g1 g2 : Sd} {w w' : World T}

/-! ### save and load -/

/-- a later state that differs in the part -/
def Kin (g : Sd) (w w' : World T) : Prop := Step g w g w' ∧ In false g w'

theorem kin_modW {σ : Type} {l : Nat} {f : Layer T → Layer T} {s : World T × σ} (h : Kin g w s.1) (hl : g.layer l) (hf : ∀ x, LayerIn g x → LayerIn g (f x)) :
    Kin g w (LayerM.modW l f s).1 := by
  have hi := h.2
  refine ⟨h.1.trans ⟨le_refl _, le_refl _, le_refl _, le_refl _, fun _ h => .inl h, fun _ h => .inl h, fun _ h => .inl h, fun _ h => .inl h, fun _ _ _ => rfl,
    fun _ _ _ => rfl, fun k _ hk => ?_, fun _ _ _ => rfl⟩, ⟨hi.next, hi.zero, hi.cell, hi.node, hi.layer, hi.net, hi.nodes, fun k hk => ?_, hi.nets, fun e => (by cases e)⟩⟩
  · show (if k = l then f (s.1.layers k) else s.1.layers k) = _
    rw [if_neg (by rintro rfl; exact hk hl)]
  · show LayerIn g (if k = l then f (s.1.layers k) else s.1.layers k)
    split
    · exact hf _ (hi.layers k hk)
    · exact hi.layers k hk

variable [Bin T]

theorem save_kin (f l : Nat) (hl : g.layer l) (s : World T × Sink) (h : Kin g w s.1) : EndsIn (fun s' => Kin g w s'.1) (LayerM.save f l s) := by
  induction f generalizing l s with
  | zero => trivial
  | succ f ih =>
    unfold LayerM.save
    dsimp only
    have hx := h.2.layers l hl
    split
    · exact h
    · have h1 := kin_modW (f := fun x => { x with saved := true }) h hl fun x hx => { hx with }
      split
      · next l1 l2 d hk =>
        have hc := hx.kind
        rw [hk] at hc
        exact (ih _ hc.1 _ h1).bind (fun _ h => h) fun _ s' hs => ih _ hc.2 _ hs
      · refine EndsIn.bind (R := fun s' => Kin g w s'.1) ?_ (fun _ h => h) fun _ s' hs => ?_
        · split
          · next p e => exact ih _ (hx.pre p e) _ h1
          · exact h1
        · refine EndsIn.bind (R := fun s' => Kin g w s'.1) ((Own.saveTensor_same _ _).mono fun _ e => by rw [e]; exact hs) (fun _ h => h) fun _ s2 hs2 => ?_
          exact (Own.saveTensor_same _ _).mono fun _ e => by rw [e]; exact hs2

theorem loadTensor_kin (o : Option Nat) (s : World T × List Byte) (h : Kin g w s.1) (ho : Opt g.node o) : EndsIn (fun s' => Kin g w s'.1) (LayerM.loadTensor o s) := by
  unfold LayerM.loadTensor
  cases o with
  | none => exact h
  | some n =>
    dsimp only
    have hi := h.2
    have H := Own.loadOps_val (P := g.cell) (s.1.store.nodes n).mat.ops (hi.nodes n (ho n rfl)).ops (s.1.store.heap, s.2)
    have fin : ∀ h' : Heap T, h'.next = s.1.store.heap.next → (∀ q, ¬ g.cell q → h'.val q = s.1.store.heap.val q) →
        Kin g w { s.1 with store := { s.1.store with heap := h' } } := fun h' hn hv =>
      ⟨h.1.trans ⟨le_of_eq hn.symm, le_refl _, le_refl _, le_refl _, fun _ h => .inl h, fun _ h => .inl h, fun _ h => .inl h, fun _ h => .inl h, fun q _ hq => hv q hq,
        fun _ _ _ => rfl, fun _ _ _ => rfl, fun _ _ _ => rfl⟩,
        ⟨(show 0 < h'.next by rw [hn]; exact hi.next), hi.zero, fun q hq => (show q < h'.next by rw [hn]; exact hi.cell q hq), hi.node, hi.layer, hi.net, hi.nodes, hi.layers, hi.nets, fun e => (by cases e)⟩⟩
    unfold Mat.load
    cases e : Mat.loadOps (s.1.store.nodes n).mat.ops (s.1.store.heap, s.2) with
    | ok _ x => rw [e] at H; exact fin x.1 H.1 H.2
    | err _ x => rw [e] at H; exact fin x.1 H.1 H.2
    | panic => trivial

theorem load_kin (f l : Nat) (hl : g.layer l) (s : World T × List Byte) (h : Kin g w s.1) : EndsIn (fun s' => Kin g w s'.1) (LayerM.load f l s) := by
  induction f generalizing l s with
  | zero => trivial
  | succ f ih =>
    unfold LayerM.load
    dsimp only
    have hx := h.2.layers l hl
    split
    · exact h
    · have h1 := kin_modW (f := fun x => { x with loaded := true }) h hl fun x hx => { hx with }
      split
      · next l1 l2 d hk =>
        have hc := hx.kind
        rw [hk] at hc
        exact (ih _ hc.1 _ h1).bind (fun _ h => h) fun _ s' hs => ih _ hc.2 _ hs
      · refine EndsIn.bind (R := fun s' => Kin g w s'.1) ?_ (fun _ h => h) fun _ s' hs => ?_
        · split
          · next p e => exact ih _ (hx.pre p e) _ h1
          · exact h1
        · exact EndsIn.bind (R := fun s' => Kin g w s'.1) (loadTensor_kin _ _ hs hx.weights) (fun _ h => h) fun _ s2 hs2 => loadTensor_kin _ _ hs2 hx.bias

omit [Bin T] in
theorem Cl.stream {σ : Type} {f : World T × σ → Out (World T × σ) Unit} (s : σ) (h : ∀ w, In false g w → EndsIn (fun s' => Kin g w s'.1) (f (w, s))) :
    Cl false g (Act.streamRun f s) fun _ _ => True := by
  intro w hi
  have H := h w hi
  unfold Act.streamRun
  cases e : f (w, s) with
  | ok _ x => rw [e] at H; exact ⟨g, Le.refl g, H.1, H.2, trivial⟩
  | err _ x => rw [e] at H; exact ⟨g, Le.refl g, H.1, H.2⟩
  | panic => trivial

theorem cl_save {m : Nat} (hm : g.net m) (s : Sink) : Cl false g (Act.streamRun (NetM.save m) s : Run T Unit) fun _ _ => True := Cl.stream s fun w hi => by
  unfold NetM.save
  split
  · trivial
  · next l e => exact save_kin _ _ ((hi.nets m hm).last l e) _ ⟨Step.refl _ _, hi⟩

theorem cl_load {m : Nat} (hm : g.net m) (bs : List Byte) : Cl false g (Act.streamRun (NetM.load m) bs : Run T Unit) fun _ _ => True := Cl.stream bs fun w hi => by
  unfold NetM.load
  split
  · trivial
  · next l e => exact load_kin _ _ ((hi.nets m hm).last l e) _ ⟨Step.refl _ _, hi⟩

theorem cl_readTensor {t : Nat} (h : g.node t) (bs : List Byte) : Cl false g (Act.streamRun (LayerM.loadTensor (some t)) bs : Run T Unit) fun _ _ => True :=
  Cl.stream bs fun w hi => loadTensor_kin _ _ ⟨Step.refl _ _, hi⟩ (opt_some h)

/-! ### tensors -/

omit [Bin T] in
theorem cl_call (c : Call T) (h1 : ∀ t ∈ c.args, g.node t) (h2 : ∀ p ∈ c.scalars, g.cell p) : Cl b g c.run fun g' n => g'.node n := by
  have h : ∀ (k : Kind T) (s : List Nat), (∀ t ∈ k.kids, g.node t) → (∀ q ∈ ptrs k, g.cell q) → Cl b g (Run.newNode (Store.lazyNode k s)) fun g' n => g'.node n := fun k s h1 h2 =>
    Cl.newNode ⟨fun q hq => (by cases hq), h1, h2⟩
  cases c <;> exact h _ _ h1 h2

omit [Bin T] in
theorem cl_now (fill : T) (c : Call T) (h1 : ∀ t ∈ c.args, g.node t) : Cl b g (c.now fill) fun g' n => g'.node n := fun w hi =>
  Cl.leaf (f := c.mat fill fun n => (w.store.nodes n).mat) (fun h => by
    have H := Own.allocsOr_mat fill (fun n => (w.store.nodes n).mat) c h
    cases e : c.mat fill (fun n => (w.store.nodes n).mat) h with
    | ok m h' =>
      rw [e] at H
      exact ⟨H.1, fun q hq => by
        rcases H.2 q hq with h | ⟨t, ht, h⟩ | h
        · rw [h]; exact .inl hi.zero
        · exact .inl ((hi.nodes t (h1 t ht)).ops q h)
        · exact .inr h⟩
    | err _ h' => rw [e] at H; exact H
    | panic => trivial) w hi

omit [Bin T] in
theorem cl_eval {t : Nat} (h : g.node t) : Cl2 b true g (Act.evalRun t : Run T Unit) fun _ _ => True := by
  unfold Act.evalRun
  exact Cl2.bind Cl.newCtx fun g1 _ l1 _ => Cl.bind (Cl.buildGraph (l1.node _ h)) fun g2 _ l2 _ => Cl.bind Cl.ops fun g3 o l3 h3 =>
    Cl.run fun l e => by cases e; exact h3

omit [Bin T] in
theorem cl_set {t : Nat} (h : g.node t) (v : T) (i : List Nat) : Cl b g (do Run.heap ((← Run.mat t).set v i)) fun _ _ => True :=
  Cl.bind (Cl.mat h) fun g1 m l1 h1 => Cl.write fun h => by
    unfold Mat.set
    cases e : m.getOperand i with
    | ok p => exact store_hw (h1 p (Own.operand_mem e)) v h
    | err x => exact HW.refl h
    | panic => trivial

omit [Bin T] in
theorem cl_loadData {t : Nat} (h : g.node t) (vs : List T) : Cl b g (do Run.heap ((← Run.mat t).loadData vs)) fun _ _ => True :=
  Cl.bind (Cl.mat h) fun g1 m l1 h1 => Cl.write fun h => by
    unfold Mat.loadData
    split
    · exact HW.refl h
    · refine storeEach_hw (fun i h p' v e => ?_) _
      obtain ⟨x, hx, e⟩ := res_bind_ok e
      cases e2 : Res.index vs i with
      | ok y => rw [e2] at e; cases e; exact h1 _ (Own.index_mem hx)
      | err _ => rw [e2] at e; cases e
      | panic => rw [e2] at e; cases e

omit [Bin T] in
theorem cl_fill {t : Nat} (h : g.node t) (p : Nat) : Cl b g (do Run.heap ((← Run.mat t).fill p) : Run T Unit) fun _ _ => True :=
  Cl.bind (Cl.mat h) fun g1 m l1 h1 => Cl.write fun h => by
    refine storeEach_hw (fun i h q v e => ?_) _
    obtain ⟨x, hx, e⟩ := res_bind_ok e
    cases e2 : h.load p <;> rw [e2] at e <;> cases e
    exact h1 _ (Own.index_mem hx)

omit [Bin T] in
theorem cl_fillData {t : Nat} (h : g.node t) (v : T) : Cl b g (do Run.heap ((← Run.mat t).fillData v)) fun _ _ => True :=
  Cl.bind (Cl.mat h) fun g1 m l1 h1 => Cl.write fun h => by
    refine storeEach_hw (fun i h q u e => ?_) _
    cases e2 : Res.index m.ops i <;> rw [e2] at e <;> cases e
    exact h1 _ (Own.index_mem e2)

/-! ### calls -/

/-- the call is on tensors and numbers only -/
def data : Act T → Prop
  | .scalar _ | .setScalar _ _ | .zeros _ | .ones _ | .fromValues _ _ | .rand _ | .copy _ | .tensor _ | .flatten _ | .eval _ | .now _ _ | .element _ _
  | .set _ _ _ | .loadData _ _ | .loadTensor _ _ | .fill _ _ | .fillData _ _ | .readTensor _ _ | .fillWith _ _ | .copyTo _ _ => True
  | _ => False

/-- what a call on tensors returns is in the part -/
def RetU (g : Sd) : Ret → Prop
  | .nothing => True
  | .tensor n => g.node n
  | .scalar p => g.cell p
  | _ => False

/-- what a call on layers and models returns is in the part -/
def RetS (g : Sd) : Ret → Prop
  | .nothing => True
  | .layer l => g.layer l
  | .model m => g.net m
  | _ => False

omit [Bin T] in
theorem cl_tensorOf {a : Run T Nat} (h : Cl false g a fun g' n => g'.node n) : Cl false g (Act.tensorOf a) RetU := Cl.bind h fun _ _ _ h => Cl.pure _ h

omit [Bin T] in
theorem cl_layerOf {a : Run T Nat} (h : Cl false g a fun g' n => g'.layer n) : Cl false g (Act.layerOf a) RetS := Cl.bind h fun _ _ _ h => Cl.pure _ h

omit [Bin T] in
theorem cl_modelOf {a : Run T Nat} (h : Cl false g a fun g' n => g'.net n) : Cl false g (Act.modelOf a) RetS := Cl.bind h fun _ _ _ h => Cl.pure _ h

omit [Bin T] in
theorem cl_nothingU {a : Run T α} {R : Sd → α → Prop} (h : Cl false g a R) : Cl false g (Act.nothingOf a) RetU := Cl.bind h fun _ _ _ _ => Cl.pure Ret.nothing trivial

omit [Bin T] in
theorem cl_nothingS {a : Run T α} {R : Sd → α → Prop} (h : Cl false g a R) : Cl false g (Act.nothingOf a) RetS := Cl.bind h fun _ _ _ _ => Cl.pure Ret.nothing trivial

theorem user_act {e : Env} (c : Act T) (hd : data c) (hu : c.uses e) (hs : ∀ p ∈ c.scalars, p ∈ e.scalars) (ht : ∀ t ∈ e.tensors, g.node t) (hp : ∀ p ∈ e.scalars, g.cell p) :
    Cl false g c.run RetU := by
  cases c with
  | scalar v => exact Cl.bind (Cl.scalar v) fun _ p _ hp => Cl.pure (Ret.scalar p) hp
  | setScalar p v => exact cl_nothingU (Cl.setValue (hp p hu) v)
  | zeros s => exact cl_tensorOf (Cl.zeros s)
  | ones s => exact cl_tensorOf (Cl.leaf (allocs_own (Own.allocs_map fun _ => rfl)))
  | fromValues vs s => exact cl_tensorOf (Cl.leaf (allocs_own (Own.allocs_fromValues vs s)))
  | rand s => exact cl_tensorOf (Cl.normRand s)
  | copy t => exact cl_tensorOf (Cl.copyTensor t)
  | tensor c => exact cl_tensorOf (cl_call c (fun t h => ht t (hu t h)) fun p h => hp p (hs p h))
  | flatten t => exact cl_tensorOf (Cl.flatten (ht t hu))
  | fillWith t p => exact cl_tensorOf (Cl.lazy (fun k hk => by rw [List.mem_singleton.1 hk]; exact ht t hu.1) fun q hq => by rw [List.mem_singleton.1 hq]; exact hp p hu.2)
  | copyTo t u => exact cl_tensorOf (Cl.lazy (fun k hk => by rcases List.mem_pair.1 hk with rfl | rfl; exacts [ht _ hu.1, ht _ hu.2]) fun q hq => absurd hq List.not_mem_nil)
  | now v c => exact cl_tensorOf (cl_now v c fun t h => ht t (hu t h))
  | element t i => exact Cl.bind (Cl.operand (ht t hu) i) fun _ p _ hp => Cl.pure (Ret.scalar p) hp
  | fill t p => exact cl_nothingU (cl_fill (ht t hu.1) p)
  | fillData t v => exact cl_nothingU (cl_fillData (ht t hu) v)
  | readTensor t bs => exact cl_nothingU (cl_readTensor (ht t hu) bs)
  | eval t => exact cl_nothingU (cl_eval (ht t hu)).forget
  | set t v i => exact cl_nothingU (cl_set (ht t hu) v i)
  | loadData t vs => exact cl_nothingU (cl_loadData (ht t hu) vs)
  | loadTensor t u => exact cl_nothingU (Cl.loadFrom u (ht t hu.1))
  | _ => exact hd.elim

theorem side_act {e : Env} (c : Act T) (hd : ¬ data c) (hp : ∀ m t, c ≠ .predict m t) (hu : c.uses e) (hl : ∀ l ∈ e.layers, g.layer l) (hm : ∀ m ∈ e.models, g.net m) :
    Cl false g c.run RetS := by
  cases c with
  | input s => exact cl_layerOf (cl_newInput s)
  | dense n a => exact cl_layerOf (cl_newDense n a)
  | inDense i n a => exact cl_layerOf (cl_newInDense i n a)
  | flattenLayer => exact cl_layerOf (cl_newBlank trivial)
  | softMaxLayer => exact cl_layerOf (cl_newBlank trivial)
  | normLayer => exact cl_layerOf (cl_newBlank trivial)
  | eNormLayer => exact cl_layerOf (cl_newBlank trivial)
  | subLayer d f t => exact cl_layerOf (cl_newBlank trivial)
  | concatLayer l k d => exact cl_layerOf (cl_newBlank ⟨hl l hu.1, hl k hu.2⟩)
  | conv n kw kh sx sy a => exact cl_layerOf (cl_newConv2D n kw kh sx sy a)
  | deconv n kw kh sx sy a => exact cl_layerOf (cl_newDeconv2D n kw kh sx sy a)
  | maxPool sx sy => exact cl_layerOf (cl_newBlank trivial)
  | upSampling s => exact cl_layerOf (cl_newBlank trivial)
  | upSamplingXY sx sy => exact cl_layerOf (cl_newBlank trivial)
  | connect l k => exact cl_nothingS (cl_connect (hl l hu.1) (hl k hu.2))
  | setLayerTrainable l t => exact cl_nothingS (cl_setTrainable (hl l hu) t)
  | newModel => exact cl_modelOf cl_newModel
  | fromInOut i o => exact cl_modelOf (cl_fromInOut (hl i hu.1) (hl o hu.2))
  | fromModels ms => exact cl_modelOf (cl_fromModels fun m h => hm m (hu m h))
  | push m l => exact cl_nothingS (cl_pushLayer (hm m hu.1) (hl l hu.2))
  | compile m => exact cl_nothingS (cl_compile (hm m hu)).forget
  | compileBP m => exact cl_nothingS (cl_compileBP (hm m hu)).forget
  | resetIS m => exact cl_nothingS (cl_resetIS (hm m hu))
  | predict m t => exact absurd rfl (hp m t)
  | trainOne m x y a mo => exact cl_nothingS (cl_trainOne (hm m hu.1) x y a mo)
  | train m xs ys ep b a mo d => exact cl_nothingS (cl_train (hm m hu.1) xs ys ep b a mo d)
  | setTrainable m t => exact cl_nothingS (cl_setTrainableNet (hm m hu) t)
  | resetSave m => exact cl_nothingS (cl_netResetSave (hm m hu))
  | resetLoad m => exact cl_nothingS (cl_netResetLoad (hm m hu))
  | save m s => exact cl_nothingS (cl_save (hm m hu) s)
  | load m bs => exact cl_nothingS (cl_load (hm m hu) bs)
  | _ => exact absurd trivial hd

omit [Bin T] in
theorem run_assoc {γ : Type} (a : Run T α) (f : α → Run T β) (k : β → Run T γ) : (a >>= f) >>= k = a >>= fun x => f x >>= k := by
  funext w
  show ((a w).bind f).bind k = (a w).bind fun x => fun w => (f x w).bind k
  cases a w <;> rfl

omit [Bin T] in
theorem predict_split (m t : Nat) (w : World T) : NetM.predict m t w = (predictOut m t w).bind NetM.copyTensor := by
  have h : (NetM.predict m t : Run T Nat) = predictOut m t >>= NetM.copyTensor := by
    unfold NetM.predict predictOut
    rw [run_assoc]
    refine congrArg (fun f => Run.net m >>= f) (funext fun x => ?_)
    dsimp only
    cases x.ff <;> simp only [run_assoc]
  rw [h]
  rfl

end Side
end Godeep
