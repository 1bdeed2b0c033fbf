import Verif.Lemmas.OwnNow
/-
  All calls that programs make keep the invariant.
-/
set_option linter.unusedSectionVars false

namespace Godeep
open Spec GoNum

variable {T : Type} [GoNum T] {α β : Type}

namespace Own
variable {A : Nat → Prop} {B : Chg} {g g' : G T}

/-! ### tensors -/

theorem At.rand (sh : List Nat) : At A B g (Run.normRand sh : Run T Nat) fun g' n => g'.clean n := by
  intro hi
  have hl : Le A B g g.draw := le_draw hi
  have H := At.leaf (A := A) (B := B) (g := g.draw) (f := Mat.newRand (g.w.rnd g.w.draws) sh) (allocs_map fun _ => rfl) (inv_draw hi)
  have e0 : Run.normRand sh g.w = Run.leaf (Mat.newRand (g.w.rnd g.w.draws) sh) g.draw.w := rfl
  rw [e0]
  cases e : Run.leaf (Mat.newRand (g.w.rnd g.w.draws) sh) g.draw.w with
  | ok x w' => rw [e] at H; obtain ⟨g1, h1, h2, h3, h4⟩ := H; exact ⟨g1, h1, h2, hl.trans hi h3, h4⟩
  | err x w' => rw [e] at H; obtain ⟨g1, h1, h2, h3⟩ := H; exact ⟨g1, h1, h2, hl.trans hi h3⟩
  | panic => trivial

theorem allocs_fromValues (vs : List T) (sh : List Nat) : Allocs (Mat.newFromValues vs sh) := fun h => by
  unfold Mat.newFromValues
  dsimp only
  obtain ⟨size, hs⟩ : ∃ x, x = if vs.length < dataSize sh then vs.length else dataSize sh := ⟨_, rfl⟩
  rw [← hs]
  have H := allocEach_allocs (f := fun i (_ : Heap T) => Res.index vs i) (List.range size) h
  cases e : Heap.allocEach (fun i _ => Res.index vs i) (List.range size) h with
  | ok o h1 =>
    rw [e] at H
    have H2 := allocEach_allocs (f := fun (_ : Nat) (_ : Heap T) => .ok zero) (List.range' size (dataSize sh - size)) h1
    show match ((Heap.allocEach (fun _ _ => .ok zero) (List.range' size (dataSize sh - size)) h1).map fun ops2 => (⟨sh, indexMul sh, o ++ ops2⟩ : Mat)) with
      | .ok m h' => Extends h h' ∧ ∀ q ∈ m.ops, h.next ≤ q ∧ q < h'.next
      | .err _ h' => Extends h h'
      | .panic => True
    cases e2 : Heap.allocEach (fun (_ : Nat) (_ : Heap T) => .ok zero) (List.range' size (dataSize sh - size)) h1 with
    | ok o2 h2 =>
      rw [e2] at H2
      refine ⟨ext_trans H.1 H2.1, fun q hq => ?_⟩
      rcases List.mem_append.1 hq with hq | hq
      · exact ⟨(H.2 q hq).1, lt_of_lt_of_le (H.2 q hq).2 H2.1.1⟩
      · exact ⟨le_trans H.1.1 (H2.2 q hq).1, (H2.2 q hq).2⟩
    | err x h2 => rw [e2] at H2; exact ext_trans H.1 H2
    | panic => trivial
  | err x h1 => rw [e] at H; exact H
  | panic => trivial

theorem own_call (c : Call T) (h : ∀ t ∈ c.args, g.clean t) : At A B g c.run fun g' n => g'.clean n := by
  cases c with
  | reshape t s => exact (At.reshape t s).mono fun g' n _ k => k (h t (by simp [Call.args]))
  | _ =>
    refine (At.lazy (by intro t ht; cases ht)).mono fun g' n _ k => k ?_
    intro t ht
    simp only [Kind.views, List.mem_cons, List.not_mem_nil, or_false] at ht <;> exact h t (by simp [Call.args]; tauto)

theorem own_eval (t : Nat) : At A B g (Act.evalRun t : Run T Unit) fun _ _ => True :=
  At.bind At.newCtx fun _ _ _ _ => At.bind (At.buildGraph t) fun _ _ _ _ => At.bind At.ops fun g3 l _ h => At.run fun k hk => by cases hk; exact h

theorem own_set {t : Nat} (h : g.clean t) (v : T) (i : List Nat) : At A B g (do Run.heap ((← Run.mat t).set v i) : Run T Unit) fun _ _ => True := by
  refine At.bind (At.mat t) fun g1 m l1 h1 => at_ends fun hi => ?_
  unfold Mat.set
  cases e : m.getOperand i with
  | ok p =>
    rw [h1.2] at e
    have hs : Safe g1 p := hi.sound t (l1.clean t h) p (operand_mem e)
    show EndsIn _ (g1.w.store.heap.store p v)
    unfold Heap.store
    split
    · trivial
    · refine ⟨rfl, fun q k hq _ => ?_⟩
      simp only [Heap.put]
      rw [if_neg (by rintro rfl; rw [hs.2] at hq; cases hq)]
  | err x => exact ⟨rfl, fun _ _ _ _ => rfl⟩
  | panic => trivial

theorem own_loadData {t : Nat} (h : g.clean t) (vs : List T) : At A B g (do Run.heap ((← Run.mat t).loadData vs) : Run T Unit) fun _ _ => True := by
  refine At.bind (At.mat t) fun g1 m l1 h1 => at_ends fun hi => ?_
  unfold Mat.loadData
  split
  · exact ⟨rfl, fun _ _ _ _ => rfl⟩
  · refine storeEach_val (fun i h p v e => ?_) _
    have hs : ∀ q ∈ m.ops, Safe g1 q := by rw [h1.2]; exact hi.sound t (l1.clean t ‹_›)
    cases e1 : Res.index m.ops i with
    | ok q =>
      rw [e1] at e
      have : p = q := by
        cases e2 : Res.index vs i <;> simp only [Res.bind, Res.map, e2] at e <;> cases e
        rfl
      rw [this]
      exact safe_write (hs q (index_mem e1))
    | err x => rw [e1] at e; cases e
    | panic => rw [e1] at e; cases e

theorem own_fill {t : Nat} (h : g.clean t) (p : Nat) : At A B g (do Run.heap ((← Run.mat t).fill p) : Run T Unit) fun _ _ => True := by
  refine At.bind (At.mat t) fun g1 m l1 h1 => at_ends fun hi => storeEach_val (fun i h q v e => ?_) _
  obtain ⟨x, hx, e⟩ := res_bind_ok e
  cases e2 : h.load p <;> rw [e2] at e <;> cases e
  refine safe_write (hi.sound t (l1.clean t ‹_›) q ?_)
  rw [← h1.2]
  exact index_mem hx

theorem own_fillData {t : Nat} (h : g.clean t) (v : T) : At A B g (do Run.heap ((← Run.mat t).fillData v) : Run T Unit) fun _ _ => True := by
  refine At.bind (At.mat t) fun g1 m l1 h1 => at_ends fun hi => storeEach_val (fun i h q u e => ?_) _
  cases e2 : Res.index m.ops i <;> rw [e2] at e <;> cases e
  refine safe_write (hi.sound t (l1.clean t ‹_›) q ?_)
  rw [← h1.2]
  exact index_mem e2

/-! ### layers -/

theorem new_blank (k : LKind T) (h : ∀ a b d, k = .concat a b d → a < g.w.layerNext ∧ b < g.w.layerNext) : NewOk g (LayerM.blank k) := by
  refine ⟨?_, ?_, ?_, rfl, rfl, rfl, rfl, rfl, h⟩ <;> intro _ h <;> cases h

theorem own_blank (hB : B.2.1) (k : LKind T) (h : ∀ a b d, k = .concat a b d → a < g.w.layerNext ∧ b < g.w.layerNext) :
    At A B g (Run.newLayer (LayerM.blank k)) fun g' l => l < g'.w.layerNext := At.newLayer hB (new_blank k h)

/-! ### save and load -/

/-- the invariant holds in a later state where the layers are of the same kinds and have the same weight and bias tensors -/
def Kin (A : Nat → Prop) (B : Chg) (g : G T) (w : World T) : Prop :=
  (∃ g' : G T, g'.w = w ∧ Inv g' ∧ Le A B g g') ∧
    ∀ k, (w.layers k).kind = (g.w.layers k).kind ∧ (w.layers k).weights = (g.w.layers k).weights ∧ (w.layers k).bias = (g.w.layers k).bias

theorem kin_modW {σ : Type} {l : Nat} {f : Layer T → Layer T} {s : World T × σ} (hi : Inv g) (h : Kin A B g s.1)
    (hf : ∀ x, (f x).input = x.input ∧ (f x).output = x.output ∧ (f x).dif = x.dif ∧ (f x).ref = x.ref ∧
      (f x).weights = x.weights ∧ (f x).bias = x.bias ∧ (f x).ff = x.ff ∧ (f x).pre = x.pre ∧ (f x).kind = x.kind)
    (ht : ∀ x, (f x).trainable = x.trainable) : Kin A B g (LayerM.modW l f s).1 := by
  obtain ⟨⟨g1, e, i1, l1⟩, hk⟩ := h
  have H := At.modSame (A := A) (B := B) (g := g1) (l := l) hf (fun x => .inr ⟨ht x, (hf x).2.2.2.2.2.2.2.1⟩) i1
  obtain ⟨g2, e2, i2, l2, _⟩ := H
  refine ⟨⟨g2, by rw [e2, e]; rfl, i2, l1.trans hi l2⟩, fun k => ?_⟩
  have e3 : ((LayerM.modW l f s).1.layers k) = if k = l then f (s.1.layers k) else s.1.layers k := rfl
  rw [e3]
  split
  · rw [(hf _).2.2.2.2.2.2.2.2, (hf _).2.2.2.2.1, (hf _).2.2.2.2.2.1]; exact hk k
  · exact hk k

variable [Bin T]

theorem saveTensor_same (o : Option Nat) (s : World T × Sink) : EndsIn (fun s' => s'.1 = s.1) (LayerM.saveTensor o s) := by
  unfold LayerM.saveTensor
  cases o with
  | none => exact rfl
  | some n =>
    dsimp only
    cases (s.1.store.nodes n).mat.save s.1.store.heap s.2 <;> first | exact rfl | trivial

theorem save_kin (hi : Inv g) (f l : Nat) (s : World T × Sink) (h : Kin A B g s.1) : EndsIn (fun s' => Kin A B g s'.1) (LayerM.save f l s) := by
  induction f generalizing l s with
  | zero => trivial
  | succ f ih =>
    unfold LayerM.save
    dsimp only
    split
    · exact h
    · have h1 := kin_modW (l := l) (f := fun x => { x with saved := true }) hi h (fun _ => ⟨rfl, rfl, rfl, rfl, rfl, rfl, rfl, rfl, rfl⟩) fun _ => rfl
      split
      · exact (ih _ _ h1).bind (fun _ h => h) fun _ s' hs => ih _ _ hs
      · refine EndsIn.bind (R := fun s' => Kin A B g s'.1) ?_ (fun _ h => h) fun _ s' hs => ?_
        · split
          · exact ih _ _ h1
          · exact h1
        · refine EndsIn.bind (R := fun s' => Kin A B g s'.1) ((saveTensor_same _ _).mono fun _ e => by rw [e]; exact hs) (fun _ h => h) fun _ s2 hs2 => ?_
          exact (saveTensor_same _ _).mono fun _ e => by rw [e]; exact hs2

theorem loadOps_val {P : Nat → Prop} (ps : List Nat) (hP : ∀ p ∈ ps, P p) (s : Heap T × List Byte) :
    EndsIn (fun s' => s'.1.next = s.1.next ∧ ∀ q, ¬ P q → s'.1.val q = s.1.val q) (Mat.loadOps ps s) := by
  induction ps generalizing s with
  | nil => exact ⟨rfl, fun _ _ => rfl⟩
  | cons p ps ih =>
    obtain ⟨h, r⟩ := s
    unfold Mat.loadOps
    split
    · trivial
    · cases readElem T r with
      | ok v r' =>
        refine (ih (fun p hp => hP p (List.mem_cons_of_mem _ hp)) (h.put p v, r')).mono fun s' hs => ⟨hs.1, fun q hq => ?_⟩
        rw [hs.2 q hq]
        show (if q = p then v else h.val q) = h.val q
        rw [if_neg (by rintro rfl; exact hq (hP _ List.mem_cons_self))]
      | err e r' => exact ⟨rfl, fun _ _ => rfl⟩
      | panic => trivial

theorem loadTensor_any (hi : Inv g) (o : Option Nat) (s : World T × List Byte) (h : Kin A B g s.1)
    (ho : ∀ g1 : G T, Inv g1 → Le A B g g1 → ∀ n, o = some n → ∀ p ∈ (g1.w.store.nodes n).mat.ops, MayWrite A g1 p) : EndsIn (fun s' => Kin A B g s'.1) (LayerM.loadTensor o s) := by
  unfold LayerM.loadTensor
  cases o with
  | none => exact h
  | some n =>
    obtain ⟨⟨g1, e1, i1, l1⟩, hk⟩ := h
    have hw := ho g1 i1 l1 n rfl
    rw [← e1] at hk ⊢
    dsimp only
    have H := loadOps_val (P := MayWrite A g1) (g1.w.store.nodes n).mat.ops hw (g1.w.store.heap, s.2)
    have fin : ∀ h' : Heap T, h'.next = g1.w.store.heap.next → (∀ q, ¬ MayWrite A g1 q → h'.val q = g1.w.store.heap.val q) →
        Kin A B g { g1.w with store := { g1.w.store with heap := h' } } := fun h' hn hv => by
      have hl : Le A B g1 (g1.put h' g1.w.store.ctx) := le_put i1 _ (le_of_eq hn.symm) fun q k hq hnA => hv q fun hc => hnA (hc k hq)
      exact ⟨⟨g1.put h' g1.w.store.ctx, rfl, inv_put i1 hl fun o ho q hq => (i1.ctx o ho q hq).le hl, l1.trans hi hl⟩, hk⟩
    unfold Mat.load
    cases e : Mat.loadOps (g1.w.store.nodes n).mat.ops (g1.w.store.heap, s.2) with
    | ok _ x => rw [e] at H; exact fin x.1 H.1 H.2
    | err _ x => rw [e] at H; exact fin x.1 H.1 H.2
    | panic => trivial

theorem loadTensor_kin (hi : Inv g) {l : Nat} (hA : A l) (o : Option Nat) (s : World T × List Byte)
    (h : Kin A B g s.1) (ho : ∀ n, o = some n → Owned g l n) : EndsIn (fun s' => Kin A B g s'.1) (LayerM.loadTensor o s) :=
  loadTensor_any hi o s h fun g1 _ l1 n hn p hp k hk => by
    rw [(((ho n hn).le l1).ops p hp).2] at hk
    cases hk
    exact hA

theorem load_kin (hi : Inv g) (hB : ¬ B.2.1) (f l : Nat) (hA : ∀ k, Feeds g.w l k → A k) (s : World T × List Byte) (h : Kin A B g s.1) :
    EndsIn (fun s' => Kin A B g s'.1) (LayerM.load f l s) := by
  induction f generalizing l s with
  | zero => trivial
  | succ f ih =>
    unfold LayerM.load
    dsimp only
    split
    · exact h
    · have h1 := kin_modW (l := l) (f := fun x => { x with loaded := true }) hi h (fun _ => ⟨rfl, rfl, rfl, rfl, rfl, rfl, rfl, rfl, rfl⟩) fun _ => rfl
      split
      · next l1 l2 d hkd =>
        rw [(h.2 l).1] at hkd
        exact (ih _ (fun k hk => hA k (.step (by simp [parents, hkd]) hk)) _ h1).bind (fun _ h => h) fun _ s' hs => ih _ (fun k hk => hA k (.step (by simp [parents, hkd]) hk)) _ hs
      · next hk0 =>
        have ho : ∀ n, (s.1.layers l).weights = some n ∨ (s.1.layers l).bias = some n → Owned g l n := fun n hn => by
          rw [(h.2 l).2.1, (h.2 l).2.2] at hn
          exact hi.wts l n hn
        have hl : A l := hA l (.refl l)
        have hp : (s.1.layers l).pre = (g.w.layers l).pre := by
          obtain ⟨⟨g1, e1, _, l1⟩, _⟩ := h
          rw [← e1]
          exact ((l1.same hB).1 l).2
        refine EndsIn.bind (R := fun s' => Kin A B g s'.1) ?_ (fun _ h => h) fun _ s' hs => ?_
        · split
          · next p e =>
            rw [hp] at e
            refine ih _ (fun k hk => hA k (.step ?_ hk)) _ h1
            have hn : ∀ a b d, (g.w.layers l).kind ≠ .concat a b d := fun a b d h0 => hk0 a b d (by rw [(h.2 l).1]; exact h0)
            unfold parents
            split
            · next h0 => exact absurd h0 (hn _ _ _)
            · rw [e]; exact List.mem_singleton.2 rfl
          · exact h1
        · refine EndsIn.bind (R := fun s' => Kin A B g s'.1) (loadTensor_kin hi hl _ _ hs fun n hn => ho n (.inl hn)) (fun _ h => h) fun _ s2 hs2 => ?_
          exact loadTensor_kin hi hl _ _ hs2 fun n hn => ho n (.inr hn)

theorem at_stream {σ : Type} {f : World T × σ → Out (World T × σ) Unit} (s : σ) (h : Inv g → EndsIn (fun s' => Kin A B g s'.1) (f (g.w, s))) :
    At A B g (Act.streamRun f s) fun _ _ => True := by
  intro hi
  have H := h hi
  unfold Act.streamRun
  cases e : f (g.w, s) with
  | ok _ x => rw [e] at H; obtain ⟨⟨g1, h1, h2, h3⟩, _⟩ := H; exact ⟨g1, h1, h2, h3, trivial⟩
  | err _ x => rw [e] at H; obtain ⟨⟨g1, h1, h2, h3⟩, _⟩ := H; exact ⟨g1, h1, h2, h3⟩
  | panic => trivial

theorem kin_refl (hi : Inv g) : Kin A B g g.w := ⟨⟨g, rfl, hi, Le.refl hi⟩, fun _ => ⟨rfl, rfl, rfl⟩⟩

theorem own_save (m : Nat) (s : Sink) : At A B g (Act.streamRun (NetM.save m) s) fun _ _ => True := at_stream s fun hi => by
  unfold NetM.save
  split
  · trivial
  · exact save_kin hi _ _ _ (kin_refl hi)

theorem own_load (hB : ¬ B.2.1) (m : Nat) (bs : List Byte) (hA : ∀ l k, (g.w.nets m).last = some l → Feeds g.w l k → A k) :
    At A B g (Act.streamRun (NetM.load m) bs) fun _ _ => True := at_stream bs fun hi => by
  unfold NetM.load
  split
  · trivial
  · next l hl => exact load_kin hi hB _ _ (fun k => hA l k hl) _ (kin_refl hi)

theorem own_readTensor {t : Nat} (h : g.clean t) (bs : List Byte) : At A B g (Act.streamRun (LayerM.loadTensor (some t)) bs) fun _ _ => True :=
  at_stream bs fun hi => loadTensor_any hi _ _ (kin_refl hi) fun g1 i1 l1 n hn p hp => by
    cases hn
    exact safe_write (i1.sound t (l1.clean t h) p hp)

/-! ### programs -/

/-- what a program has got has no elements in the weights or the bias of a layer -/
structure EnvOk (g : G T) (e : Env) : Prop where
  tensors : ∀ t ∈ e.tensors, g.clean t
  layers : ∀ l ∈ e.layers, l < g.w.layerNext
  models : ∀ m ∈ e.models, m < g.w.netNext
  scalars : ∀ p ∈ e.scalars, Safe g p

theorem EnvOk.le {e : Env} (h : EnvOk g e) (hl : Le A B g g') : EnvOk g' e :=
  ⟨fun t ht => hl.clean t (h.tensors t ht), fun l hm => lt_of_lt_of_le (h.layers l hm) hl.layer, fun m hm => lt_of_lt_of_le (h.models m hm) hl.net, fun p hp => (h.scalars p hp).le hl⟩

/-- what a call returns has no elements in the weights or the bias of a layer -/
def RetOk (g : G T) : Ret → Prop
  | .tensor n => g.clean n
  | .layer l => l < g.w.layerNext
  | .model m => m < g.w.netNext
  | .scalar p => Safe g p
  | _ => True

/-- the calls that make layers and models, connect layers or change which layers are trainable -/
def links : Act T → Prop
  | .input _ | .dense _ _ | .inDense _ _ _ | .flattenLayer | .softMaxLayer | .normLayer | .eNormLayer | .subLayer _ _ _ | .concatLayer _ _ _
  | .conv _ _ _ _ _ _ | .deconv _ _ _ _ _ _ | .maxPool _ _ | .upSampling _ | .upSamplingXY _ _ | .connect _ _ | .setLayerTrainable _ _
  | .newModel | .fromInOut _ _ | .fromModels _ | .push _ _ | .setTrainable _ _ => True
  | _ => False

/-- a call that makes layers trainable -/
def marks : Act T → Prop
  | .setTrainable _ t | .setLayerTrainable _ t => t = true
  | _ => False

theorem at_tensor {a : Run T Nat} (h : At A B g a fun g' n => g'.clean n) : At A B g (Act.tensorOf a) fun g' r => RetOk g' r :=
  At.bind h fun _ n _ hn => At.pure (Ret.tensor n) fun _ => hn

theorem at_layer {a : Run T Nat} (h : At A B g a fun g' l => l < g'.w.layerNext) : At A B g (Act.layerOf a) fun g' r => RetOk g' r :=
  At.bind h fun _ n _ hn => At.pure (Ret.layer n) fun _ => hn

theorem at_model {a : Run T Nat} (h : At A B g a fun g' m => m < g'.w.netNext) : At A B g (Act.modelOf a) fun g' r => RetOk g' r :=
  At.bind h fun _ n _ hn => At.pure (Ret.model n) fun _ => hn

theorem at_nothing {a : Run T α} (h : At A B g a fun _ _ => True) : At A B g (Act.nothingOf a) fun g' r => RetOk g' r :=
  At.bind h fun _ _ _ _ => At.pure Ret.nothing fun _ => trivial

theorem path_front {w : World T} {l k : Nat} (h : Path w l k) : InFront w l k := by
  induction h with
  | refl l => exact .self l
  | step hp _ ih => exact .pre hp ih

theorem own_act {e : Env} (c : Act T) (hu : c.uses e) (he : EnvOk g e) :
    At (fun l => c.mayChange g.w l) ⟨fun _ => False, links c, marks c⟩ g c.run fun g' r => RetOk g' r := by
  cases c with
  | scalar v => exact At.bind (At.scalar v) fun _ p _ hp => At.pure (Ret.scalar p) fun _ => hp
  | setScalar p v => exact at_nothing (At.setValue (he.scalars p hu) v)
  | zeros s => exact at_tensor (At.zeros s)
  | ones s => exact at_tensor (At.leaf (allocs_map fun _ => rfl))
  | fromValues vs s => exact at_tensor (At.leaf (allocs_fromValues vs s))
  | rand s => exact at_tensor (At.rand s)
  | copy t => exact at_tensor (At.copyTensor t)
  | tensor c => exact at_tensor (own_call c fun t ht => he.tensors t (hu t ht))
  | flatten t => exact at_tensor ((At.flatten t).mono fun _ _ _ h => h (he.tensors t hu))
  | fillWith t p => exact at_tensor ((At.lazy fun k hk => by rw [List.mem_singleton.1 hk]; exact he.tensors t hu.1).mono fun _ _ _ h => h fun k hk => by rw [List.mem_singleton.1 hk]; exact he.tensors t hu.1)
  | copyTo t u => exact at_tensor ((At.lazy fun k hk => by rw [List.mem_singleton.1 hk]; exact he.tensors u hu.2).mono fun _ _ _ h => h fun k hk => by rw [List.mem_singleton.1 hk]; exact he.tensors u hu.2)
  | now v c => exact at_tensor (At.now v c fun t ht => he.tensors t (hu t ht))
  | element t i => exact At.bind (At.operand t i) fun _ p l hp => At.pure (Ret.scalar p) fun _ => hp (l.clean t (he.tensors t hu))
  | fill t p => exact at_nothing (own_fill (he.tensors t hu.1) p)
  | fillData t v => exact at_nothing (own_fillData (he.tensors t hu) v)
  | readTensor t bs => exact at_nothing (own_readTensor (he.tensors t hu) bs)
  | eval t => exact at_nothing (own_eval t)
  | set t v i => exact at_nothing (own_set (he.tensors t hu) v i)
  | loadData t vs => exact at_nothing (own_loadData (he.tensors t hu) vs)
  | loadTensor t u => exact at_nothing (own_loadClean u (he.tensors t hu.1))
  | input s =>
    refine at_layer (At.bind (At.zeros s) fun g1 i l1 h1 => At.bind (At.zeros s) fun g2 d l2 h2 => At.newLayer trivial ?_)
    exact { new_blank (g := g2) .input (fun _ _ _ h => by cases h) with input := fun n h => by cases h; exact l2.clean _ h1, dif := fun n h => by cases h; exact h2 }
  | dense n a =>
    refine at_layer (At.bind (At.zeros _) fun g1 i l1 h1 => At.newLayer trivial ?_)
    exact { new_blank (g := g1) .dense (fun _ _ _ h => by cases h) with output := fun n h => by cases h; exact h1 }
  | inDense i n a =>
    refine at_layer (At.bind (At.zeros _) fun g1 i l1 h1 => At.bind (At.zeros _) fun g2 d l2 h2 => At.newLayer trivial ?_)
    exact { new_blank (g := g2) .dense (fun _ _ _ h => by cases h) with input := fun n h => by cases h; exact l2.clean _ h1, output := fun n h => by cases h; exact h2 }
  | flattenLayer => exact at_layer (own_blank trivial _ fun _ _ _ h => by cases h)
  | softMaxLayer => exact at_layer (own_blank trivial _ fun _ _ _ h => by cases h)
  | normLayer => exact at_layer (own_blank trivial _ fun _ _ _ h => by cases h)
  | eNormLayer => exact at_layer (own_blank trivial _ fun _ _ _ h => by cases h)
  | subLayer d f t => exact at_layer (own_blank trivial _ fun _ _ _ h => by cases h)
  | concatLayer l k d => exact at_layer (own_blank trivial _ fun _ _ _ h => by cases h; exact ⟨he.layers l hu.1, he.layers k hu.2⟩)
  | conv n kw kh sx sy a => exact at_layer (At.newLayer trivial { new_blank (g := g) (.conv n kw kh sx sy) (fun _ _ _ h => by cases h) with })
  | deconv n kw kh sx sy a => exact at_layer (At.newLayer trivial { new_blank (g := g) (.deconv n kw kh sx sy) (fun _ _ _ h => by cases h) with })
  | maxPool sx sy => exact at_layer (own_blank trivial _ fun _ _ _ h => by cases h)
  | upSampling s => exact at_layer (own_blank trivial _ fun _ _ _ h => by cases h)
  | upSamplingXY sx sy => exact at_layer (own_blank trivial _ fun _ _ _ h => by cases h)
  | connect l k => exact at_nothing (own_connect trivial l (he.layers k hu.2))
  | setLayerTrainable l t => exact at_nothing (own_setOne trivial l t fun h => h)
  | newModel => exact at_model (own_newModel trivial)
  | fromInOut i o => exact at_model (own_fromInOut trivial (he.layers i hu.1) (he.layers o hu.2))
  | fromModels ms => exact at_model (own_fromModels trivial ms)
  | push m l => exact at_nothing (own_pushLayer trivial m (he.layers l hu.2))
  | compile m => exact at_nothing (own_compile m)
  | compileBP m => exact at_nothing (own_compileBP m)
  | resetIS m => exact at_nothing (own_resetIS m)
  | predict m t => exact at_tensor (own_predict m t)
  | trainOne m x y a mo => exact at_nothing (own_trainOne m x y a mo (fun h => h) fun l hl k hk ht => ⟨ht, l, hl, path_front hk⟩)
  | train m xs ys ep b a mo d => exact at_nothing (own_train m xs ys ep b a mo d (fun h => h) fun l hl k hk ht => ⟨ht, l, hl, path_front hk⟩)
  | setTrainable m t => exact at_nothing (own_setTrainable trivial m t fun h => h)
  | resetSave m => exact at_nothing (own_netResetSave m)
  | resetLoad m => exact at_nothing (own_netResetLoad m)
  | save m s => exact at_nothing (own_save m s)
  | load m bs => exact at_nothing (own_load (fun h => h) m bs fun l k hl hk => ⟨l, hl, hk⟩)

omit [Bin T] in
theorem inv_start (rnd : Nat → Nat → T) : Inv (⟨fun _ => none, fun _ => False, fun _ => none, start rnd⟩ : G T) := by
  constructor
  case next => exact Nat.one_pos
  case ref => exact fun _ => ⟨Nat.one_pos, rfl⟩
  case nal => exact fun _ => ⟨Nat.one_pos, rfl⟩
  case nmo => exact fun _ => ⟨Nat.one_pos, rfl⟩
  case zero => rfl
  case fresh => exact fun _ _ => rfl
  case ctx => exact fun o ho => absurd ho List.not_mem_nil
  case sound => exact fun _ h => h.elim
  case lt => exact fun _ h => h.elim
  case views => exact fun _ h => h.elim
  case tgt => exact fun _ t ht => absurd ht List.not_mem_nil
  case wts => exact fun _ _ h => by rcases h with h | h <;> cases h
  case neat => exact fun _ => ⟨fun _ h => (by rcases h with h | h <;> cases h), fun _ _ h => (by cases h)⟩
  case unff => exact fun _ _ => ⟨rfl, rfl⟩
  case unused => exact fun _ _ => rfl
  case cat => exact fun _ _ _ _ h => by cases h
  case src => exact ⟨fun _ _ _ h => (by cases h), fun _ _ h => (by cases h)⟩
  case drawn => exact fun _ _ h => by rcases h with h | h <;> cases h
  all_goals exact fun _ _ h => by cases h

theorem env_add {e : Env} {r : Ret} (h : EnvOk g e) (hr : RetOk g r) : EnvOk g (e.add r) := by
  cases r with
  | nothing => exact h
  | model n =>
    refine ⟨h.tensors, h.layers, fun t ht => ?_, h.scalars⟩
    rcases List.mem_cons.1 ht with rfl | ht
    · exact hr
    · exact h.models t ht
  | tensor n =>
    refine ⟨fun t ht => ?_, h.layers, h.models, h.scalars⟩
    rcases List.mem_cons.1 ht with rfl | ht
    · exact hr
    · exact h.tensors t ht
  | layer n =>
    refine ⟨h.tensors, fun t ht => ?_, h.models, h.scalars⟩
    rcases List.mem_cons.1 ht with rfl | ht
    · exact hr
    · exact h.layers t ht
  | scalar n =>
    refine ⟨h.tensors, h.layers, h.models, fun t ht => ?_⟩
    rcases List.mem_cons.1 ht with rfl | ht
    · exact hr
    · exact h.scalars t ht

/-- reached states satisfy the invariant -/
theorem calls_inv {P : World T → Act T → Prop} {e0 e : Env} {w0 w : World T} (h : Calls P e0 w0 e w) (h0 : ∃ g : G T, g.w = w0 ∧ Inv g ∧ EnvOk g e0) :
    ∃ g : G T, g.w = w ∧ Inv g ∧ EnvOk g e := by
  induction h with
  | refl => exact h0
  | ok _ hu _ hr ih =>
    obtain ⟨g1, rfl, i1, e1⟩ := ih h0
    have H := own_act _ hu e1 i1
    rw [hr] at H
    obtain ⟨g2, h2, i2, l2, r2⟩ := H
    exact ⟨g2, h2, i2, env_add (e1.le l2) r2⟩
  | err _ hu _ hr ih =>
    obtain ⟨g1, rfl, i1, e1⟩ := ih h0
    have H := own_act _ hu e1 i1
    rw [hr] at H
    obtain ⟨g2, h2, i2, l2⟩ := H
    exact ⟨g2, h2, i2, e1.le l2⟩

theorem reached_inv {e : Env} {w : World T} (h : Reached e w) : ∃ g : G T, g.w = w ∧ Inv g ∧ EnvOk g e := by
  obtain ⟨rnd, h⟩ := h
  exact calls_inv h ⟨_, rfl, inv_start rnd, ⟨fun _ h => absurd h List.not_mem_nil, fun _ h => absurd h List.not_mem_nil, fun _ h => absurd h List.not_mem_nil, fun _ h => absurd h List.not_mem_nil⟩⟩

omit [Bin T] in
/-- the numbers in the weights and the bias of a layer that may not change -/
theorem le_numbers (hi : Inv g) (hl : Le A B g g') {l : Nat} (hA : ¬ A l) (hB : ¬ B.1 l) {f : Layer T → Option Nat} (hf : f = Layer.weights ∨ f = Layer.bias)
    {x : List Nat × List T} (h : numbers g.w (f (g.w.layers l)) = some x) : numbers g'.w (f (g'.w.layers l)) = some x := by
  have hff : (g.w.layers l).ff = true := by
    by_contra hc
    have := hi.unff l (by simpa using hc)
    rcases hf with rfl | rfl
    · rw [this.1] at h; cases h
    · rw [this.2] at h; cases h
  have he : f (g'.w.layers l) = f (g.w.layers l) := by
    rcases hf with rfl | rfl
    · exact (hl.wts l hB hff).1
    · exact (hl.wts l hB hff).2
  rw [he]
  cases e : f (g.w.layers l) with
  | none => rw [e] at h; cases h
  | some n =>
    rw [e] at h
    have ho : Owned g l n := hi.wts l n (by rcases hf with rfl | rfl <;> simp [e])
    rw [← h]
    show some (_, _) = some (_, _)
    rw [hl.leaf n ho.lt ho.leaf]
    congr 2
    exact List.map_congr_left fun q hq => hl.val q l (ho.ops q hq).2 hA

/-- one call -/
theorem call_numbers {e : Env} {w w' : World T} (hr : Reached e w) (c : Act T) (hu : c.uses e) {l : Nat} (hc : ¬ c.mayChange w l)
    (hw : (∃ r, c.run w = .ok r w') ∨ ∃ x, c.run w = .err x w') {f : Layer T → Option Nat} (hf : f = Layer.weights ∨ f = Layer.bias)
    {x : List Nat × List T} (h : numbers w (f (w.layers l)) = some x) : numbers w' (f (w'.layers l)) = some x := by
  obtain ⟨g, rfl, hi, he⟩ := reached_inv hr
  have H := own_act c hu he hi
  rcases hw with ⟨r, hw⟩ | ⟨r, hw⟩
  · rw [hw] at H
    obtain ⟨g2, rfl, i2, l2, _⟩ := H
    exact le_numbers hi l2 hc (fun h => h) hf h
  · rw [hw] at H
    obtain ⟨g2, rfl, i2, l2⟩ := H
    exact le_numbers hi l2 hc (fun h => h) hf h

end Own
end Godeep
