import Verif.Lemmas.GFF
import Verif.Lemmas.Eff
import Verif.Lemmas.FFView
import Verif.Lemmas.Predict
/-
  What `BuildBackpropagation` of one layer has to do: the contract between the proofs for the kinds of layers
  and the proof for networks.
-/
set_option linter.unusedSectionVars false

namespace Godeep
open Spec GoNum

variable {T : Type} [GoNum T]

/-- the scalars made between `w` and `w'` that `ops` do not assign have the values they had in `w'` -/
def Kept (w w' : World T) (ops : List (Op T)) (h : Heap T) : Prop :=
  ∀ q, w.store.heap.next ≤ q → q < w'.store.heap.next → q ∉ dsts ops → h.val q = w'.store.heap.val q

theorem Kept.seg {w w' wa wb : World T} {oa o ob : List (Op T)} {h ha : Heap T} (K : Kept w w' (oa ++ (o ++ ob)) h)
    (he : exec oa h = .ok () ha) {L : Nat → Prop} (g : Grow L (fun _ => False) ob wb w') (hw : w.store.heap.next ≤ wa.store.heap.next)
    (hd : ∀ q, wa.store.heap.next ≤ q → q < wb.store.heap.next → q ∉ dsts o → q ∉ dsts oa ∧ q ∉ dsts ob) : Kept wa wb o ha := by
  intro q h1 h2 h3
  obtain ⟨d1, d2⟩ := hd q h1 h2 h3
  have := g.next
  rw [(exec_frame he).2 q d1, K q (by omega) (by omega) (by rw [dsts_append, dsts_append]; simp [d1, d2, h3]), g.val q h2 fun h => h]

/-- a layer's own part of `BuildBackpropagation` -/
def bpOwn (alpha momentum : Ptr) (fuel l : Nat) : LKind T → Run T Unit
  | .dense => LayerM.denseBP fuel l alpha momentum
  | .flatten => LayerM.flattenBP fuel l
  | .softMax => LayerM.softMaxBP l
  | .norm min max => LayerM.normBP min max fuel l
  | .sub d f t => LayerM.subBP d f t fuel l
  | .conv _ kw kh sx sy => LayerM.convBP kw kh sx sy fuel l alpha momentum
  | .deconv _ kw kh sx sy => LayerM.deconvBP kw kh sx sy fuel l alpha momentum
  | .maxPool sx sy => LayerM.maxPoolBP sx sy fuel l
  | .upSampling sx sy => LayerM.upSamplingBP sx sy fuel l
  | _ => pure ()

/-- what building the derivative of a layer with output `oM` has done; `E h D`: in `h` the derivative is `D` -/
def DerPost (b p : Nat) (oM : Mat) (E : Heap T → STensor T → Prop) (safe : Prop) (w : World T) (d : Nat) (w' : World T) : Prop :=
  ∃ ops M, Grow (fun j => b ≤ j ∧ j ≤ p) (fun _ => False) ops w w' ∧ (∀ j, ∃ x, w'.layers j = { w.layers j with der := x }) ∧
    Ready w' d M ∧ M.shape = oM.shape ∧ (∀ q ∈ M.ops, w.store.heap.next ≤ q) ∧
    (∀ q ∈ dsts ops, w.store.heap.next ≤ q ∧ q < w'.store.heap.next) ∧ (safe → ∀ o ∈ ops, Fine o) ∧
    ∀ h h' D, w'.store.heap.next ≤ h.next → Kept w w' ops h → E h D → exec ops h = .ok () h' → Holds h' M D

/-- layer `l` with tensors `X`, after layer `p` with tensors `P`, is ready for back-propagation -/
structure BPPre (s : LSpec T) (w : World T) (fuel b l p : Nat) (P X : GLayer) (alpha momentum : Ptr) (E : Heap T → STensor T → Prop)
    (dsafe : Prop) : Prop where
  pos : 0 < w.store.heap.next
  lt : b ≤ p ∧ p < l
  fpos : 0 < fuel
  kind : (w.layers l).kind = s.kind
  pre : (w.layers l).pre = some p
  pnot : (w.layers p).pre = none ∨ ∃ s' : LSpec T, (w.layers p).kind = s'.kind
  step : GStep s l P X w
  output : (w.layers l).output = some X.out
  dif : (w.layers l).dif = some X.dif
  pdif : (w.layers p).dif = some P.dif
  rin : Ready w P.out P.oM
  rout : Ready w X.out X.oM
  rdif : Ready w X.dif X.dM
  rpdif : Ready w P.dif P.dM
  sout : X.oM.shape = s.outShape P.oM.shape
  sdif : X.dM.shape = X.oM.shape
  spdif : P.dM.shape = P.oM.shape
  nd : P.dM.ops.Nodup
  spar : X.ps.map Mat.shape = s.paramShapes P.oM.shape
  fits : s.fits P.oM.shape
  bfits : s.bpFits
  ref : 0 < (w.layers l).ref ∧ (w.layers l).ref < w.store.heap.next ∧ (w.layers l).ref ∉ P.dM.ops
  rates : 0 < alpha ∧ alpha < w.store.heap.next ∧ alpha ∉ P.dM.ops ∧ 0 < momentum ∧ momentum < w.store.heap.next ∧ momentum ∉ P.dM.ops
  sepd : s ≠ .softMax → ∀ q ∈ P.dM.ops, q ∉ X.dM.ops
  sep : ∀ q ∈ P.dM.ops, q ∉ P.oM.ops ∧ q ∉ X.oM.ops ∧ (∀ m ∈ X.ps, q ∉ m.ops) ∧ (s = .norm ∨ s = .eNorm → q ≠ X.mx)
  stab : ∀ h h' D, E h D → h.next ≤ h'.next → (∀ q, q < w.store.heap.next → q ∉ P.dM.ops → h'.val q = h.val q) → E h' D
  der : s.weighted = true → ∀ w1 o, Grow (· = l) (fun _ => False) o w w1 →
    wp True (LayerM.buildDer fuel p) (DerPost b p P.oM E dsafe w1) w1

/-- the values before back-propagation through the layer -/
structure BPVals (s : LSpec T) (P X : GLayer) (alpha momentum ref : Ptr) (E : Heap T → STensor T → Prop) (mbs : List Mat) (h : Heap T)
    (pv mv : List (STensor T)) (x d D : STensor T) (al mu r : T) : Prop where
  inp : Holds h P.oM x
  out : Holds h X.oM (s.fn pv x)
  par : List.Forall₂ (Holds h) X.ps pv
  mx : s = .norm ∨ s = .eNorm → h.val X.mx = max1 (x.flat.map fun v => if lt v zero then GoNum.neg v else v)
  rates : h.val alpha = al ∧ h.val momentum = mu ∧ h.val ref = r
  dif : Holds h X.dM d
  zero : s ≠ .softMax → ∀ q ∈ P.dM.ops, h.val q = GoNum.zero
  mom : List.Forall₂ (Holds h) mbs mv
  env : E h D

/-- what building the back-propagation of the layer has done -/
structure BPDone1 (s : LSpec T) (b l : Nat) (P X : GLayer) (alpha momentum : Ptr) (E : Heap T → STensor T → Prop) (dsafe : Prop)
    (ops : List (Op T)) (nps mbs : List Mat) (w w' : World T) : Prop where
  grow : Grow (fun j => b ≤ j ∧ j ≤ l) (fun _ => False) ops w w'
  fwd : ∀ j, (w'.layers j).fwd = (w.layers j).fwd
  flags : ∀ j, (w'.layers j).trainable = (w.layers j).trainable ∧ (w'.layers j).bp = (w.layers j).bp
  der : ∀ j, s.weighted = false ∨ l ≤ j → (w'.layers j).der = (w.layers j).der
  old : ∀ j, s.weighted = false ∨ j ≠ l → (w'.layers j).nWeights = (w.layers j).nWeights ∧ (w'.layers j).nBias = (w.layers j).nBias
  new : s.weighted = true → ∃ nw nb nwM nbM, nps = [nwM, nbM] ∧ (w'.layers l).nWeights = some nw ∧ (w'.layers l).nBias = some nb ∧
    Ready w' nw nwM ∧ Ready w' nb nbM
  nshape : nps.map Mat.shape = s.paramShapes P.oM.shape
  nreg : ∀ m ∈ nps, ∀ q ∈ m.ops, w.store.heap.next ≤ q ∧ q < w'.store.heap.next
  mom : ∀ m ∈ mbs, GoodMat w'.store.heap m ∧ ∀ q ∈ m.ops, w.store.heap.next ≤ q ∧ w'.store.heap.val q = GoNum.zero
  mshape : mbs.map Mat.shape = s.momShapes P.oM.shape
  dst : ∀ q ∈ dsts ops, (w.store.heap.next ≤ q ∧ q < w'.store.heap.next) ∨ q ∈ P.dM.ops
  fine : s.bpSafe P.oM.shape → dsafe → (lt one (w.store.heap.val (w.layers l).ref) = true → ∀ x y : T, divPanics x y = false) →
    ∀ o ∈ ops, Fine o
  run : ∀ h h' pv mv x d D al mu, w'.store.heap.next ≤ h.next → Kept w w' ops h →
    BPVals s P X alpha momentum (w.layers l).ref E mbs h pv mv x d D al mu (w.store.heap.val (w.layers l).ref) →
    exec ops h = .ok () h' →
    Holds h' P.dM (s.back pv d (shared (w.store.heap.val (w.layers l).ref) d) x D) ∧
    (s.weighted = true → List.Forall₂ (Holds h') nps (s.learned al mu pv mv d (shared (w.store.heap.val (w.layers l).ref) d) x)) ∧
    List.Forall₂ (Holds h') mbs (s.changed al mu mv d)

/-- back-propagation through the layer is built as specified -/
def BPGood (s : LSpec T) : Prop :=
  ∀ (w : World T) (fuel b l p : Nat) (P X : GLayer) (alpha momentum : Ptr) (E : Heap T → STensor T → Prop) (dsafe : Prop),
    BPPre s w fuel b l p P X alpha momentum E dsafe → wp True (bpOwn alpha momentum fuel l s.kind)
      (fun _ w' => ∃ ops nps mbs, BPDone1 s b l P X alpha momentum E dsafe ops nps mbs w w') w

/-! ### pieces that several kinds of layers share -/

theorem wp_getDif {fuel p n : Nat} {w : World T} {Q : Option Nat → World T → Prop} (hf : 0 < fuel)
    (hp : (w.layers p).pre = none ∨ ∃ s : LSpec T, (w.layers p).kind = s.kind) (hd : (w.layers p).dif = some n) (h : Q (some n) w) :
    wp True (LayerM.getDif fuel p) Q w := by
  refine wp_of_ok (delegated_ok (field := Layer.dif) hf hp) ?_
  rw [hd]; exact h

/-- what building the errors divided by the number of uses has done -/
structure Scaled (r : Ptr) (v : T) (dM : Mat) (n : Nat) (rM : Mat) (ops : List (Op T)) (w w' : World T) : Prop where
  grow : ∀ L, Grow L (fun _ => False) ops w w'
  layers : w'.layers = w.layers
  ready : Ready w' n rM
  shape : rM.shape = dM.shape
  cells : ∀ q ∈ rM.ops, (w.store.heap.next ≤ q ∧ q < w'.store.heap.next) ∨ q ∈ dM.ops
  dst : ∀ q ∈ dsts ops, w.store.heap.next ≤ q ∧ q < w'.store.heap.next
  zero : ∀ q, w.store.heap.next ≤ q → q < w'.store.heap.next → w'.store.heap.val q = GoNum.zero
  fine : (lt one v = true → ∀ x y : T, divPanics x y = false) → ∀ o ∈ ops, Fine o
  run : ∀ h h' d, w'.store.heap.next ≤ h.next → Kept w w' ops h → h.val r = v → Holds h dM d → exec ops h = .ok () h' →
    Holds h' rM (shared v d)

theorem wp_scaled {β : Type} {x : Layer T} {dif : Nat} {dM : Mat} {k : Nat → Run T β} {Q : β → World T → Prop} {w : World T}
    (hpos : 0 < w.store.heap.next) (hd : x.dif = some dif) (rd : Ready w dif dM) (hr : 0 < x.ref ∧ x.ref < w.store.heap.next)
    (h : ∀ w' n rM ops, Scaled x.ref (w.store.heap.val x.ref) dM n rM ops w w' → wp True (k n) Q w') :
    wp True (LayerM.scaledDif x >>= fun n => Run.buildGraph n >>= fun _ => k n) Q w := by
  refine wp_bind ?_
  unfold LayerM.scaledDif
  refine wp_bind (wp_deref hd ?_)
  refine wp_bind (wp_of_ok (value_ok hr.1) ?_)
  by_cases hv : lt one (w.store.heap.val x.ref) = true
  · rw [if_pos hv]
    refine wp_lazy (L := fun _ => False) (C := fun _ => False) fun w1 g1 l1 h1 x1 nd1 _ => ?_
    have p1 := (rd.grow g1).pend (∀ x y : T, divPanics x y = false)
    have pa : Pend w1 w.nodeNext dM.shape (fun val => (ofMat val dM).map fun z => GoNum.div z (val x.ref)) (· ∈ dM.ops)
        (∀ x y : T, divPanics x y = false) :=
      p1.one (k := .opScalar .div dif x.ref) (own := []) nd1 (by omega) rd.lt rfl trivial (by simp) (by rw [h1]; exact hr)
        trivial (by simp [Kind.straddles]) (fun val => ⟨_, rfl, map_tab _ (tab_tab _)⟩) (fun h => ⟨trivial, h⟩)
    have q1 : 0 < w1.store.heap.next := by rw [h1]; exact hpos
    refine wp_bind (wp_build (L := fun _ => False) (C := fun _ => False) pa q1 fun w2 new rM A => ?_)
    have e1 : w1.store.heap.next = w.store.heap.next := by rw [h1]
    refine h w2 _ rM new ⟨fun L => ?_, by rw [A.layers, l1], A.ready, A.shape, fun q hq => ?_, fun q hq => ?_, fun q a b => ?_, fun hs => A.fine (hs hv),
      fun h h' d hn hk hrv Hd he => ?_⟩
    · have := (g1.trans A.grow).weaken (L' := L) (C' := fun _ => False) (fun _ h => h.elim) fun _ h => h
      simpa using this
    · rw [← e1]; exact A.cells q hq
    · rw [← e1]; exact A.dst q hq
    · exact A.zero q (by omega) b
    · refine (A.run h h' hn (fun q a b c => ?_) he).of_tab ?_
      · rw [hk q (by omega) b c]; exact A.zero q a b
      · unfold shared
        rw [if_pos hv]
        simp only [hrv]
        exact map_tab _ (ofMat_tab Hd)
  · rw [if_neg hv]
    refine wp_pure (wp_bind (wp_buildReady (L := fun _ => False) rd fun w2 nops hn g l2 n2 e2 => ?_))
    have e1 : w2.store.heap.next = w.store.heap.next := by rw [e2]
    refine h w2 _ dM nops ⟨fun L => g.grow.weaken (fun _ h => h.elim) fun _ h => h, l2, rd.grow g.grow, rfl, fun q hq => Or.inr hq,
      fun q hq => (by rw [hn.dsts] at hq; cases hq), fun q a b => (by omega), fun _ => hn.fine, fun h h' d _ _ _ Hd he => ?_⟩
    rw [hn.exec] at he
    simp only [Out.ok.injEq, true_and] at he
    subst he
    unfold shared
    rw [if_neg hv]; exact Hd

/-- a loop that only emits operations -/
theorem wp_effect {tot : Prop} {base : Nat} {W : Ptr → Prop} {F : (Ptr → T) → Ptr → T} {safe : Prop} {a : Run T Unit} {w : World T}
    {Q : Unit → World T → Prop}
    (hE : ∃ hi ops, Em w a w.store.heap.next hi () ops ∧ Effect base w.store.heap.next hi W ops F safe)
    (h : ∀ w' ops, (∀ L, Lay L ops w w') → w'.layers = w.layers → Effect base w.store.heap.next w'.store.heap.next W ops F safe → Q () w') :
    wp tot a Q w := by
  obtain ⟨hi, ops, m, F⟩ := hE
  refine wp_of_ok (m.2 w rfl rfl rfl) (h _ ops (fun L => lay_emitted _ _ _) rfl ?_)
  have : (emitted (hi - w.store.heap.next) ops w).store.heap.next = hi := by rw [emitted_next]; have := m.1; omega
  rw [this]; exact F

theorem Effect.run {base lo hi : Nat} {W : Ptr → Prop} {ops : List (Op T)} {F : (Ptr → T) → Ptr → T} {safe : Prop}
    (E : Effect base lo hi W ops F safe) {h h' : Heap T} (he : exec ops h = .ok () h') {q : Ptr} (hq : q < base) :
    h'.val q = F h.val q := by
  rw [exec_val he, E.eff _ q hq]

end Godeep
