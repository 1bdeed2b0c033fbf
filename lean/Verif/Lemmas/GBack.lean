import Verif.Lemmas.GChain
/-
  `BuildBackpropagation` of a sequential network of any layers: what the operations compute.
-/
set_option linter.unusedSectionVars false

namespace Godeep
open Spec GoNum

variable {T : Type} [GoNum T]

/-- the values before back-propagation through the first `k` layers -/
structure GVals (shape : List Nat) (ls : List (LSpec T)) (L : Nat → GLayer) (refs : Nat → Ptr) (rv : Nat → T) (alpha momentum : Ptr)
    (mbs : Nat → List Mat) (k : Nat) (h : Heap T) (x : STensor T) (pv mv : List (List (STensor T))) (d : STensor T) (al mu : T) : Prop where
  safe : Safe ls shape
  len : pv.length = ls.length
  out : ∀ j ≤ ls.length, Holds h (L j).oM (netFn (ls.take j) (pv.take j) x)
  neta : ∀ j s, ls[j]? = some s → s.weighted = true → Holds h (L (j + 1)).nM (s.neta (pv.getD j []) (netFn (ls.take j) (pv.take j) x))
  mx : ∀ j s, ls[j]? = some s → s = .norm ∨ s = .eNorm → h.val (L (j + 1)).mx =
    max1 ((netFn (ls.take j) (pv.take j) x).flat.map fun v => if lt v zero then GoNum.neg v else v)
  par : ∀ j s, ls[j]? = some s → List.Forall₂ (Holds h) (L (j + 1)).ps (pv.getD j [])
  rates : h.val alpha = al ∧ h.val momentum = mu
  refs : ∀ j ≤ ls.length, h.val (refs j) = rv j
  mom : ∀ j < k, List.Forall₂ (Holds h) (mbs j) (mv.getD j [])
  dif : Holds h (L k).dM d
  zero : ∀ j < k, (∃ i, j ≤ i ∧ i < k ∧ ls[i]? ≠ some .softMax) → ∀ q ∈ (L j).dM.ops, h.val q = GoNum.zero

/-- the errors of the layers: `e j` for layer `j` -/
def Errs (ls : List (LSpec T)) (pv : List (List (STensor T))) (x D0 : STensor T) (k : Nat) (e : Nat → STensor T) : Prop :=
  ∀ j s, j < k → ls[j]? = some s → e j = s.back (pv.getD j []) (e (j + 1)) (shared (uses (ls.drop (j + 1))) (e (j + 1)))
    (netFn (ls.take j) (pv.take j) x) (netDer (ls.take j) (pv.take j) x D0)

/-- building the back-propagation part of the first `k` layers has done -/
structure GBDone (shape : List Nat) (ls : List (LSpec T)) (b : Nat) (L : Nat → GLayer) (a0 : Activation T) (alpha momentum : Ptr)
    (k : Nat) (ops : List (Op T)) (nps mbs : Nat → List Mat) (w w' : World T) : Prop where
  grow : Grow (fun l => b ≤ l ∧ l ≤ b + k) (fun _ => False) ops w w'
  fwd : ∀ l, (w'.layers l).fwd = (w.layers l).fwd
  train : ∀ l, (w'.layers l).trainable = (w.layers l).trainable
  old : ∀ l, (l = b ∨ ∃ j s, ls[j]? = some s ∧ l = b + 1 + j ∧ s.weighted = false) →
    (w'.layers l).nWeights = (w.layers l).nWeights ∧ (w'.layers l).nBias = (w.layers l).nBias
  new : ∀ j s, j < k → ls[j]? = some s → s.weighted = true → ∃ nw nb nwM nbM, nps j = [nwM, nbM] ∧
    (w'.layers (b + 1 + j)).nWeights = some nw ∧ (w'.layers (b + 1 + j)).nBias = some nb ∧ Ready w' nw nwM ∧ Ready w' nb nbM
  nshape : ∀ j s, j < k → ls[j]? = some s → (nps j).map Mat.shape = s.paramShapes (L j).oM.shape
  nreg : ∀ j < k, ∀ m ∈ nps j, ∀ q ∈ m.ops, w.store.heap.next ≤ q ∧ q < w'.store.heap.next
  mom : ∀ j < k, ∀ m ∈ mbs j, GoodMat w'.store.heap m ∧ ∀ q ∈ m.ops, w.store.heap.next ≤ q ∧ w'.store.heap.val q = GoNum.zero
  mshape : ∀ j s, j < k → ls[j]? = some s → (mbs j).map Mat.shape = s.momShapes (L j).oM.shape
  dst : ∀ q ∈ dsts ops, (w.store.heap.next ≤ q ∧ q < w'.store.heap.next) ∨ ∃ j < k, q ∈ (L j).dM.ops
  fine : (∀ j (s : LSpec T), ls[j]? = some s → s.bpSafe (L j).oM.shape) → Safe ls shape →
    (∀ j ≤ ls.length, lt one (uses (ls.drop j)) = true → ∀ x y : T, divPanics x y = false) → ∀ o ∈ ops, Fine o
  run : ∀ h h' x pv mv d al mu, w'.store.heap.next ≤ h.next → Kept w w' ops h →
    GVals shape ls L (fun j => (w.layers (b + j)).ref) (fun j => w.store.heap.val (w.layers (b + j)).ref) alpha momentum mbs k h x pv mv d al mu →
    exec ops h = .ok () h' → ∀ e, e k = d → Errs ls pv x (x.map a0.derive) k e → ∀ j s, j < k → ls[j]? = some s →
    (s.weighted = true → List.Forall₂ (Holds h') (nps j) (s.learned al mu (pv.getD j []) (mv.getD j []) (e (j + 1))
      (shared (uses (ls.drop (j + 1))) (e (j + 1))) (netFn (ls.take j) (pv.take j) x))) ∧
    List.Forall₂ (Holds h') (mbs j) (s.changed al mu (mv.getD j []) (e (j + 1)))

theorem GVals.env {shape : List Nat} {ls : List (LSpec T)} {L : Nat → GLayer} {refs : Nat → Ptr} {rv : Nat → T} {alpha momentum : Ptr}
    {mbs : Nat → List Mat} {k : Nat} {h : Heap T} {x : STensor T} {pv mv : List (List (STensor T))} {d : STensor T} {al mu : T}
    (V : GVals shape ls L refs rv alpha momentum mbs k h x pv mv d al mu) (a0 : Activation T) {n : Nat} (hn : n ≤ ls.length) :
    DerEnv shape (ls.take n) L a0 h (netDer (ls.take n) (pv.take n) x (x.map a0.derive)) := by
  have hl : (ls.take n).length = n := by rw [List.length_take]; omega
  refine ⟨safe_take V.safe n, x, pv.take n, by rw [List.length_take, hl, V.len]; omega, fun j hj => ?_, fun j s hs hw => ?_, rfl⟩
  · rw [hl] at hj
    rw [take_take_le _ hj, take_take_le _ hj]; exact V.out j (by omega)
  · have hj := (List.getElem?_eq_some_iff.1 hs).1
    rw [hl] at hj
    rw [List.getElem?_take, if_pos hj] at hs
    have : (pv.take n).getD j [] = pv.getD j [] := by
      rw [List.getD_eq_getElem?_getD, List.getD_eq_getElem?_getD, List.getElem?_take, if_pos hj]
    rw [take_take_le _ (by omega), take_take_le _ (by omega), this]; exact V.neta j s hs hw

theorem DerEnv.stab {shape : List Nat} {ls : List (LSpec T)} {L : Nat → GLayer} {a0 : Activation T} {h h' : Heap T} {D : STensor T}
    (E : DerEnv shape ls L a0 h D) (hn : h.next ≤ h'.next) (ho : ∀ j ≤ ls.length, ∀ q ∈ (L j).oM.ops, h'.val q = h.val q)
    (hne : ∀ j s, ls[j]? = some s → s.weighted = true → ∀ q ∈ (L (j + 1)).nM.ops, h'.val q = h.val q) : DerEnv shape ls L a0 h' D := by
  obtain ⟨hs, x, pv, hl, e1, e2, rfl⟩ := E
  exact ⟨hs, x, pv, hl, fun j hj => (e1 j hj).kept hn (ho j hj), fun j s hj hw => (e2 j s hj hw).kept hn (hne j s hj hw), rfl⟩

theorem GAt.oreg {shape : List Nat} {ls : List (LSpec T)} {b : Nat} {L : Nat → GLayer} {a0 : Activation T} {lo : Nat} {w : World T}
    (G : GAt shape ls b L a0 lo w) {j : Nat} (hj : j ≤ ls.length) {q : Ptr} (hq : q ∈ (L j).oM.ops) : q < w.store.heap.next :=
  ((G.out j hj).good.valid q hq).2

theorem GAt.nreg {shape : List Nat} {ls : List (LSpec T)} {b : Nat} {L : Nat → GLayer} {a0 : Activation T} {lo : Nat} {w : World T}
    (G : GAt shape ls b L a0 lo w) {j : Nat} {s : LSpec T} (hs : ls[j]? = some s) (hw : s.weighted = true) {q : Ptr} (hq : q ∈ (L (j + 1)).nM.ops) :
    q < w.store.heap.next :=
  ((((G.step j s hs).neta hw).2.1).good.valid q hq).2

theorem GAt.dreg {shape : List Nat} {ls : List (LSpec T)} {b : Nat} {L : Nat → GLayer} {a0 : Activation T} {lo : Nat} {w : World T}
    (G : GAt shape ls b L a0 lo w) {j : Nat} (hj : j ≤ ls.length) {q : Ptr} (hq : q ∈ (L j).dM.ops) : q < w.store.heap.next :=
  ((G.gdif j hj).2.1.good.valid q hq).2

theorem GAt.preg {shape : List Nat} {ls : List (LSpec T)} {b : Nat} {L : Nat → GLayer} {a0 : Activation T} {lo : Nat} {w : World T}
    (G : GAt shape ls b L a0 lo w) {j : Nat} {s : LSpec T} (hs : ls[j]? = some s) {m : Mat} (hm : m ∈ (L (j + 1)).ps) {q : Ptr} (hq : q ∈ m.ops) :
    q < w.store.heap.next := by
  have S := G.step j s hs
  rw [← S.par] at hm
  unfold layerParams at hm
  rcases e1 : (w.layers (b + 1 + j)).weights with _ | a
  · rw [e1] at hm; simp at hm
  · rcases e2 : (w.layers (b + 1 + j)).bias with _ | c
    · rw [e1, e2] at hm; simp at hm
    · rw [e1, e2] at hm
      obtain ⟨m1, r1, _⟩ := S.pready a (Or.inl e1)
      obtain ⟨m2, r2, _⟩ := S.pready c (Or.inr e2)
      simp only [r1.mat, r2.mat, List.mem_cons, List.not_mem_nil, or_false] at hm
      rcases hm with rfl | rfl
      · exact (r1.good.valid q hq).2
      · exact (r2.good.valid q hq).2

/-- layer `k + 1` is ready for back-propagation -/
theorem GAt.bpPre {shape : List Nat} {ls : List (LSpec T)} {b : Nat} {L : Nat → GLayer} {a0 : Activation T} {lo : Nat} {w : World T}
    (G : GAt shape ls b L a0 lo w) (S : GSep ls L lo) (hbf : ∀ s ∈ ls, s.bpFits) {alpha momentum : Ptr}
    (ha : 0 < alpha ∧ alpha < w.store.heap.next ∧ ∀ j ≤ ls.length, alpha ∉ (L j).dM.ops)
    (hm : 0 < momentum ∧ momentum < w.store.heap.next ∧ ∀ j ≤ ls.length, momentum ∉ (L j).dM.ops) {k : Nat} {s : LSpec T} (hs : ls[k]? = some s)
    {fuel : Nat} (hf : k < fuel) (hd : s.weighted = true → ∀ j ≤ k, (w.layers (b + j)).der = none) :
    BPPre s w fuel (b + root ls k) (b + 1 + k) (b + k) (L k) (L (k + 1)) alpha momentum (DerEnv shape (ls.take k) L a0) (Safe (ls.take k) shape) := by
  have hk := (List.getElem?_eq_some_iff.1 hs).1
  have hrk := root_le ls k
  have htl : (ls.take k).length = k := by rw [List.length_take]; omega
  obtain ⟨l1, l2, l3, l4, l5, l6⟩ := G.lay k s hs
  obtain ⟨d1, d2, d3⟩ := G.gdif k (by omega)
  obtain ⟨f1, f2, f3⟩ := G.gdif (k + 1) (by omega)
  have r1 := G.ref (k + 1) (by omega)
  rw [show b + (k + 1) = b + 1 + k by omega] at f1 r1
  have so := G.shape (k + 1) (by omega)
  rw [take_snoc hs, outShapes_append, ← G.shape k (by omega)] at so
  refine ⟨G.pos, by omega, by omega, l1, l2, ?_, G.step k s hs, l5, f1, d1, G.out k (by omega), G.out (k + 1) (by omega), f2, d2, so,
    (S.shape (k + 1) (by omega)).1, (S.shape k (by omega)).1, (S.shape k (by omega)).2, G.spar k s hs, ?_, hbf s (List.mem_of_getElem? hs),
    ⟨r1.1, lt_of_lt_of_le r1.2.1 G.le, fun h => ?_⟩, ⟨ha.1, ha.2.1, ha.2.2 k (by omega), hm.1, hm.2.1, hm.2.2 k (by omega)⟩, fun hne q hq => ?_, fun q hq => ?_,
    fun h h' D E hn hv => ?_, fun hw w1 o g => ?_⟩
  · rcases Nat.eq_zero_or_pos k with h | h
    · subst h; exact Or.inl G.kind0.2.1
    · right
      obtain ⟨j, rfl⟩ : ∃ j, k = j + 1 := ⟨k - 1, by omega⟩
      have hj : ls[j]? = some (ls[j]'(by omega)) := List.getElem?_eq_getElem (by omega)
      exact ⟨_, by rw [show b + (j + 1) = b + 1 + j by omega]; exact (G.lay j _ hj).1⟩
  · rw [G.shape k (by omega)]; exact fits_at G.fits hs
  · have := S.low k (by omega) _ h
    omega
  · exact S.disj k (k + 1) (by omega) (by omega) ⟨k, by omega, by omega, by rw [hs]; simpa using hne⟩ q hq
  · obtain ⟨p1, p2, p3⟩ := S.par k (by omega) q hq k s hs
    exact ⟨S.out k (by omega) q hq k (by omega), S.out k (by omega) q hq (k + 1) (by omega), p2, p3⟩
  · refine E.stab hn (fun j hj q hq => ?_) fun j s' hs' hw q hq => ?_
    · rw [htl] at hj
      exact hv q (G.oreg (by omega) hq) fun h => S.out k (by omega) q h j (by omega) hq
    · have hj := (List.getElem?_eq_some_iff.1 hs').1
      rw [htl] at hj
      rw [List.getElem?_take, if_pos hj] at hs'
      exact hv q (G.nreg hs' hw hq) fun h => (S.par k (by omega) q h j s' hs').1 hw hq
  · have := buildDer_ok (shape := shape) (b := b) (L := L) (a0 := a0) (root ls k) (ls.take k) fuel w1
      ((G.toGPre.take k).grow g fun j hj => by rw [htl] at hj; omega) (by omega) ?_ ?_ (fun j h1 h2 => ?_) (by omega)
    · rw [htl] at this; exact this
    · rcases root_weighted ls k with h | ⟨s', h, hw'⟩
      · exact Or.inl h
      · rcases Nat.eq_zero_or_pos (root ls k) with h0 | h0
        · exact Or.inl h0
        · exact Or.inr ⟨s', by rw [List.getElem?_take, if_pos (by omega)]; exact h, hw'⟩
    · intro i s' hi hs'
      have hj := (List.getElem?_eq_some_iff.1 hs').1
      rw [htl] at hj
      rw [List.getElem?_take, if_pos hj] at hs'
      exact root_behind ls k i s' hi hj hs'
    · rw [htl] at h2
      rw [g.layers _ (by omega)]; exact hd hw j h2

theorem forall₂_kept1 {h h' : Heap T} {ps : List Mat} {pv : List (STensor T)} (H : List.Forall₂ (Holds h) ps pv) (hn : h.next ≤ h'.next)
    (hv : ∀ m ∈ ps, ∀ q ∈ m.ops, h'.val q = h.val q) : List.Forall₂ (Holds h') ps pv := by
  induction H with
  | nil => exact .nil
  | cons a _ ih => exact .cons (a.kept hn (hv _ (by simp))) (ih fun m hm => hv m (by simp [hm]))

/-- the values after back-propagation through layer `k + 1` -/
theorem GVals.next {shape : List Nat} {ls : List (LSpec T)} {b : Nat} {L : Nat → GLayer} {a0 : Activation T} {lo : Nat} {w w1 : World T}
    (G : GAt shape ls b L a0 lo w) (hw1 : w.store.heap.next ≤ w1.store.heap.next) (S : GSep ls L lo) {alpha momentum : Ptr}
    (ha : 0 < alpha ∧ alpha < w.store.heap.next ∧ ∀ j ≤ ls.length, alpha ∉ (L j).dM.ops)
    (hm : 0 < momentum ∧ momentum < w.store.heap.next ∧ ∀ j ≤ ls.length, momentum ∉ (L j).dM.ops) {k : Nat} (hk : k < ls.length)
    {mbs : Nat → List Mat} (hmb : ∀ j < k, ∀ m ∈ mbs j, ∀ q ∈ m.ops, w1.store.heap.next ≤ q)
    {refs : Nat → Ptr} (hrefs : ∀ j ≤ ls.length, refs j < lo) {rv : Nat → T} {ops : List (Op T)} {h h' : Heap T}
    {x : STensor T} {pv mv : List (List (STensor T))} {d d' : STensor T} {al mu : T}
    (V : GVals shape ls L refs rv alpha momentum mbs (k + 1) h x pv mv d al mu)
    (hdst : ∀ q ∈ dsts ops, (w.store.heap.next ≤ q ∧ q < w1.store.heap.next) ∨ q ∈ (L k).dM.ops) (he : exec ops h = .ok () h')
    (hd : Holds h' (L k).dM d') : GVals shape ls L refs rv alpha momentum mbs k h' x pv mv d' al mu := by
  obtain ⟨fn, fv⟩ := exec_frame he
  have hn : h.next ≤ h'.next := le_of_eq fn.symm
  have key : ∀ q, q < w.store.heap.next → q ∉ (L k).dM.ops → h'.val q = h.val q := fun q h1 h2 => fv q fun hq => by
    rcases hdst q hq with h | h
    · omega
    · exact h2 h
  refine ⟨V.safe, V.len, fun j hj => (V.out j hj).kept hn fun q hq => ?_, fun j s hs hw => (V.neta j s hs hw).kept hn fun q hq => ?_, fun j s hs hx => ?_,
    fun j s hs => forall₂_kept1 (V.par j s hs) hn fun m hmm q hq => ?_, ?_, fun j hj => ?_, fun j hj => forall₂_kept1 (V.mom j (by omega)) hn fun m hmm q hq => ?_,
    hd, fun j hj hex q hq => ?_⟩
  · exact key q (G.oreg hj hq) fun h => S.out k (by omega) q h j hj hq
  · exact key q (G.nreg hs hw hq) fun h => (S.par k (by omega) q h j s hs).1 hw hq
  · rw [key _ ((G.step j s hs).mx hx).2.2 fun h => (S.par k (by omega) _ h j s hs).2.2 hx rfl]
    exact V.mx j s hs hx
  · exact key q (G.preg hs hmm hq) fun h => (S.par k (by omega) q h j s hs).2.1 m hmm hq
  · rw [key _ ha.2.1 (ha.2.2 k (by omega)), key _ hm.2.1 (hm.2.2 k (by omega))]; exact V.rates
  · have := hrefs j hj
    have := G.le
    rw [key _ (by omega) fun h => ?_]
    · exact V.refs j hj
    · have := S.low k (by omega) _ h; omega
  · refine fv q fun hd => ?_
    have := hmb j hj m hmm q hq
    rcases hdst q hd with h | h
    · omega
    · have := G.dreg (by omega) h
      omega
  · rw [key q (G.dreg (by omega) hq) fun h => S.disj j k hj (by omega) hex q hq h]
    obtain ⟨i, h1, h2, h3⟩ := hex
    exact V.zero j (by omega) ⟨i, h1, by omega, h3⟩ q hq

/-- one more layer -/
theorem GBDone.cons {shape : List Nat} {ls : List (LSpec T)} {b : Nat} {L : Nat → GLayer} {a0 : Activation T} {lo : Nat} {w w0 w1 w2 : World T}
    (G : GAt shape ls b L a0 lo w) (S : GSep ls L lo) {alpha momentum : Ptr}
    (ha : 0 < alpha ∧ alpha < w.store.heap.next ∧ ∀ j ≤ ls.length, alpha ∉ (L j).dM.ops)
    (hm : 0 < momentum ∧ momentum < w.store.heap.next ∧ ∀ j ≤ ls.length, momentum ∉ (L j).dM.ops) {k : Nat} {s : LSpec T} (hs : ls[k]? = some s)
    (hw0 : w0 = updL (b + 1 + k) (fun x => { x with bp := true }) w) {o1 o2 : List (Op T)} {np mb : List Mat} {nps mbs : Nat → List Mat}
    (A : BPDone1 s (b + root ls k) (b + 1 + k) (L k) (L (k + 1)) alpha momentum (DerEnv shape (ls.take k) L a0) (Safe (ls.take k) shape) o1 np mb w0 w1)
    (B : GBDone shape ls b L a0 alpha momentum k o2 nps mbs w1 w2) :
    GBDone shape ls b L a0 alpha momentum (k + 1) (o1 ++ o2) (Function.update nps k np) (Function.update mbs k mb) w w2 := by
  have hk := (List.getElem?_eq_some_iff.1 hs).1
  have hst : w0.store = w.store := by rw [hw0]; rfl
  have l0 : w0.layers (b + 1 + k) = { w.layers (b + 1 + k) with bp := true } := by rw [hw0, updL_same]
  have l0' : ∀ l, l ≠ b + 1 + k → w0.layers l = w.layers l := fun l h => by rw [hw0, updL_ne _ _ h]
  have same0 : ∀ l, (w0.layers l).fwd = (w.layers l).fwd ∧ (w0.layers l).trainable = (w.layers l).trainable ∧
      (w0.layers l).nWeights = (w.layers l).nWeights ∧ (w0.layers l).nBias = (w.layers l).nBias ∧ (w0.layers l).ref = (w.layers l).ref := fun l => by
    by_cases h : l = b + 1 + k
    · subst h; rw [l0]; exact ⟨rfl, rfl, rfl, rfl, rfl⟩
    · rw [l0' l h]; exact ⟨rfl, rfl, rfl, rfl, rfl⟩
  have e : ∀ {j : Nat} (f : Nat → List Mat) (m : List Mat), j < k → Function.update f k m j = f j := fun f m hj => Function.update_of_ne (by omega) _ _
  have en : ∀ (f : Nat → List Mat) (m : List Mat), Function.update f k m k = m := fun f m => Function.update_self ..
  have g0 : Grow (fun l => b ≤ l ∧ l ≤ b + (k + 1)) (fun _ => False) [] w w0 := by
    rw [hw0]; exact grow_updL (⟨by omega, by omega⟩ : b ≤ b + 1 + k ∧ b + 1 + k ≤ b + (k + 1)) _ w
  have hn0 : w0.store.heap.next = w.store.heap.next := by rw [hst]
  have n1 : w.store.heap.next ≤ w1.store.heap.next := by rw [← hn0]; exact A.grow.next
  have n2 : w1.store.heap.next ≤ w2.store.heap.next := B.grow.next
  have G1 : Grow (fun l => b ≤ l ∧ l ≤ b + (k + 1)) (fun _ => False) o1 w w1 := by
    have := g0.trans (A.grow.weaken (L' := fun l => b ≤ l ∧ l ≤ b + (k + 1)) (C' := fun _ => False) (fun l hl => ⟨by omega, by omega⟩) fun _ h => h)
    simpa using this
  have lk : w2.layers (b + 1 + k) = w1.layers (b + 1 + k) := B.grow.layers _ (by omega)
  have split : ∀ {P : Nat → Prop}, (∀ j < k, P j) → P k → ∀ j < k + 1, P j := fun h1 h2 j hj => by
    rcases Nat.lt_or_ge j k with h | h
    · exact h1 j h
    · have : j = k := by omega
      subst this; exact h2
  have hd1 : ∀ q ∈ dsts o1, (w.store.heap.next ≤ q ∧ q < w1.store.heap.next) ∨ q ∈ (L k).dM.ops := fun q hq => by
    rw [← hn0]; exact A.dst q hq
  have hd2 : ∀ q ∈ dsts o2, (w1.store.heap.next ≤ q ∧ q < w2.store.heap.next) ∨ q < w.store.heap.next := fun q hq => by
    rcases B.dst q hq with h | ⟨j, hj, h⟩
    · exact Or.inl h
    · exact Or.inr (G.dreg (by omega) h)
  refine ⟨G1.trans (B.grow.weaken (fun l hl => ⟨by omega, by omega⟩) fun _ h => h), fun l => by rw [B.fwd, A.fwd, (same0 l).1],
    fun l => by rw [B.train, (A.flags l).1, (same0 l).2.1], fun l hl => ?_, fun j s' hj hs' hw => ?_, fun j s' hj hs' => ?_, ?_, ?_, fun j s' hj hs' => ?_, fun q hq => ?_,
    fun h1 h2 h3 o ho => ?_, ?_⟩
  · have : s.weighted = false ∨ l ≠ b + 1 + k := by
      by_cases h : l = b + 1 + k
      · rcases hl with hl | ⟨j, s', hs', hl, hw⟩
        · omega
        · have : j = k := by omega
          subst this
          rw [hs] at hs'; cases hs'
          exact Or.inl hw
      · exact Or.inr h
    obtain ⟨a1, a2⟩ := A.old l this
    obtain ⟨b1, b2⟩ := B.old l hl
    exact ⟨by rw [b1, a1, (same0 l).2.2.1], by rw [b2, a2, (same0 l).2.2.2.1]⟩
  · rcases Nat.lt_or_ge j k with h | h
    · rw [e _ _ h]; exact B.new j s' h hs' hw
    · have : j = k := by omega
      subst this
      rw [hs] at hs'; cases hs'
      obtain ⟨nw, nb, nwM, nbM, a1, a2, a3, a4, a5⟩ := A.new hw
      exact ⟨nw, nb, nwM, nbM, by rw [en, a1], by rw [lk, a2], by rw [lk, a3], a4.grow B.grow, a5.grow B.grow⟩
  · rcases Nat.lt_or_ge j k with h | h
    · rw [e _ _ h]; exact B.nshape j s' h hs'
    · have : j = k := by omega
      subst this
      rw [hs] at hs'; cases hs'
      rw [en]; exact A.nshape
  · refine split (fun j hj => ?_) ?_
    · rw [e _ _ hj]
      intro m hmm q hq
      have := B.nreg j hj m hmm q hq
      omega
    · rw [en]
      intro m hmm q hq
      have := A.nreg m hmm q hq
      omega
  · refine split (fun j hj => ?_) ?_
    · rw [e _ _ hj]
      intro m hmm
      obtain ⟨b1, b2⟩ := B.mom j hj m hmm
      exact ⟨b1, fun q hq => ⟨by have := (b2 q hq).1; omega, (b2 q hq).2⟩⟩
    · rw [en]
      intro m hmm
      obtain ⟨a1, a2⟩ := A.mom m hmm
      exact ⟨a1.mono n2, fun q hq => ⟨by have := (a2 q hq).1; omega, by rw [B.grow.val q (a1.valid q hq).2 fun h => h]; exact (a2 q hq).2⟩⟩
  · rcases Nat.lt_or_ge j k with h | h
    · rw [e _ _ h]; exact B.mshape j s' h hs'
    · have : j = k := by omega
      subst this
      rw [hs] at hs'; cases hs'
      rw [en]; exact A.mshape
  · rw [dsts_append, List.mem_append] at hq
    rcases hq with hq | hq
    · rcases hd1 q hq with h | h
      · exact Or.inl ⟨h.1, by omega⟩
      · exact Or.inr ⟨k, by omega, h⟩
    · rcases B.dst q hq with h | ⟨j, hj, h⟩
      · exact Or.inl ⟨by omega, h.2⟩
      · exact Or.inr ⟨j, by omega, h⟩
  · rcases List.mem_append.1 ho with h | h
    · refine A.fine (h1 k s hs) (safe_take h2 k) (fun hlt => ?_) o h
      rw [hst, (same0 _).2.2.2.2] at hlt
      obtain ⟨_, _, j, hj, ej⟩ := G.ref (k + 1) (by omega)
      rw [show b + (k + 1) = b + 1 + k by omega] at ej
      rw [ej] at hlt
      exact h3 j hj hlt
    · exact B.fine h1 h2 h3 o h
  · intro h h' x pv mv d al mu hn hK V he er hek her
    obtain ⟨h1, x1, x2⟩ := exec_append_ok.1 he
    have hx1 := (exec_frame x1).1
    have K1 : Kept w0 w1 o1 h := by
      have := Kept.seg (oa := []) (o := o1) (ob := o2) (wa := w0) (wb := w1) hK (ha := h) rfl B.grow (le_of_eq hn0.symm) fun q p1 p2 p3 => ⟨by simp, fun hq => by
        rcases hd2 q hq with h | h <;> omega⟩
      exact this
    have K2 : Kept w1 w2 o2 h1 := by
      have := Kept.seg (oa := o1) (o := o2) (ob := []) (wa := w1) (wb := w2) (by simpa using hK) x1 (Grow.refl (fun _ => True) _ w2) n1 fun q p1 p2 p3 => ⟨fun hq => by
        rcases hd1 q hq with h | h
        · omega
        · have := G.dreg (by omega) h; omega, by simp⟩
      exact this
    have refk : h.val (w0.layers (b + 1 + k)).ref = w0.store.heap.val (w0.layers (b + 1 + k)).ref := by
      have := V.refs (k + 1) (by omega)
      simp only [show b + (k + 1) = b + 1 + k by omega] at this
      rw [(same0 _).2.2.2.2, hst]; exact this
    have fnk : netFn (ls.take (k + 1)) (pv.take (k + 1)) x = s.fn (pv.getD k []) (netFn (ls.take k) (pv.take k) x) := by
      have hpk : pv[k]? = some (pv[k]'(by rw [V.len]; exact hk)) := List.getElem?_eq_getElem _
      rw [take_snoc hs, take_snoc hpk, netFn_append (by rw [List.length_take, List.length_take, V.len])]
      rw [List.getD_eq_getElem?_getD, hpk]; rfl
    have V1 : BPVals s (L k) (L (k + 1)) alpha momentum (w0.layers (b + 1 + k)).ref (DerEnv shape (ls.take k) L a0) mb h (pv.getD k []) (mv.getD k [])
        (netFn (ls.take k) (pv.take k) x) d (netDer (ls.take k) (pv.take k) x (x.map a0.derive)) al mu (w0.store.heap.val (w0.layers (b + 1 + k)).ref) := by
      refine ⟨V.out k (by omega), by rw [← fnk]; exact V.out (k + 1) (by omega), V.par k s hs, V.mx k s hs, ⟨V.rates.1, V.rates.2, refk⟩, V.dif,
        fun hne => V.zero k (by omega) ⟨k, by omega, by omega, by rw [hs]; simpa using hne⟩, ?_, V.env a0 (by omega)⟩
      have := V.mom k (by omega)
      rw [en] at this; exact this
    obtain ⟨y1, y2, y3⟩ := A.run h h1 _ _ _ _ _ _ _ (by omega) K1 V1 x1
    -- the errors
    have hback : s.back (pv.getD k []) d (shared (w0.store.heap.val (w0.layers (b + 1 + k)).ref) d) (netFn (ls.take k) (pv.take k) x)
        (netDer (ls.take k) (pv.take k) x (x.map a0.derive)) = er k := by
      rw [her k s (by omega) hs, hek]
      by_cases hfl : s = .flatten
      · subst hfl; rfl
      · have := G.count (k + 1) (by omega) (Or.inr (by simp only [Nat.add_sub_cancel]; rw [hs]; simpa using hfl))
        rw [show b + (k + 1) = b + 1 + k by omega] at this
        rw [hst, (same0 _).2.2.2.2, this]
    rw [hback] at y1
    have V2 : GVals shape ls L (fun j => (w1.layers (b + j)).ref) (fun j => w1.store.heap.val (w1.layers (b + j)).ref) alpha momentum mbs k h1 x pv mv (er k) al mu := by
      have hrf : ∀ j, (w1.layers (b + j)).ref = (w.layers (b + j)).ref := fun j => by
        have := (Layer.fwd_eq (A.fwd (b + j))).2.2.2.2.2.2.2.2.1
        rw [this, (same0 _).2.2.2.2]
      have V' : GVals shape ls L (fun j => (w.layers (b + j)).ref) (fun j => w.store.heap.val (w.layers (b + j)).ref) alpha momentum
          mbs k h1 x pv mv (er k) al mu := by
        have V0 : GVals shape ls L (fun j => (w.layers (b + j)).ref) (fun j => w.store.heap.val (w.layers (b + j)).ref) alpha momentum
            (fun j => if j < k then mbs j else Function.update mbs k mb j) (k + 1) h x pv mv d al mu :=
          ⟨V.safe, V.len, V.out, V.neta, V.mx, V.par, V.rates, V.refs, fun j hj => by
            have := V.mom j hj
            split
            · rename_i hjk; rwa [e _ _ hjk] at this
            · exact this, V.dif, V.zero⟩
        have := GVals.next (w1 := w1) G n1 S ha hm hk (fun j hj m hmm q hq => by
          rw [if_pos hj] at hmm; exact ((B.mom j hj m hmm).2 q hq).1) (fun j hj => (G.ref j hj).2.1) V0 hd1 x1 y1
        exact ⟨this.safe, this.len, this.out, this.neta, this.mx, this.par, this.rates, this.refs, fun j hj => by
          have := this.mom j hj; rwa [if_pos hj] at this, this.dif, this.zero⟩
      refine ⟨V'.safe, V'.len, V'.out, V'.neta, V'.mx, V'.par, V'.rates, fun j hj => ?_, V'.mom, V'.dif, V'.zero⟩
      have := V'.refs j hj
      rw [hrf, G1.val _ (lt_of_lt_of_le (G.ref j hj).2.1 G.le) fun h => h]; exact this
    have R := B.run h1 h' x pv mv (er k) al mu (by omega) K2 V2 x2 er rfl (fun j s' hj => her j s' (by omega))
    have hkeep : ∀ q, w.store.heap.next ≤ q → q < w1.store.heap.next → h'.val q = h1.val q := fun q p1 p2 => (exec_frame x2).2 q fun hq => by
      rcases hd2 q hq with h | h <;> omega
    have hnx := (exec_frame x2).1
    intro j s' hj hs'
    rcases Nat.lt_or_ge j k with hjk | hjk
    · rw [e _ _ hjk, e _ _ hjk]; exact R j s' hjk hs'
    · have : j = k := by omega
      subst this
      rw [hs] at hs'; cases hs'
      rw [en, en, hek]
      refine ⟨fun hw => ?_, forall₂_kept1 y3 (by omega) fun m hmm q hq => ?_⟩
      · have hfl : s ≠ .flatten := by rintro rfl; simp [LSpec.weighted] at hw
        have := G.count (j + 1) (by omega) (Or.inr (by simp only [Nat.add_sub_cancel]; rw [hs]; simpa using hfl))
        rw [show b + (j + 1) = b + 1 + j by omega] at this
        have z := y2 hw
        rw [hst, (same0 _).2.2.2.2, this] at z
        exact forall₂_kept1 z (by omega) fun m hmm q hq => by
          have := A.nreg m hmm q hq
          exact hkeep q (by omega) this.2
      · have := A.mom m hmm
        exact hkeep q (by have := (this.2 q hq).1; omega) (this.1.valid q hq).2

/-- building the back-propagation of the first `k` layers -/
theorem gbp_chain {shape : List Nat} {ls : List (LSpec T)} {b : Nat} {L : Nat → GLayer} {a0 : Activation T} {lo : Nat}
    (S : GSep ls L lo) (hbf : ∀ s ∈ ls, s.bpFits) (hz : ∀ j ≤ ls.length, eq (uses (ls.drop j)) zero = false) {alpha momentum : Ptr}
    (ha : 0 < alpha ∧ ∀ j ≤ ls.length, alpha ∉ (L j).dM.ops) (hm : 0 < momentum ∧ ∀ j ≤ ls.length, momentum ∉ (L j).dM.ops) :
    ∀ (k : Nat) (fuel : Nat) (w : World T), k ≤ ls.length → GAt shape ls b L a0 lo w → k < fuel →
      alpha < w.store.heap.next → momentum < w.store.heap.next →
      (∀ j ≤ k, (w.layers (b + j)).bp = false) → (∀ j < root ls k, (w.layers (b + j)).der = none) →
      wp True (LayerM.backProp alpha momentum fuel (b + k)) (fun _ w' => ∃ ops nps mbs, GBDone shape ls b L a0 alpha momentum k ops nps mbs w w') w := by
  intro k
  induction k with
  | zero =>
    intro fuel w hk G hf hal hml hbp hder
    obtain ⟨f, rfl⟩ : ∃ f, fuel = f + 1 := ⟨fuel - 1, by omega⟩
    obtain ⟨r1, r2, j, hj, ej⟩ := G.ref 0 (Nat.zero_le _)
    refine wp_of_ok (backProp_input (hbp 0 (le_refl _)) G.kind0.1 G.kind0.2.1 r1 (by rw [ej]; exact hz j hj)) ?_
    have hs : ∀ l, (updL (b + 0) (fun x => { x with bp := true }) w).layers l = { w.layers l with bp := ((updL (b + 0) (fun x => { x with bp := true }) w).layers l).bp } := fun l => by
      by_cases h : l = b + 0
      · rw [h, updL_same]
      · rw [updL_ne _ _ h]
    refine ⟨[], fun _ => [], fun _ => [], grow_updL ⟨by omega, by omega⟩ _ w, fun l => by rw [hs l]; rfl, fun l => by rw [hs l],
      fun l _ => by rw [hs l]; exact ⟨rfl, rfl⟩, ?_, ?_, ?_, ?_, ?_, ?_, ?_, ?_⟩
    · intro j _ hj; omega
    · intro j _ hj; omega
    · intro j hj; omega
    · intro j hj; omega
    · intro j _ hj; omega
    · intro q hq; cases hq
    · intro _ _ _ o ho; cases ho
    · intro _ _ _ _ _ _ _ _ _ _ _ _ _ _ _ j s hj; omega
  | succ k ih =>
    intro fuel w hk G hf hal hml hbp hder
    obtain ⟨f, rfl⟩ : ∃ f, fuel = f + 1 := ⟨fuel - 1, by omega⟩
    have hlk : b + (k + 1) = b + 1 + k := by omega
    rw [hlk]
    obtain ⟨r1, r2, j, hj, ej⟩ := G.ref (k + 1) hk
    rw [hlk] at r1 r2 ej
    have hs : ls[k]? = some (ls[k]'(by omega)) := List.getElem?_eq_getElem _
    obtain ⟨s, es⟩ : ∃ s, s = ls[k]'(by omega) := ⟨_, rfl⟩
    rw [← es] at hs
    obtain ⟨a1, a2, _⟩ := G.lay k s hs
    have hun := backProp_step (alpha := alpha) (momentum := momentum) (f := f) (l := b + 1 + k) (w := w) (s := s)
      (by have := hbp (k + 1) (le_refl _); rwa [hlk] at this) a1 a2 r1 (by rw [ej]; exact hz j hj)
    obtain ⟨w0, hw0⟩ : ∃ v, v = updL (b + 1 + k) (fun x => { x with bp := true }) w := ⟨_, rfl⟩
    rw [← hw0] at hun
    have hst : w0.store = w.store := by rw [hw0]; rfl
    have l0' : ∀ l, l ≠ b + 1 + k → w0.layers l = w.layers l := fun l h => by rw [hw0, updL_ne _ _ h]
    have fw0 : ∀ l, (w0.layers l).fwd = (w.layers l).fwd := fun l => by
      by_cases h : l = b + 1 + k
      · subst h; rw [hw0, updL_same]; rfl
      · rw [l0' l h]
    have g0 : Grow (· = b + 1 + k) (fun _ => False) [] w w0 := by rw [hw0]; exact grow_updL (L := (· = b + 1 + k)) rfl _ w
    have G0 : GAt shape ls b L a0 lo w0 := G.later g0.ext (fun _ _ => fw0 _) (fun _ _ => by rw [hst])
    suffices h : wp True (do
        bpOwn alpha momentum f (b + 1 + k) s.kind
        LayerM.backProp alpha momentum f (b + k) : Run T Unit)
        (fun _ w' => ∃ ops nps mbs, GBDone shape ls b L a0 alpha momentum (k + 1) ops nps mbs w w') w0 by
      unfold wp at h ⊢; rw [hun]; exact h
    have hroot : s.weighted = true → root ls (k + 1) = k + 1 := fun hw => by
      show (if _ then _ else _) = _
      rw [if_pos (by rw [hs]; simp [hw])]
    have hroot' : s.weighted = false → root ls (k + 1) = root ls k := fun hw => by
      show (if _ then _ else _) = _
      rw [if_neg (by rw [hs]; simp [hw])]
    have hP := G0.bpPre S hbf (alpha := alpha) (momentum := momentum) ⟨ha.1, by rw [hst]; exact hal, ha.2⟩ ⟨hm.1, by rw [hst]; exact hml, hm.2⟩ hs
      (fuel := f) (by omega) (fun hw j hj => by rw [l0' _ (by omega)]; exact hder j (by rw [hroot hw]; omega))
    refine wp_bind (wp_mono (bpGood s w0 f _ _ _ _ _ _ _ _ _ hP) ?_)
    rintro _ w1 ⟨o1, np, mb, A⟩
    have hrk := root_le ls k
    have n1 := A.grow.next
    rw [hst] at n1
    have G1 : GAt shape ls b L a0 lo w1 := G0.later A.grow.ext (fun _ _ => A.fwd _) (fun j hj =>
      A.grow.val _ (lt_of_lt_of_le (G0.ref j hj).2.1 G0.le) fun h => h)
    refine wp_mono (ih f w1 (by omega) G1 (by omega) (by omega) (by omega) (fun j hj => ?_) (fun j hj => ?_)) ?_
    · rw [(A.flags _).2, l0' _ (by omega)]; exact hbp j (by omega)
    · cases hw : s.weighted
      · rw [A.der _ (Or.inl hw), l0' _ (by omega)]
        exact hder j (by rw [hroot' hw]; exact hj)
      · rw [A.grow.layers _ (by omega), l0' _ (by omega)]
        exact hder j (by rw [hroot hw]; omega)
    · rintro _ w2 ⟨o2, nps, mbs, B⟩
      exact ⟨_, _, _, GBDone.cons G S ⟨ha.1, hal, ha.2⟩ ⟨hm.1, hml, hm.2⟩ hs hw0 A B⟩

end Godeep
