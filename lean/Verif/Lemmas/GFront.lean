import Verif.Lemmas.GBP
import Verif.Lemmas.GLoop
/-
  Back-propagation through layers with weights: what they have in common.
-/
set_option linter.unusedSectionVars false

namespace Godeep
open Spec GoNum

variable {T : Type} [GoNum T]

/-- the weights and biases -/
theorem BPPre.params {s : LSpec T} {w : World T} {fuel b l p : Nat} {P X : GLayer} {alpha momentum : Ptr} {E : Heap T → STensor T → Prop}
    {dsafe : Prop} (H : BPPre s w fuel b l p P X alpha momentum E dsafe) {sw sb : List Nat} (hs : s.paramShapes P.oM.shape = [sw, sb]) :
    ∃ wn bn wM bM, (w.layers l).weights = some wn ∧ (w.layers l).bias = some bn ∧ X.ps = [wM, bM] ∧ Ready w wn wM ∧ Ready w bn bM ∧
      wM.shape = sw ∧ bM.shape = sb := by
  have h1 := H.spar
  rw [hs] at h1
  have h2 := H.step.par
  unfold layerParams at h2
  split at h2
  · next a c ha hc =>
    obtain ⟨m1, r1, _⟩ := H.step.pready a (Or.inl ha)
    obtain ⟨m2, r2, _⟩ := H.step.pready c (Or.inr hc)
    rw [r1.mat, r2.mat] at h2
    rw [← h2] at h1
    simp only [List.map_cons, List.map_nil, List.cons.injEq, and_true] at h1
    exact ⟨a, c, m1, m2, ha, hc, h2.symm, r1, r2, h1.1, h1.2⟩
  · rw [← h2] at h1; cases h1

/-- a new tensor that is stored in the layer -/
theorem wp_zmod {β : Type} {l : Nat} {shape : List Nat} {f : Nat → Layer T → Layer T} {k : Nat → Run T β} {Q : β → World T → Prop} {w : World T}
    (hpos : 0 < w.store.heap.next)
    (h : ∀ w' m, Lay (· = l) [] w w' → w'.layers l = f w.nodeNext (w.layers l) → (∀ j, j ≠ l → w'.layers j = w.layers j) →
      Ready w' w.nodeNext m → m.shape = shape → m.ops.Nodup → (∀ q ∈ m.ops, w.store.heap.next ≤ q ∧ q < w'.store.heap.next) →
      wp True (k w.nodeNext) Q w') :
    wp True (Run.zeros shape >>= fun n => Run.modify l (f n) >>= fun _ => k n) Q w := by
  refine wp_bind (wp_zeros' (L := (· = l)) hpos fun w1 m g1 l1 x1 r1 s1 nd1 f1 _ => ?_)
  refine wp_bind (wp_modify ?_)
  have m1 := lay_modify (L := (· = l)) rfl (f w.nodeNext) w1
  refine h _ m (by simpa using g1.trans m1) ?_ (fun j hj => ?_) (r1.grow m1.grow) s1 nd1 f1
  · simp [l1]
  · simp [l1, hj]

/-- the divided errors and the derivative of the layer before -/
structure Front (b p : Nat) (P X : GLayer) (ref : Ptr) (v : T) (E : Heap T → STensor T → Prop) (dsafe : Prop) (n : Nat) (rM : Mat) (d : Nat)
    (M : Mat) (ops : List (Op T)) (w w' : World T) : Prop where
  grow : Grow (fun j => b ≤ j ∧ j ≤ p) (fun _ => False) ops w w'
  layers : ∀ j, ∃ x, w'.layers j = { w.layers j with der := x }
  rr : Ready w' n rM
  rshape : rM.shape = X.dM.shape
  rcell : ∀ q ∈ rM.ops, (w.store.heap.next ≤ q ∧ q < w'.store.heap.next) ∨ q ∈ X.dM.ops
  rd : Ready w' d M
  dshape : M.shape = P.oM.shape
  dcell : ∀ q ∈ M.ops, w.store.heap.next ≤ q ∧ q < w'.store.heap.next
  dst : ∀ q ∈ dsts ops, w.store.heap.next ≤ q ∧ q < w'.store.heap.next
  fine : dsafe → (lt one v = true → ∀ x y : T, divPanics x y = false) → ∀ o ∈ ops, Fine o
  run : ∀ h h' e D, w'.store.heap.next ≤ h.next → Kept w w' ops h → h.val ref = v → Holds h X.dM e → E h D → exec ops h = .ok () h' →
    Holds h' rM (shared v e) ∧ Holds h' M D

theorem front_of {s : LSpec T} {w w1 w2 w3 : World T} {fuel b l p : Nat} {P X : GLayer} {alpha momentum : Ptr} {E : Heap T → STensor T → Prop}
    {dsafe : Prop} {ref : Ptr} {v : T} {n d : Nat} {rM : Mat} {o2 : List (Op T)} (H : BPPre s w fuel b l p P X alpha momentum E dsafe)
    (g1 : Lay (· = l) [] w w1) (S : Scaled ref v X.dM n rM o2 w1 w2) (D : DerPost b p P.oM E dsafe w2 d w3) :
    ∃ ops M, Front b p P X ref v E dsafe n rM d M ops w1 w3 := by
  obtain ⟨o3, M, g3, l3, rd, sd, cd, dst, fine, run⟩ := D
  have n1 := g1.grow.next
  have G2 := S.grow fun j => b ≤ j ∧ j ≤ p
  have n2 := G2.next
  have n3 := g3.next
  refine ⟨o2 ++ o3, M, G2.trans g3, fun j => by rw [← S.layers]; exact l3 j, S.ready.grow g3, S.shape, fun q hq => ?_, rd, sd, fun q hq => ?_, fun q hq => ?_,
    fun a c o ho => ?_, fun h h' e D hn hk hr He hE he => ?_⟩
  · rcases S.cells q hq with h | h
    · left; omega
    · exact Or.inr h
  · have := cd q hq
    have := (rd.good.valid q hq).2
    omega
  · rw [dsts_append, List.mem_append] at hq
    rcases hq with hq | hq
    · have := S.dst q hq; omega
    · have := dst q hq; omega
  · rcases List.mem_append.1 ho with ho | ho
    · exact S.fine c o ho
    · exact fine a o ho
  · obtain ⟨h1, he1, he2⟩ := exec_append_ok.1 he
    have f1 := exec_frame he1
    have f2 := exec_frame he2
    have k1 : Kept w1 w2 o2 h := Kept.seg (oa := []) hk rfl g3 le_rfl fun q a b _ => ⟨by simp, fun h => by have := dst q h; omega⟩
    have k2 : Kept w2 w3 o3 h1 := Kept.seg (ob := []) (by simpa using hk) he1 (Grow.refl (fun _ => False) _ w3) n2 fun q a b _ =>
      ⟨fun h => by have := S.dst q h; omega, by simp⟩
    have hr1 := S.run h h1 e (by omega) k1 hr He he1
    have hE1 := H.stab h h1 D hE (by rw [f1.1]) fun q hq _ => f1.2 q fun hd => by have := S.dst q hd; omega
    refine ⟨hr1.kept (by rw [f2.1]) fun q hq => f2.2 q fun hd => ?_, run h1 h' D (by omega) k2 hE1 he2⟩
    have := dst q hd
    rcases S.cells q hq with h | h
    · omega
    · have := (H.rdif.good.valid q h).2; omega

end Godeep
