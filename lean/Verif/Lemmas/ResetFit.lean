import Verif.Lemmas.BPChain
/-
  `ResetFit` of a network of dense layers.
-/
set_option linter.unusedSectionVars false

namespace Godeep
open Spec GoNum

variable {T : Type} [GoNum T]

/-- building the operations that set the errors of the layers up to `k` to zero -/
structure RFDone (L : Nat → DLayer) (k : Nat) (rf : List (Op T)) (w w' : World T) : Prop where
  lay : Lay (fun _ => False) rf w w'
  ssa : SSA1 rf
  dst : ∀ q ∈ dsts rf, ∃ j ≤ k, q ∈ (L j).dM.ops
  reads : ∀ o ∈ rf, ∀ q ∈ o.reads, w.store.heap.next ≤ q ∧ q < w'.store.heap.next
  set : ∀ j ≤ k, ∀ q ∈ (L j).dM.ops, ∃ z, w.store.heap.next ≤ z ∧ z < w'.store.heap.next ∧ Op.asg q (.set z) ∈ rf
  fine : ∀ o ∈ rf, Fine o

theorem dsts_map_set {l : List Ptr} {z q : Ptr} (h : q ∈ dsts (l.map fun p => (Op.asg p (.set z) : Op T))) : q ∈ l := by
  rw [mem_dsts] at h
  obtain ⟨r, hr⟩ := h
  obtain ⟨p, hp, e⟩ := List.mem_map.1 hr
  cases e
  exact hp

theorem ssa1_set {l : List Ptr} (hn : l.Nodup) {z : Ptr} (hz : z ∉ l) : SSA1 (l.map fun p => (Op.asg p (.set z) : Op T)) := by
  refine List.pairwise_map.2 ((List.nodup_iff_pairwise_ne.1 hn).imp_of_mem fun {a b} ha hb hab => ?_)
  intro q hq
  cases hq
  refine ⟨fun h => ?_, fun h => ?_⟩
  · cases h; exact hab rfl
  · simp only [Op.reads, Rhs.reads, List.mem_singleton] at h
    subst h; exact hz hb

/-- `Fill` of a tensor that is ready -/
theorem wp_fill {tot : Prop} {w : World T} {t : Nat} {m : Mat} {z : Ptr} {Q : Unit → World T → Prop} (r : Ready w t m)
    (h : ∀ w' nops, AllNop nops → Lay (fun _ => False) (nops ++ m.ops.map fun p => .asg p (.set z)) w w' →
      w'.store.heap.next = w.store.heap.next → Q () w') : wp tot (Run.fill t z) Q w := by
  unfold Run.fill
  refine wp_bind' (wp_lazy (L := fun _ => False) (C := fun _ => False) fun wa ga la ha na xa oa => ?_)
  have ga' : Lay (fun _ => False) [] w wa := ⟨ga, fun q h1 h2 => by rw [ha] at h2; omega⟩
  refine wp_build1 (L := fun _ => False) (k := .fill t z) (t := t) (m := m) (a := 0) (o := m.ops.map fun p => .asg p (.set z)) (M := m) xa rfl
    (r.grow ga) r.lt (by omega) ?_ ?_
  · intro get hget ctx
    simp only [Fin.run, hget, Fin.fill, allocZ_zero]
  · intro w' nops hn hl _ _ hnx _
    refine h w' nops hn (by simpa using ga'.trans hl) ?_
    rw [hnx, ha]; rfl

theorem resetFit_chain {ds : List (Nat × Activation T)} {b : Nat} {L : Nat → DLayer} {acts : Nat → Activation T} {m0 : Mat} {lo hi : Nat}
    (S : DSet ds m0 lo hi L) :
    ∀ (k : Nat) (fuel : Nat) (w : World T), k ≤ ds.length → DAt ds b L acts w → hi ≤ w.store.heap.next → 0 < w.store.heap.next → k < fuel →
      wp True (LayerM.resetFit fuel (b + k)) (fun _ w' => ∃ rf, RFDone L k rf w w') w := by
  have last : ∀ (k : Nat) (w : World T), k ≤ ds.length → DAt ds b L acts w → hi ≤ w.store.heap.next → 0 < w.store.heap.next →
      wp True (do
        let z ← Run.scalar (zero : T)
        let d ← Run.deref (w.layers (b + k)).dif
        Run.fill d z : Run T Unit) (fun _ w' => ∃ z nops, AllNop nops ∧
          Lay (fun _ => False) (nops ++ (L k).dM.ops.map fun p => .asg p (.set z)) w w' ∧
          w.store.heap.next ≤ z ∧ z < w'.store.heap.next) w := by
    intro k w hk D hh hpos
    have hd : (w.layers (b + k)).dif = some (L k).dif := by
      rcases Nat.eq_zero_or_pos k with h | h
      · subst h; exact D.dif0
      · obtain ⟨j, rfl⟩ : ∃ j, k = j + 1 := ⟨k - 1, by omega⟩
        rw [show b + (j + 1) = b + 1 + j by omega]
        exact (D.lay j (by omega)).2.2.2.2.2.1
    refine wp_bind (wp_scalar' (L := fun _ => False) fun w1 y1 n1 l1 o1 x1 => ?_)
    refine wp_bind (wp_deref hd ?_)
    refine wp_fill ((D.ready.dif k hk).1.grow y1.grow) fun w2 nops hn y2 n2 => ?_
    exact ⟨_, nops, hn, by simpa using y1.trans y2, le_refl _, by rw [n2, n1]; omega⟩
  intro k
  induction k with
  | zero =>
    intro fuel w hk D hh hpos hf
    obtain ⟨f, rfl⟩ : ∃ f, fuel = f + 1 := ⟨fuel - 1, by omega⟩
    unfold LayerM.resetFit
    refine wp_bind (wp_layer ?_)
    rw [Nat.add_zero, D.kind0.2]
    refine wp_mono (last 0 w hk D hh hpos) ?_
    rintro _ w' ⟨z, nops, hn, y, z1, z2⟩
    have hdl : ∀ q ∈ (L 0).dM.ops, q < w.store.heap.next := fun q hq => by have := S.dlow (Nat.zero_le _) hq; omega
    have hzd : z ∉ (L 0).dM.ops := fun h => by have := hdl z h; omega
    refine ⟨_, y, ?_, ?_, ?_, ?_, ?_⟩
    · refine ssa1_append hn.ssa1 (ssa1_set (S.all 0 hk).ndd hzd) (fun q _ h => ?_) (fun q _ o ho hr => ?_)
      · rw [hn.dsts] at h; cases h
      · rw [hn.reads o ho] at hr; cases hr
    · intro q hq
      rw [dsts_append, hn.dsts, List.nil_append] at hq
      exact ⟨0, le_refl _, dsts_map_set hq⟩
    · intro o ho q hq
      rcases List.mem_append.1 ho with ho | ho
      · rw [hn.reads o ho] at hq; cases hq
      · obtain ⟨p, _, rfl⟩ := List.mem_map.1 ho
        simp only [Op.reads, Rhs.reads, List.mem_singleton] at hq
        subst hq; exact ⟨z1, z2⟩
    · intro j hj q hq
      have : j = 0 := by omega
      subst this
      exact ⟨z, z1, z2, List.mem_append_right _ (List.mem_map.2 ⟨q, hq, rfl⟩)⟩
    · intro o ho
      rcases List.mem_append.1 ho with ho | ho
      · exact hn.fine o ho
      · obtain ⟨p, hp, rfl⟩ := List.mem_map.1 ho
        refine ⟨((D.ready.dif 0 hk).1.good.valid p hp).1, ?_, trivial, trivial⟩
        intro q hq
        simp only [Rhs.reads, List.mem_singleton] at hq
        subst hq; omega
  | succ k ih =>
    intro fuel w hk D hh hpos hf
    obtain ⟨f, rfl⟩ : ∃ f, fuel = f + 1 := ⟨fuel - 1, by omega⟩
    unfold LayerM.resetFit
    refine wp_bind (wp_layer ?_)
    have hp : (w.layers (b + (k + 1))).pre = some (b + k) := by
      rw [show b + (k + 1) = b + 1 + k by omega]; exact (D.lay k (by omega)).2.1
    rw [hp]
    refine wp_bind (wp_mono (ih f w (by omega) D hh hpos (by omega)) ?_)
    rintro _ w1 ⟨rf1, R⟩
    have n1 := R.lay.grow.next
    have el : ∀ l, w1.layers l = w.layers l := fun l => R.lay.grow.layers l (fun h => h)
    have D1 : DAt ds b L acts w1 := D.later R.lay.grow.ext (fun j _ => by rw [el]) (fun j hj => R.lay.val (D.ref j hj).2.1)
    have H := last (k + 1) w1 hk D1 (by omega) (by omega)
    rw [el] at H
    refine wp_mono H ?_
    rintro _ w' ⟨z, nops, hn, y, z1, z2⟩
    have n2 := y.grow.next
    have hdl : ∀ q ∈ (L (k + 1)).dM.ops, q < w.store.heap.next := fun q hq => by have := S.dlow hk hq; omega
    have hzd : z ∉ (L (k + 1)).dM.ops := fun h => by have := hdl z h; omega
    refine ⟨_, R.lay.trans y, ?_, ?_, ?_, ?_, ?_⟩
    · refine ssa1_append R.ssa (ssa1_append hn.ssa1 (ssa1_set (S.all (k + 1) hk).ndd hzd) (fun q _ h => ?_) (fun q _ o ho hr => ?_))
        (fun q hq hq' => ?_) (fun q hq o ho hr => ?_)
      · rw [hn.dsts] at h; cases h
      · rw [hn.reads o ho] at hr; cases hr
      · rw [dsts_append, hn.dsts, List.nil_append] at hq
        obtain ⟨j, hj, hqj⟩ := R.dst q hq'
        exact (S.dsep (j := j) (by omega) hqj).1 (k + 1) hk (by omega) (dsts_map_set hq)
      · rw [dsts_append, hn.dsts, List.nil_append] at hq
        have := hdl q (dsts_map_set hq)
        have := R.reads o ho q hr
        omega
    · intro q hq
      rw [dsts_append, dsts_append, hn.dsts, List.nil_append, List.mem_append] at hq
      rcases hq with hq | hq
      · obtain ⟨j, hj, h⟩ := R.dst q hq
        exact ⟨j, by omega, h⟩
      · exact ⟨k + 1, le_refl _, dsts_map_set hq⟩
    · intro o ho q hq
      rcases List.mem_append.1 ho with ho | ho
      · have := R.reads o ho q hq; omega
      · rcases List.mem_append.1 ho with ho | ho
        · rw [hn.reads o ho] at hq; cases hq
        · obtain ⟨p, _, rfl⟩ := List.mem_map.1 ho
          simp only [Op.reads, Rhs.reads, List.mem_singleton] at hq
          subst hq; omega
    · intro j hj q hq
      rcases Nat.lt_or_ge k j with h | h
      · have : j = k + 1 := by omega
        subst this
        exact ⟨z, by omega, z2, List.mem_append_right _ (List.mem_append_right _ (List.mem_map.2 ⟨q, hq, rfl⟩))⟩
      · obtain ⟨z', h1, h2, h3⟩ := R.set j h q hq
        exact ⟨z', h1, by omega, List.mem_append_left _ h3⟩
    · intro o ho
      rcases List.mem_append.1 ho with ho | ho
      · exact R.fine o ho
      · rcases List.mem_append.1 ho with ho | ho
        · exact hn.fine o ho
        · obtain ⟨p, hp, rfl⟩ := List.mem_map.1 ho
          refine ⟨((D1.ready.dif (k + 1) hk).1.good.valid p hp).1, ?_, trivial, trivial⟩
          intro q hq
          simp only [Rhs.reads, List.mem_singleton] at hq
          subst hq; omega

/-- executing them -/
theorem RFDone.run {L : Nat → DLayer} {k : Nat} {rf : List (Op T)} {w w' : World T} (R : RFDone L k rf w w')
    (hd : ∀ j ≤ k, ∀ q ∈ (L j).dM.ops, q < w.store.heap.next) {h h' : Heap T}
    (hz : ∀ q, w.store.heap.next ≤ q → q < w'.store.heap.next → h.val q = zero) (he : exec rf h = .ok () h') :
    (∀ j ≤ k, ∀ q ∈ (L j).dM.ops, h'.val q = zero) ∧ ∀ q, (∀ j ≤ k, q ∉ (L j).dM.ops) → h'.val q = h.val q := by
  have hs := exec_ssa1 R.ssa he
  have hf := (exec_frame he).2
  have keep : ∀ q, (∀ j ≤ k, q ∉ (L j).dM.ops) → h'.val q = h.val q := fun q hq => hf q fun hm => by
    obtain ⟨j, hj, h⟩ := R.dst q hm
    exact hq j hj h
  refine ⟨fun j hj q hq => ?_, keep⟩
  obtain ⟨z, z1, z2, hm⟩ := R.set j hj q hq
  have hne : z ≠ q := fun e => by have := hd j hj q hq; omega
  rw [hs.setv hm hne.symm, keep z fun j' hj' h => by have := hd j' hj' z h; omega]
  exact hz z z1 z2

end Godeep
