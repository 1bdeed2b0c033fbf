import Verif.Lemmas.Stage
/-
  Building the feed-forward part of a dense layer.
-/
set_option linter.unusedSectionVars false

namespace Godeep
open Spec GoNum

variable {T : Type} [GoNum T]

theorem size_one (n : Nat) : size [n] = n := by simp [size]

/-- `NewZeros`, remembering that the tensor is a plain one -/
theorem wp_zerosLeaf {tot : Prop} {shape : List Nat} {L : Nat → Prop} {C : Ptr → Prop} {w : World T}
    {Q : Nat → World T → Prop} (hpos : 0 < w.store.heap.next)
    (h : ∀ w' m, Grow L C [] w w' → w'.layers = w.layers → w'.nodeNext = w.nodeNext + 1 → Ready w' w.nodeNext m →
      m.shape = shape → m.ops.Nodup → (∀ p ∈ m.ops, w.store.heap.next ≤ p) →
      (w'.store.nodes w.nodeNext).kind = .leaf → Q w.nodeNext w') :
    wp tot (Run.zeros shape) Q w := by
  obtain ⟨h', m, h1, h2, h3⟩ := newZeros_new shape hpos
  exact wp_leaf h1 h3 fun w' g _ hl hn hk hr => h w' m g hl hn hr h2 h3.nodup h3.fresh (by rw [hk])

theorem denseFF_ok {w : World T} {l inp out n : Nat} {inM outM : Mat} {act : Activation T} {R : Ptr → Prop}
    (hpos : 0 < w.store.heap.next) (hact : (w.layers l).act = act)
    (hin : (w.layers l).input = some inp) (rin : Ready w inp inM) (hout : (w.layers l).output = some out)
    (rout : Ready w out outM) (so : outM.shape = [n]) (ndo : outM.ops.Nodup)
    (hdis : ∀ q ∈ outM.ops, q ∉ inM.ops) :
    wp True (LayerM.denseFF l) (fun _ w' => ∃ netaM wM bM dif neta wn bn, ∃ h0 : Heap T, ∃ p,
      DenseMats h0 (size inM.shape) n inM wM bM netaM outM ∧ h0.next ≤ p ∧ 0 < p ∧
      w'.store.heap.next = p + n * size inM.shape ∧ w.store.heap.next ≤ p ∧
      (∀ q ∈ wM.ops ++ bM.ops ++ netaM.ops, w.store.heap.next ≤ q ∧ q < p) ∧
      Ready w' wn wM ∧ Ready w' bn bM ∧ Ready w' neta netaM ∧ wM.ops.Nodup ∧ bM.ops.Nodup ∧
      (∀ q ∈ wM.ops, q ∉ bM.ops) ∧
      (∃ difM, Ready w' dif difM ∧ difM.shape = [n] ∧ difM.ops.Nodup ∧ (w'.store.nodes dif).kind = .leaf ∧ ∀ q ∈ difM.ops,
        w.store.heap.next ≤ q ∧ q < p ∧ q ∉ wM.ops ∧ q ∉ bM.ops ∧ q ∉ netaM.ops) ∧
      w'.layers l = { w.layers l with neta := some neta, dif := some dif, bias := some bn, weights := some wn } ∧
      Grow (· = l) R (denseOps act.activate inM wM bM netaM outM (size inM.shape) n p) w w') w := by
  unfold LayerM.denseFF
  refine wp_bind (wp_layer ?_)
  simp only [hin]
  refine wp_bind (wp_mat ?_)
  refine wp_bind (wp_deref hout ?_)
  refine wp_bind (wp_mat ?_)
  have e1 : (w.store.nodes inp).mat.getSize = size inM.shape := by
    rw [rin.mat]; simp [Mat.getSize, rin.good.len]
  have e2 : (w.store.nodes out).mat.getSize = n := by
    rw [rout.mat]; simp [Mat.getSize, rout.good.len, so, size_one]
  rw [e1, e2]
  refine wp_bind (wp_zeros (L := (· = l)) (C := R) hpos fun w1 netaM g1 l1 x1 r1 s1 nd1 f1 => ?_)
  have q1 : 0 < w1.store.heap.next := lt_of_lt_of_le hpos g1.next
  refine wp_bind (wp_modify ?_)
  have m1 := grow_modify (L := (· = l)) (C := R) rfl (fun x => { x with neta := some w.nodeNext }) w1
  refine wp_bind (wp_zerosLeaf (L := (· = l)) (C := R) q1 fun w2 difM g2 l2 x2 r2 s2 nd2 f2 k2 => ?_)
  have q2 : 0 < w2.store.heap.next := lt_of_lt_of_le q1 g2.next
  refine wp_bind (wp_modify ?_)
  have m2 := grow_modify (L := (· = l)) (C := R) rfl (fun x => { x with dif := some w1.nodeNext }) w2
  refine wp_bind (wp_normRand (L := (· = l)) (C := R) q2 fun w3 bM g3 l3 x3 r3 s3 nd3 f3 => ?_)
  have q3 : 0 < w3.store.heap.next := lt_of_lt_of_le q2 g3.next
  refine wp_bind (wp_modify ?_)
  have m3 := grow_modify (L := (· = l)) (C := R) rfl (fun x => { x with bias := some w2.nodeNext }) w3
  refine wp_bind (wp_normRand (L := (· = l)) (C := R) q3 fun w4 wM g4 l4 x4 r4 s4 nd4 f4 => ?_)
  have q4 : 0 < w4.store.heap.next := lt_of_lt_of_le q3 g4.next
  refine wp_bind (wp_modify ?_)
  have m4 := grow_modify (L := (· = l)) (C := R) rfl (fun x => { x with weights := some w3.nodeNext }) w4
  set w5 : World T := { w4 with layers := fun k => if k = l then { w4.layers k with weights := some w3.nodeNext } else w4.layers k } with hw5
  have G12 := g1.trans (m1.trans (g2.trans (m2.trans (g3.trans (m3.trans (g4.trans m4))))))
  simp only [List.append_nil] at G12
  have Gn := m1.trans (g2.trans (m2.trans (g3.trans (m3.trans (g4.trans m4)))))
  have Gd := m2.trans (g3.trans (m3.trans (g4.trans m4)))
  have Gb := m3.trans (g4.trans m4)
  have rn5 : Ready w5 w.nodeNext netaM := r1.grow Gn
  have rd5 : Ready w5 w1.nodeNext difM := r2.grow Gd
  have rb5 : Ready w5 w2.nodeNext bM := r3.grow Gb
  have rw5 : Ready w5 w3.nodeNext wM := r4.grow m4
  have ri5 : Ready w5 inp inM := rin.grow G12
  have ro5 : Ready w5 out outM := rout.grow G12
  have b1 : w.store.heap.next ≤ w1.store.heap.next := g1.next
  have b2 : w1.store.heap.next ≤ w2.store.heap.next := g2.next
  have b3 : w2.store.heap.next ≤ w3.store.heap.next := g3.next
  have b4 : w3.store.heap.next ≤ w4.store.heap.next := g4.next
  have hb3 : ∀ q ∈ bM.ops, w2.store.heap.next ≤ q ∧ q < w3.store.heap.next := fun q hq => ⟨f3 q hq, (r3.good.valid q hq).2⟩
  have hd2 : ∀ q ∈ difM.ops, w1.store.heap.next ≤ q ∧ q < w2.store.heap.next := fun q hq => ⟨f2 q hq, (r2.good.valid q hq).2⟩
  have hn1 : ∀ q ∈ netaM.ops, w.store.heap.next ≤ q ∧ q < w1.store.heap.next := fun q hq => ⟨f1 q hq, (r1.good.valid q hq).2⟩
  have hw4 : ∀ q ∈ wM.ops, w3.store.heap.next ≤ q ∧ q < w4.store.heap.next := fun q hq => ⟨f4 q hq, (r4.good.valid q hq).2⟩
  have hi0 : ∀ q ∈ inM.ops, q < w.store.heap.next := fun q hq => (rin.good.valid q hq).2
  have ho0 : ∀ q ∈ outM.ops, q < w.store.heap.next := fun q hq => (rout.good.valid q hq).2
  have D : DenseMats w4.store.heap (size inM.shape) n inM wM bM netaM outM := by
    refine ⟨ri5.good, rw5.good, rb5.good, rn5.good, ro5.good, rfl, s4, s3, s1, so, nd1, ndo, fun q hq => ?_, fun q hq => ?_⟩
    · have := hn1 q hq
      refine ⟨fun h => ?_, fun h => ?_, fun h => ?_, fun h => ?_⟩
      · have := hi0 q h; omega
      · have := hw4 q h; omega
      · have := hb3 q h; omega
      · have := ho0 q h; omega
    · have := ho0 q hq
      refine ⟨hdis q hq, fun h => ?_, fun h => ?_⟩
      · have := hw4 q h; omega
      · have := hb3 q h; omega
  have hem := denseLoop_emits (N := w5.store.nodes) (x := w.layers l) D rw5.mat rb5.mat rn5.mat ro5.mat ri5.mat w5 rfl
  refine wp_of_ok hem ?_
  have ge := grow_emitted (L := (· = l)) (C := R) (n * size inM.shape)
    (denseOps (w.layers l).act.activate inM wM bM netaM outM (size inM.shape) n w5.store.heap.next) w5
  refine ⟨netaM, wM, bM, w1.nodeNext, w.nodeNext, w3.nodeNext, w2.nodeNext, w4.store.heap, w4.store.heap.next, D,
    le_refl _, q4, rfl, by omega, ?_, rw5.grow ge, rb5.grow ge, rn5.grow ge, nd4, nd3, ?_, ?_, ?_, ?_⟩
  · intro q hq
    simp only [List.mem_append] at hq
    rcases hq with (hq | hq) | hq
    · have := hw4 q hq; omega
    · have := hb3 q hq; omega
    · have := hn1 q hq; omega
  · intro q h1 h2
    have := hw4 q h1; have := hb3 q h2; omega
  · refine ⟨difM, rd5.grow ge, s2, nd2, by rw [(Gd.trans ge).kind _ r2.lt, k2], fun q hq => ?_⟩
    have := hd2 q hq
    refine ⟨by omega, by omega, fun h => ?_, fun h => ?_, fun h => ?_⟩
    · have := hw4 q h; omega
    · have := hb3 q h; omega
    · have := hn1 q h; omega
  · simp [hw5, l4, l3, l2, l1, hin]
  · rw [← hact]
    have := G12.trans ge
    simpa using this

/-- the same, as a stage -/
theorem denseFF_done {w : World T} {l inp out n p : Nat} {inM outM : Mat} {act : Activation T} {R : Ptr → Prop}
    (hpos : 0 < w.store.heap.next) (hact : (w.layers l).act = act)
    (hin : (w.layers l).input = some inp) (rin : Ready w inp inM) (hout : (w.layers l).output = some out)
    (rout : Ready w out outM) (so : outM.shape = [n]) (ndo : outM.ops.Nodup)
    (hdis : ∀ q ∈ outM.ops, q ∉ inM.ops) (hrp : (w.layers p).ref < w.store.heap.next) :
    wp True (LayerM.denseFF l) (fun _ w' => ∃ ops K,
      FFDone (.dense n act) l (· ∈ outM.ops) R inM ops out outM K w w' ∧ FFMore (.dense n act) l p inM ops outM K w w') w := by
  refine wp_mono (denseFF_ok (R := fun _ => False) hpos hact hin rin hout rout so ndo hdis) ?_
  rintro _ w' ⟨netaM, wM, bM, dif, neta, wn, bn, h0, p, D, hp, pos, hnx, hwp, hnew, rw', rb', rn', ndw, ndb, hwb, hdif, hl, G0⟩
  obtain ⟨difM, rd', sd, ndd, kd, fd⟩ := hdif
  have G := G0.weaken (L' := (· = l)) (C' := R) (fun _ h => h) fun _ h => h.elim
  have hwn : ∀ q ∈ wM.ops, w.store.heap.next ≤ q ∧ q < p := fun q hq => hnew q (by simp [hq])
  have hbn : ∀ q ∈ bM.ops, w.store.heap.next ≤ q ∧ q < p := fun q hq => hnew q (by simp [hq])
  have hnn : ∀ q ∈ netaM.ops, w.store.heap.next ≤ q ∧ q < p := fun q hq => hnew q (by simp [hq])
  have hpar : layerParams w' l = [wM, bM] := by
    unfold layerParams; rw [hl]; simp only [rw'.mat, rb'.mat]
  have hdst : ∀ q, q ∈ wM.ops ∨ q ∈ bM.ops → q ∉ dsts (denseOps act.activate inM wM bM netaM outM (size inM.shape) n p) := by
    intro q hq hd
    have hq' : q < p := by
      rcases hq with hq | hq
      · exact (hwn q hq).2
      · exact (hbn q hq).2
    rcases dense_dsts D hd with h | h | h
    · omega
    · rcases hq with hq | hq
      · exact (D.nin q h).2.1 hq
      · exact (D.nin q h).2.2.1 hq
    · rcases hq with hq | hq
      · exact (D.out q h).2.1 hq
      · exact (D.out q h).2.2 hq
  refine ⟨_, fun _ _ => False, ⟨G, by rw [hl], by rw [hl], by rw [hl], by rw [hl], ⟨by rw [hl], by rw [hl], by rw [hl], by rw [hl], by rw [hl]⟩,
    Or.inl (by rw [hl]), by rw [hl]; exact hout, rout.grow G, so, ?_, ⟨?_, ?_, ?_, ?_, fun _ _ h => h.elim, ?_, ?_⟩, fun _ _ h => h.elim, ?_, ?_, ?_⟩,
    by rw [hl], by rw [hl], by rw [hl], by simp, fun _ => ⟨dif, difM, by rw [hl], rd', kd, by rw [sd, so], ndd, ?_⟩, fun _ => ⟨neta, netaM, by rw [hl], rn', by rw [D.sn, so], ?_, ?_⟩,
    fun _ => ⟨by rw [hl], G0.val _ hrp id⟩, by simp, by simp⟩
  · rw [hpar]; simp [LSpec.paramShapes, D.sw, D.sb]
  · intro q hq
    rcases dense_dsts D hq with h | h | h
    · left; omega
    · left; have := hnn q h; omega
    · exact Or.inr h
  · exact fun q hq => Or.inr (Or.inr hq)
  · rw [hpar]
    intro ps hps m hm q hq
    simp only [List.mem_singleton] at hps
    subst hps
    simp only [List.mem_cons, List.not_mem_nil, or_false] at hm
    rcases hm with rfl | rfl
    · have := hwn q hq; exact ⟨by omega, by omega, hdst q (Or.inl hq)⟩
    · have := hbn q hq; exact ⟨by omega, by omega, hdst q (Or.inr hq)⟩
  · rw [hpar]
    intro ps hps m hm q hq ho
    have ho' := (rout.good.valid q ho).2
    simp only [List.mem_singleton] at hps
    subst hps
    simp only [List.mem_cons, List.not_mem_nil, or_false] at hm
    rcases hm with rfl | rfl
    · have := hwn q hq; omega
    · have := hbn q hq; omega
  · rw [hpar]
    intro h h' x pv hn _ H hps he
    cases hps with
    | cons h1 h2 =>
      cases h2
      cases h1 with
      | cons a1 a2 =>
        cases a2 with
        | cons b1 b2 =>
          cases b2
          exact dense_holds D hp (by omega) H a1 b1 he
  · intro _ o ho
    exact dense_fine D hp pos o ho
  · intro k hk
    rw [hl] at hk
    rcases hk with hk | hk
    · injection hk with hk; subst hk; exact ⟨wM, rw', ndw⟩
    · injection hk with hk; subst hk; exact ⟨bM, rb', ndb⟩
  · rw [hl]; simp
  · rw [hpar]
    simp only [List.flatMap_cons, List.flatMap_nil, List.append_nil]
    exact List.nodup_append.2 ⟨ndw, ndb, fun a ha b hb e => hwb a ha (e ▸ hb)⟩
  · intro q hq
    obtain ⟨d1, d2, d3, d4, d5⟩ := fd q hq
    have hqo : q ∉ outM.ops := fun h => by have := (rout.good.valid q h).2; omega
    refine ⟨d1, fun h => ?_, hqo, fun _ h => h, ?_⟩
    · rcases dense_dsts D h with h | h | h
      · omega
      · exact d5 h
      · exact hqo h
    · rw [hpar]
      intro m hm
      simp only [List.mem_cons, List.not_mem_nil, or_false] at hm
      rcases hm with rfl | rfl
      · exact d3
      · exact d4
  · intro q hq
    refine ⟨(hnn q hq).1, fun d dM hd rd hm => ?_⟩
    rw [hl] at hd
    injection hd with hd; subst hd
    rw [← rd.mat, rd'.mat] at hm
    exact (fd q hm).2.2.2.2 hq
  · rw [hpar]
    intro h h' x pv hn _ H hps he
    cases hps with
    | cons a1 a2 =>
      cases a2 with
      | cons b1 b2 =>
        cases b2
        exact dense_neta D hp (by omega) H a1 b1 he

end Godeep
