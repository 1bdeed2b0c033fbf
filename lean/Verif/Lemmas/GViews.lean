import Verif.Lemmas.GBias
import Verif.Lemmas.GPool
/-
  Back-propagation through normalisation and sub-tensor layers.
-/
set_option linter.unusedSectionVars false

namespace Godeep
open Spec GoNum

variable {T : Type} [GoNum T]

/-! ### `Transfer` of a tensor that has not been built -/

theorem each_ok_mono {f g : Nat → Store T → Out (Store T) Unit} (h : ∀ c s s', f c s = .ok () s' → g c s = .ok () s') :
    ∀ (cs : List Nat) (s s' : Store T), Store.each f cs s = .ok () s' → Store.each g cs s = .ok () s' := by
  intro cs
  induction cs with
  | nil => intro s s' e; exact e
  | cons c cs ih =>
    intro s s' e
    simp only [Store.each] at e ⊢
    obtain ⟨_, s1, e1, e2⟩ := out_bind_ok e
    rw [h c s s1 e1]
    exact ih s1 s' e2

theorem build_fuel_le : ∀ (fuel fuel' n : Nat) (s s' : Store T), fuel ≤ fuel' → Store.build fuel n s = .ok () s' →
    Store.build fuel' n s = .ok () s' := by
  intro fuel
  induction fuel with
  | zero => intro fuel' n s s' _ h; cases h
  | succ fuel ih =>
    intro fuel' n s s' hle h
    obtain ⟨k, rfl⟩ : ∃ k, fuel' = k + 1 := ⟨fuel' - 1, by omega⟩
    simp only [Store.build] at h ⊢
    by_cases hb : (s.nodes n).built = true
    · rw [if_pos hb] at h ⊢; exact h
    rw [if_neg hb] at h ⊢
    obtain ⟨_, s1, e1, e2⟩ := out_bind_ok h
    rw [each_ok_mono (fun c s s' h => ih k c s s' (by omega) h) _ _ _ e1]
    exact e2

/-- `Transfer`: the source is built, then every element of the target is assigned -/
theorem wp_transferP {f t : Nat} {w : World T} {Q : Unit → World T → Prop} (hf : f < w.nodeNext)
    (h : ∀ w0, Grow (fun _ => False) (fun _ => False) [] w w0 → w0.layers = w.layers → w0.store.heap = w.store.heap →
      (∀ m, m < w.nodeNext → w0.store.nodes m = w.store.nodes m) →
      wp True (Run.buildGraph f) (fun _ w2 => ∃ o fM tM, Grow (fun _ => False) (fun _ => False) o w0 w2 ∧ Ready w2 f fM ∧ Ready w2 t tM ∧
        fM.ops.length = tM.ops.length ∧ tM.ops.Nodup ∧ (∀ q ∈ tM.ops, q ∉ fM.ops) ∧
        ∀ w' ops, Grow (fun _ => False) (fun _ => False) (o ++ ops) w w' → w'.layers = w2.layers → w'.store.heap = w2.store.heap →
          (∀ q ∈ dsts ops, q ∈ tM.ops) → (∀ o ∈ ops, Fine o) →
          (∀ h h', exec ops h = .ok () h' → tM.ops.map h'.val = fM.ops.map h.val) → Q () w') w0) :
    wp True (Run.transfer f t) Q w := by
  unfold Run.transfer
  refine wp_bind' (wp_lazy (L := fun _ => False) (C := fun _ => False) fun w1 g1 l1 h1 x1 n1 o1 => ?_)
  obtain ⟨n, hn⟩ : ∃ n, n = w.nodeNext := ⟨_, rfl⟩
  rw [← hn] at n1 o1 x1 hf ⊢
  obtain ⟨s0, hs0⟩ : ∃ s0 : Store T, s0 = w1.store.setNode n { w1.store.nodes n with built := true } := ⟨_, rfl⟩
  have f0 : ∀ m, m ≠ n → s0.nodes m = w1.store.nodes m := fun m hm => by
    simp only [hs0, Store.setNode]; rw [if_neg hm]
  have kn : (w1.store.nodes n).kind = .copy f t := by rw [n1]; rfl
  have bn : (w1.store.nodes n).built = false := by rw [n1]; rfl
  have kn0 : (s0.nodes n).kind = .copy f t := by simp [hs0, Store.setNode, kn]
  have hctx0 : s0.ctx = w1.store.ctx := by rw [hs0]; rfl
  have hheap0 : s0.heap = w1.store.heap := by rw [hs0]; rfl
  have g0 : Grow (fun _ => False) (fun _ => False) [] w { w1 with store := s0 } := by
    refine ⟨by show _ ≤ s0.heap.next; rw [hheap0, h1], fun q a b => ?_, g1.nodeNext, fun m hm => ?_, fun m hm hfz => ?_,
      fun k hk => g1.layers k hk, g1.layerNext, g1.nets, g1.netNext, ?_⟩
    · show s0.heap.val q = _; rw [hheap0, h1]
    · show (s0.nodes m).kind = _
      rw [f0 m (by omega), o1 m (by omega)]
    · have e : s0.nodes m = w.store.nodes m := by rw [f0 m (by omega), o1 m (by omega)]
      refine ⟨?_, by show (s0.nodes m).mat = _; rw [e]⟩
      unfold frozen at hfz ⊢; show (s0.nodes m).built = true ∨ _; rw [e]; exact hfz
    · show s0.ctx = _
      rw [hctx0, g1.ctx]
  obtain ⟨_, w2, hb, o, fM, tM, g2, rf, rt, hlen, hnd, hdis, hQ⟩ := wp_total (h { w1 with store := s0 } g0 l1 (by show s0.heap = _; rw [hheap0, h1])
    fun m hm => by show s0.nodes m = _; rw [f0 m (by omega), o1 m (by omega)])
  have hbf : Store.build (f + 1) f s0 = .ok () w2.store ∧ w2 = { w1 with store := w2.store } := by
    simp only [Run.buildGraph, Run.store] at hb
    split at hb
    · next hx =>
      simp only [Out.ok.injEq, true_and] at hb
      subst hb
      exact ⟨hx, rfl⟩
    · cases hb
    · cases hb
  obtain ⟨hbf, hw2⟩ := hbf
  obtain ⟨k, hk⟩ : ∃ k, n = k + 1 := ⟨n - 1, by omega⟩
  have b1 : Store.build (k + 1) f s0 = .ok () w2.store := build_fuel_le _ _ _ _ _ (by omega) hbf
  obtain ⟨s2, nop2, b2, a2, c2, e2, m2⟩ := build_frozen (fuel := k) rt.frozen
  have kn2 : (s2.nodes n).kind = .copy f t := by
    rw [(m2 n).1, g2.kind n (by show n < w1.nodeNext; omega)]; exact kn0
  have mf : (s2.nodes f).mat = fM := by rw [(m2 f).2.1, rf.mat]
  have mt : (s2.nodes t).mat = tM := by rw [(m2 t).2.1, rt.mat]
  have e : Run.buildGraph n w1 = .ok () { w2 with store :=
      { (s2.setNode n { s2.nodes n with mat := tM }) with ctx := s2.ctx ++ Fin.copyLoop tM.ops fM.ops } } := by
    have : Store.build (n + 1) n w1.store = .ok () { (s2.setNode n { s2.nodes n with mat := tM }) with ctx := s2.ctx ++ Fin.copyLoop tM.ops fM.ops } := by
      simp only [Store.build]
      rw [if_neg (by simp [bn]), ← hs0]
      show ((Store.each (fun c s => Store.build n c s) (w1.store.nodes n).kind.kids s0).bind fun _ s => Store.finish n s) = _
      rw [kn]
      simp only [Kind.kids, Store.each]
      rw [show Store.build n f s0 = Store.build (k + 1) f s0 by rw [← hk], b1, Out.bind_ok,
        show Store.build n t w2.store = Store.build (k + 1) t w2.store by rw [← hk], b2]
      simp only [Out.bind_ok, Store.finish]
      rw [kn2]
      simp only [Fin.run, Fin.copy, mf, mt, Mat.getSize]
      rw [if_neg (by omega)]
      rfl
    simp only [Run.buildGraph, Run.store, this]
    rw [hw2]
  have gt := g0.trans g2
  refine wp_of_ok e (hQ _ (nop2 ++ Fin.copyLoop tM.ops fM.ops) ?_ rfl e2 ?_ ?_ ?_)
  · have hnode : ∀ m, m < n → (({ (s2.setNode n { s2.nodes n with mat := tM }) with ctx := s2.ctx ++ Fin.copyLoop tM.ops fM.ops } : Store T).nodes m) = s2.nodes m := by
      intro m hm
      simp only [Store.setNode]; rw [if_neg (by omega)]
    refine ⟨by show _ ≤ s2.heap.next; rw [e2]; exact gt.next, fun q a b => ?_, gt.nodeNext, fun m hm => ?_, fun m hm hfz => ⟨?_, ?_⟩,
      fun k hk => gt.layers k hk, gt.layerNext, gt.nets, gt.netNext, ?_⟩
    · show s2.heap.val q = _
      rw [e2]; exact gt.val q a b
    · rw [hnode m (by omega), (m2 m).1]; exact gt.kind m hm
    · have h3 : frozen s2 m := m2.frozen (gt.frozen m hm hfz).1
      unfold frozen at h3 ⊢
      rw [hnode m (by omega)]; exact h3
    · rw [hnode m (by omega), (m2 m).2.1]; exact (gt.frozen m hm hfz).2
    · show s2.ctx ++ _ = _
      rw [c2, gt.ctx]; simp
  · intro q hq
    rw [dsts_append, a2.dsts] at hq
    exact copyLoop_dsts _ _ q (by simpa using hq)
  · intro o ho
    rcases List.mem_append.1 ho with ho | ho
    · obtain ⟨p, rfl⟩ := a2 o ho; trivial
    · exact copyLoop_fine _ _ (fun p hp => (rt.good.valid p hp).1) (fun p hp => (rf.good.valid p hp).1) o ho
  · intro h h' he
    obtain ⟨x1, y1, he⟩ := exec_append_ok.1 he
    rw [a2.exec] at y1
    simp only [Out.ok.injEq, true_and] at y1
    subst y1
    exact (exec_copy _ _ _ _ hlen.symm hnd hdis he).1

/-- ... to a tensor of the same shape that is there already -/
theorem wp_transferPend {f t : Nat} {sh : List Nat} {fv : (Ptr → T) → STensor T} {S : Ptr → Prop} {safe : Prop} {tM : Mat} {w : World T}
    {Q : Unit → World T → Prop} (p : Pend w f sh fv S safe) (hpos : 0 < w.store.heap.next) (rt : Ready w t tM) (hs : tM.shape = sh)
    (hnd : tM.ops.Nodup) (hdis : ∀ q ∈ tM.ops, ¬ S q)
    (h : ∀ w' ops, Grow (fun _ => False) (fun _ => False) ops w w' → w'.layers = w.layers →
      (∀ q ∈ dsts ops, (w.store.heap.next ≤ q ∧ q < w'.store.heap.next) ∨ q ∈ tM.ops) → (safe → ∀ o ∈ ops, Fine o) →
      (∀ h h', w'.store.heap.next ≤ h.next → Kept w w' ops h → exec ops h = .ok () h' → Holds h' tM (fv h.val)) → Q () w') :
    wp True (Run.transfer f t) Q w := by
  refine wp_transferP p.lt fun w0 g0 l0 h0 n0 => ?_
  have p0 := p.same n0 g0.nodeNext (by rw [h0])
  refine wp_build (L := fun _ => False) (C := fun _ => False) p0 (by rw [h0]; exact hpos) fun w2 new m B => ?_
  have rt2 := (rt.grow g0).grow B.grow
  have hn2 := B.grow.next
  refine ⟨new, m, tM, B.grow, B.ready, rt2, by rw [B.ready.good.len, rt.good.len, B.shape, hs], hnd, fun q hq hm => ?_, fun w' ops g l e dst fine run => ?_⟩
  · rcases B.cells q hm with h | h
    · have := (rt.good.valid q hq).2
      rw [h0] at h; omega
    · exact hdis q hq h
  · have hn : w'.store.heap.next = w2.store.heap.next := by rw [e]
    refine h w' (new ++ ops) g (by rw [l, B.layers, l0]) (fun q hq => ?_) (fun hs o ho => ?_) fun hp hp' hle hk he => ?_
    · rw [dsts_append, List.mem_append] at hq
      rcases hq with hq | hq
      · have := B.dst q hq
        rw [h0] at this
        left; omega
      · exact Or.inr (dst q hq)
    · rcases List.mem_append.1 ho with ho | ho
      · exact B.fine hs o ho
      · exact fine o ho
    · obtain ⟨h1, e1, e2⟩ := exec_append_ok.1 he
      have H := B.run hp h1 (by omega) (fun q a b c => ?_) e1
      · have gt := rt2.good.mono (h' := hp') (by rw [(exec_frame e2).1, (exec_frame e1).1]; omega)
        refine holds_of_flat (hs.trans (B.shape.symm.trans H.shape)) gt.mul gt.valid ?_
        rw [run h1 hp' e2, holds_flat H]
      · rw [h0] at a
        rw [hk q a (by omega) ?_, e, B.zero q (by rw [h0]; exact a) b]
        rw [dsts_append, List.mem_append]
        rintro (hd | hd)
        · exact c hd
        · have := (rt.good.valid q (dst q hd)).2; omega

/-- the errors divided by the number of uses, not built -/
theorem wp_scaledPend {β : Type} {x : Layer T} {dif : Nat} {dM : Mat} {k : Nat → Run T β} {Q : β → World T → Prop} {w : World T}
    (hd : x.dif = some dif) (rd : Ready w dif dM) (hr : 0 < x.ref ∧ x.ref < w.store.heap.next)
    (h : ∀ w' n f, Grow (fun _ => False) (fun _ => False) [] w w' → w'.layers = w.layers → w'.store.heap = w.store.heap →
      (∀ m, m < w.nodeNext → w'.store.nodes m = w.store.nodes m) →
      Pend w' n dM.shape f (· ∈ dM.ops) (lt one (w.store.heap.val x.ref) = true → ∀ x y : T, divPanics x y = false) →
      (∀ v, (f v).shape = dM.shape) →
      (∀ (hp : Heap T) d, hp.val x.ref = w.store.heap.val x.ref → Holds hp dM d → (f hp.val).tab = (shared (w.store.heap.val x.ref) d).tab) →
      wp True (k n) Q w') :
    wp True (LayerM.scaledDif x >>= k) Q w := by
  refine wp_bind ?_
  unfold LayerM.scaledDif
  refine wp_bind (wp_deref hd ?_)
  refine wp_bind (wp_of_ok (value_ok hr.1) ?_)
  by_cases hv : lt one (w.store.heap.val x.ref) = true
  · rw [if_pos hv]
    refine wp_lazy (L := fun _ => False) (C := fun _ => False) fun w1 g1 l1 h1 x1 nd1 o1 => ?_
    have pa := ((rd.grow g1).pend (lt one (w.store.heap.val x.ref) = true → ∀ x y : T, divPanics x y = false)).scal (o := .div) (p := x.ref) nd1
      (by omega) rd.lt (by rw [h1]; exact hr) (fun h _ => h hv)
    refine h w1 _ _ g1 l1 h1 (fun m hm => o1 m (by omega)) pa (fun v => rfl) fun hp d hrv Hd => ?_
    unfold shared
    rw [if_pos hv]
    simp only [hrv]
    exact map_tab _ (ofMat_tab Hd)
  · rw [if_neg hv]
    refine wp_pure (h w _ _ (Grow.refl _ _ _) rfl rfl (fun _ _ => rfl) (rd.pend _) (fun v => rfl) fun hp d _ Hd => ?_)
    unfold shared
    rw [if_neg hv]
    exact ofMat_tab Hd

theorem bpGood_normLike {s : LSpec T} {min max : T} (hk : s.kind = .norm min max) (hs : s = .norm ∨ s = .eNorm) (hw : s.weighted = false)
    (hb : ∀ pv d r x D, s.back pv d r x D = normBack min max r x) (hsf : ∀ si, s.bpSafe si = ∀ x y : T, divPanics x y = false)
    (hne : s ≠ .softMax) (hsh : ∀ si, s.outShape si = si) : BPGood s := by
  intro w fuel b l p P X alpha momentum E dsafe H
  rw [hk]
  show wp True (LayerM.normBP min max fuel l) _ w
  unfold LayerM.normBP
  obtain ⟨mx1, mx2, mx3⟩ := H.step.mx hs
  refine wp_bind (wp_layer (wp_scaledPend H.dif H.rdif ⟨H.ref.1, H.ref.2.1⟩ fun w1 n f g1 l1 h1 o1 pd hfs hfv => ?_))
  refine wp_bind (wp_scalar (L := fun _ => False) (C := fun _ => False) fun w2 g2 n2 v2 l2 o2 m2 => ?_)
  have pd2 := pd.same (w' := w2) (fun x _ => by rw [o2]) (by omega) (by omega)
  refine wp_bind (wp_lazy (L := fun _ => False) (C := fun _ => False) fun w3 g3 l3 h3 x3 nd3 o3 => ?_)
  have pd3 := pd2.same (w' := w3) (fun x hx => o3 x (by omega)) (by omega) (by rw [h3])
  have p1 := (pd3.mono (S' := (· ∈ X.dM.ops)) (safe' := (∀ x y : T, divPanics x y = false)) (fun _ h => h) (fun h _ => h)).scal (o := .mul) (p := w1.store.heap.next) nd3
    (by omega) pd2.lt ⟨by rw [h1]; exact H.pos, by rw [h3, n2]; omega⟩ (fun _ h => by cases h)
  refine wp_bind (wp_lazy (L := fun _ => False) (C := fun _ => False) fun w4 g4 l4 h4 x4 nd4 o4 => ?_)
  have p2 := (p1.same (w' := w4) (fun x hx => o4 x (by omega)) (by omega) (by rw [h4])).scal (o := .div) (p := X.mx) (n := w3.nodeNext) (by rw [← mx1]; exact nd4)
    (by omega) (by omega) ⟨mx2, by rw [h4, h3, n2, h1]; omega⟩ (fun h _ => h)
  have g14 := ((g1.trans g2).trans g3).trans g4
  have l14 : w4.layers = w.layers := by rw [l4, l3, l2, l1]
  have nx : w4.store.heap.next = w.store.heap.next + 1 := by rw [h4, h3, n2, h1]
  refine wp_bind (wp_deref H.pre ?_)
  refine wp_bind (wp_getDif H.fpos (by rw [l14]; exact H.pnot) (by rw [l14]; exact H.pdif) ?_)
  refine wp_bind (wp_deref rfl ?_)
  have sh : P.dM.shape = X.dM.shape := by rw [H.spdif, H.sdif, H.sout, hsh]
  refine wp_transferPend p2 (by omega) (H.rpdif.grow g14) sh H.nd (H.sepd hne) fun w5 o5 g5 l5 dst fine run => ?_
  have n5 := g5.next
  refine ⟨o5, [], [], BPDone1.plain hw H (by simpa using (g14.trans g5).weaken (fun _ h => h.elim) fun _ h => h) (by rw [l5, l14])
    (fun q hq => ?_) (fun hs' _ o ho => fine (by rw [hsf] at hs'; exact hs') o ho) ?_⟩
  · rcases dst q hq with h | h
    · left; omega
    · exact Or.inr h
  · intro h h' pv x d D al mu hnx hk V he
    have hr := run h h' hnx (fun q a b c => hk q (by omega) b c) he
    rw [hb]
    refine hr.of_tab ?_
    have kv : h.val w1.store.heap.next = GoNum.sub max min := by
      have hq : w1.store.heap.next = w.store.heap.next := by rw [h1]
      rw [hk _ (by omega) (by omega) fun hd => ?_, g5.val _ (by omega) (fun h => h), h4, h3, v2]
      rcases dst _ hd with h | h
      · omega
      · have := (H.rpdif.good.valid _ h).2; omega
    unfold normBack
    have e0 := hfv h d V.rates.2.2 V.dif
    simp only [kv, V.mx hs]
    exact map_tab _ (map_tab _ e0)

theorem bpGood_norm : BPGood (.norm : LSpec T) :=
  bpGood_normLike rfl (Or.inl rfl) rfl (fun _ _ _ _ _ => rfl) (fun _ => rfl) (by intro h; cases h) fun _ => rfl

theorem bpGood_eNorm : BPGood (.eNorm : LSpec T) :=
  bpGood_normLike rfl (Or.inr rfl) rfl (fun _ _ _ _ _ => rfl) (fun _ => rfl) (by intro h; cases h) fun _ => rfl

/-! ### sub-tensors -/

theorem nodup_of_cells {m : Mat} {h : Heap T} (g : GoodMat h m) (hc : ∀ i j, InRange m.shape i → InRange m.shape j → cell m i = cell m j → i = j) :
    m.ops.Nodup := by
  rw [List.nodup_iff_injective_getElem]
  intro ⟨i, hi⟩ ⟨j, hj⟩ e
  simp only at e
  have hi' : i < size m.shape := by rw [← g.len]; exact hi
  have hj' : j < size m.shape := by rw [← g.len]; exact hj
  have := hc (unflat m.shape i) (unflat m.shape j) (unflat_inRange hi') (unflat_inRange hj')
    (by rw [cell_unflat hi', cell_unflat hj', List.getD_eq_getElem _ _ hi, List.getD_eq_getElem _ _ hj]; exact e)
  have := congrArg (offset m.shape) this
  rw [offset_unflat hi', offset_unflat hj'] at this
  simpa using this

/-- the elements of a sub-tensor are elements of the source -/
theorem subView_cells {w w' : World T} {v inp d lo hi n : Nat} {inM : Mat} {L : Nat → Prop} {C : Ptr → Prop} {new : List (Op T)}
    (hnd : w.store.nodes v = Store.lazyNode (.sub d lo hi false inp) []) (ri : Ready w inp inM)
    (hl : d < inM.shape.length) (hlt : lo < hi) (he : hi ≤ inM.shape.getD d 0)
    (G : Grow L C new w w') (B : Built (Reach w.store n) w.store w'.store) (hr : Reach w.store n v) :
    ∀ idx, InRange (inM.shape.set d (hi - lo)) idx → InRange inM.shape (idx.modify d (· + lo)) ∧
      cell (w'.store.nodes v).mat idx = cell inM (idx.modify d (· + lo)) := by
  intro idx hi'
  have kn : (w.store.nodes v).kind = .sub d lo hi false inp := by rw [hnd]; rfl
  have hb : (w.store.nodes v).built = false := by rw [hnd]; rfl
  obtain ⟨d1, d2⟩ := B.done v hr
  obtain ⟨h0, c0, f, hrun, hm, _, _, hg⟩ := B.ran v hr hb
  have mi : (w'.store.nodes inp).mat = inM := (ri.grow G).mat
  have hsh := B.shape v hr hb
  rw [kn] at hsh hrun hg
  have hsh' : (w'.store.nodes v).mat.shape = inM.shape.set d (hi - lo) := by
    rw [hsh]
    show (w'.store.nodes inp).mat.shape.set d (hi - lo) = _
    rw [mi]
  obtain ⟨u, v1, v2, v3, v4⟩ := inRange_set_elim hl hi'
  have hfit : (Kind.sub d lo hi false inp : Kind T).fits fun c => (w'.store.nodes c).mat.shape := by
    refine ⟨?_, by omega, Or.inr ?_⟩
    · show d < (w'.store.nodes inp).mat.shape.length
      rw [mi]; exact hl
    · show hi ≤ (w'.store.nodes inp).mat.shape.getD d 0
      rw [mi]; exact he
  have hi2 : InRange f.mat.shape idx := by rw [hm, hsh']; exact hi'
  obtain ⟨_, y2, p, y3, y4⟩ := run_view (idx := idx) (j := idx.modify d (· + lo)) (c := inp) hg hfit hrun hi2 (by
    show (if idx.getD d 0 + lo < (w'.store.nodes inp).mat.shape.getD d 0 then _ else _) = _
    rw [mi, if_pos (by omega)])
  rw [mi] at y2 y4
  rw [hm, getOperand_cell d2 (by rw [hsh']; exact hi')] at y3
  rw [getOperand_cell ri.good y2] at y4
  injection y3 with y3
  injection y4 with y4
  exact ⟨y2, by rw [y3, y4]⟩

theorem bpGood_sub (dim lo hi : Nat) : BPGood (.sub dim lo hi : LSpec T) := by
  intro w fuel b l p P X alpha momentum E dsafe H
  show wp True (LayerM.subBP dim lo hi fuel l) _ w
  unfold LayerM.subBP
  obtain ⟨hd, hlt, hle⟩ := H.fits
  rw [← H.spdif] at hd hle
  refine wp_bind (wp_layer (wp_bind (wp_deref H.dif ?_)))
  refine wp_bind (wp_buildReady (L := fun _ => False) H.rdif fun wa nops hna ga la na ea => ?_)
  refine wp_scaledPend (w := wa) H.dif (H.rdif.grow ga.grow) (by rw [ea]; exact ⟨H.ref.1, H.ref.2.1⟩) fun w1 n f g1 l1 h1 o1 pd hfs hfv => ?_
  refine wp_bind (wp_deref H.pre ?_)
  refine wp_bind (wp_getDif H.fpos (by rw [l1, la]; exact H.pnot) (by rw [l1, la]; exact H.pdif) ?_)
  refine wp_bind (wp_deref rfl ?_)
  refine wp_bind (wp_lazy (L := fun _ => False) (C := fun _ => False) fun w2 g2 l2 h2 x2 nd2 o2 => ?_)
  refine wp_bind (wp_lazy (L := fun _ => False) (C := fun _ => False) fun w3 g3 l3 h3 x3 nd3 o3 => ?_)
  have rp3 := ((((H.rpdif.grow ga.grow).grow g1).grow g2).grow g3)
  have nd2' : w3.store.nodes w1.nodeNext = Store.lazyNode (.sub dim lo hi false P.dif) [] := by rw [o3 _ (by omega)]; exact nd2
  have sx : X.dM.shape = P.dM.shape.set dim (hi - lo) := by rw [H.sdif, H.sout, H.spdif]; rfl
  refine wp_transferP (by omega) fun w0 g0 l0 h0 n0 => ?_
  have rp0 := rp3.grow g0
  have ln : n < w1.nodeNext := pd.lt
  have nd2'' : w0.store.nodes w1.nodeNext = Store.lazyNode (.sub dim lo hi false P.dif) [] := by rw [n0 _ (by omega)]; exact nd2'
  have nd3'' : w0.store.nodes w2.nodeNext = Store.lazyNode (.op2 .add n w1.nodeNext) [] := by rw [n0 _ (by omega)]; exact nd3
  have n0' := g0.nodeNext
  obtain ⟨S, hS⟩ : ∃ S : Ptr → Prop, S = fun q => q ∈ X.dM.ops ∨ q ∈ P.dM.ops := ⟨_, rfl⟩
  obtain ⟨safe, hsafe⟩ : ∃ S : Prop, S = (lt one (wa.store.heap.val (w.layers l).ref) = true → ∀ x y : T, divPanics x y = false) := ⟨_, rfl⟩
  rw [← hsafe] at pd
  have pa := (pd.same (w' := w0) (fun x hx => by rw [n0 _ (by omega), o3 _ (by omega), o2 _ (by omega)]) (by omega) (by rw [h0, h3, h2])).mono (S' := S)
    (safe' := safe) (fun q hq => by rw [hS]; exact Or.inl hq) id
  rw [sx] at pa
  have pb := ((rp0.pend safe).mono (S' := S) (safe' := safe) (fun q hq => by rw [hS]; exact Or.inr hq) id).subIn (fun _ => rfl) nd2'' (by omega)
    (by have := H.rpdif.lt; have := ga.grow.nodeNext; have := g1.nodeNext; omega) hd hlt hle
  have pc := pa.zip2 pb (fun v => by rw [hfs, sx]) (fun _ => rfl) nd3'' (by omega) (by omega) (by omega) (by omega) (fun _ h => by cases h)
  have q0 : 0 < w0.store.heap.next := by rw [h0, h3, h2, h1, ea]; exact H.pos
  have e0 : w0.store.heap.next = w.store.heap.next := by rw [h0, h3, h2, h1, ea]
  refine wp_build (L := fun _ => False) (C := fun _ => False) pc q0 fun w5 new fM B => ?_
  have hrv : Reach w0.store w2.nodeNext w1.nodeNext := .step (by rw [nd3'']; rfl) (by rw [nd3'']; simp [Store.lazyNode, Kind.kids]) (.refl _)
  obtain ⟨i1, i2, i3, _⟩ := B.inner pc.expr hrv pb
  have hcell := subView_cells nd2'' rp0 hd hlt hle B.grow B.built hrv
  obtain ⟨tM, htM⟩ : ∃ m, m = (w5.store.nodes w1.nodeNext).mat := ⟨_, rfl⟩
  rw [← htM] at i1 i2 i3 hcell
  have hmod : ∀ idx, InRange (P.dM.shape.set dim (hi - lo)) idx → idx.modify dim (· + lo) = idx.set dim (idx.getD dim 0 + lo) := by
    intro idx hidx
    obtain ⟨u, v1, v2, v3, v4⟩ := inRange_set_elim hd hidx
    rw [modify_eq_set _ v1, v2]
  have hback : ∀ idx, InRange (P.dM.shape.set dim (hi - lo)) idx → (idx.modify dim (· + lo)).set dim ((idx.modify dim (· + lo)).getD dim 0 - lo) = idx := by
    intro idx hidx
    have hl : idx.length = P.dM.shape.length := by have := inRange_length hidx; simpa using this
    rw [hmod idx hidx, List.set_set]
    have : (idx.set dim (idx.getD dim 0 + lo)).getD dim 0 = idx.getD dim 0 + lo := by
      rw [List.getD_eq_getElem?_getD, List.getElem?_set_self (by omega)]; rfl
    rw [this, Nat.add_sub_cancel, List.getD_eq_getElem _ _ (by omega)]
    exact List.set_getElem_self _
  have tnd : tM.ops.Nodup := by
    refine nodup_of_cells i1.good fun i j hi' hj' e => ?_
    rw [i2] at hi' hj'
    obtain ⟨a1, a2⟩ := hcell i hi'
    obtain ⟨b1, b2⟩ := hcell j hj'
    have := cell_inj rp0.good H.nd a1 b1 (by rw [← a2, ← b2]; exact e)
    rw [← hback i hi', ← hback j hj', this]
  have tin : ∀ q ∈ tM.ops, q ∈ P.dM.ops := by
    intro q hq
    obtain ⟨i, hi', rfl⟩ := mem_cell i1.good hq
    rw [i2] at hi'
    obtain ⟨a1, a2⟩ := hcell i hi'
    rw [a2]; exact cell_mem rp0.good a1
  have fnew : ∀ q ∈ fM.ops, w.store.heap.next ≤ q := by
    intro q hq
    have hb : (w0.store.nodes w2.nodeNext).built = false := by rw [nd3'']; rfl
    obtain ⟨hh, c0, fs, hrun, hmat, hlo, _, _⟩ := B.built.ran _ (.refl _) hb
    rw [nd3''] at hrun
    have := (op2_cells hrun).2 q (by rw [hmat, B.ready.mat]; exact hq)
    simp only at this
    omega
  have n5 := B.grow.next
  refine ⟨new, fM, tM, B.grow, B.ready, i1, by rw [B.ready.good.len, i1.good.len, B.shape, i2], tnd, fun q hq hm => ?_, fun w6 o6 g6 l6 e6 dst fine run => ?_⟩
  · have := fnew q hm
    have := (H.rpdif.good.valid q (tin q hq)).2
    omega
  have e6' : w6.store.heap.next = w5.store.heap.next := by rw [e6]
  have gt := (((ga.grow.trans g1).trans g2).trans g3).trans g6
  simp only [List.append_nil] at gt
  refine ⟨nops ++ (new ++ o6), [], [], BPDone1.plain rfl H (gt.weaken (fun _ h => h.elim) fun _ h => h) (by rw [l6, B.layers, l0, l3, l2, l1, la])
    (fun q hq => ?_) (fun _ hr o ho => ?_) ?_⟩
  · rw [dsts_append, dsts_append, hna.dsts, List.nil_append, List.mem_append] at hq
    rcases hq with hq | hq
    · have := B.dst q hq
      left; omega
    · exact Or.inr (tin q (dst q hq))
  · rcases List.mem_append.1 ho with ho | ho
    · exact hna.fine o ho
    · rcases List.mem_append.1 ho with ho | ho
      · refine B.fine ?_ o ho
        rw [hsafe, ea]; exact hr
      · exact fine o ho
  · intro h h' pv x d D al mu hnx hk V he
    obtain ⟨h1', he1, he⟩ := exec_append_ok.1 he
    rw [hna.exec] at he1
    simp only [Out.ok.injEq, true_and] at he1
    subst he1
    obtain ⟨h2', he1, he2⟩ := exec_append_ok.1 he
    have HF := B.run h h2' (by omega) (fun q a b c => ?_) he1
    · have hrun := run h2' h' he2
      show Holds h' P.dM (subBack dim lo hi (shared (w.store.heap.val (w.layers l).ref) d) x)
      have hx : P.dM.shape = x.shape := by rw [H.spdif, V.inp.shape]
      have nx : h'.next = h.next := by rw [(exec_frame he2).1, (exec_frame he1).1]
      have hz := V.zero (by simp)
      have gt' : GoodMat h' tM := i1.good.mono (by omega)
      have ht := holds_of_flat (h := h') (m := tM) (t := _) (by rw [i2, ← B.shape]; exact HF.shape) gt'.mul gt'.valid (by rw [hrun, holds_flat HF])
      refine holds_of_cell (H.rpdif.good.mono (by omega)) hx fun idx hidx => ?_
      show _ = if lo ≤ idx.getD dim 0 ∧ idx.getD dim 0 < hi then GoNum.add ((shared (w.store.heap.val (w.layers l).ref) d).get (idx.set dim (idx.getD dim 0 - lo))) zero else zero
      by_cases hc : lo ≤ idx.getD dim 0 ∧ idx.getD dim 0 < hi
      · rw [if_pos hc]
        obtain ⟨j, hj⟩ : ∃ j, j = idx.set dim (idx.getD dim 0 - lo) := ⟨_, rfl⟩
        rw [← hj]
        have hl : idx.length = P.dM.shape.length := inRange_length hidx
        have hjr : InRange (P.dM.shape.set dim (hi - lo)) j := by
          have hh := inRange_iff.1 hidx
          rw [inRange_iff]
          refine ⟨by rw [hj, List.length_set, List.length_set, hl], fun i v s => ?_⟩
          rw [hj]
          by_cases hid : i = dim
          · subst hid
            rw [List.getElem?_set_self (by omega), List.getElem?_set_self hd]
            simp only [Option.some.injEq]
            omega
          · rw [List.getElem?_set_ne (Ne.symm hid), List.getElem?_set_ne (Ne.symm hid)]
            exact hh.2 i v s
        have hji : j.modify dim (· + lo) = idx := by
          have hg : j.getD dim 0 = idx.getD dim 0 - lo := by
            rw [hj, List.getD_eq_getElem?_getD, List.getElem?_set_self (by omega)]; rfl
          rw [hmod j hjr, hg, hj, List.set_set, Nat.sub_add_cancel hc.1, List.getD_eq_getElem _ _ (by omega)]
          exact List.set_getElem_self _
        obtain ⟨a1, a2⟩ := hcell j hjr
        have hc2 := holds_cell ht (by rw [i2]; exact hjr)
        rw [a2, hji] at hc2
        rw [hc2]
        have hsd := hfv h d (by rw [ea]; exact V.rates.2.2) V.dif
        rw [ea] at hsd
        have h1g := (tab_iff.1 hsd).2 j (by rw [hfs, sx]; exact hjr)
        show GoNum.add ((f h.val).get j) ((ofMat h.val P.dM).get (j.modify dim (· + lo))) = _
        rw [h1g, hji, ofMat_get H.rpdif.good hidx, hz _ (cell_mem H.rpdif.good hidx)]
      · rw [if_neg hc, (exec_frame he2).2 _ fun hd' => ?_, (exec_frame he1).2 _ fun hd' => ?_, hz _ (cell_mem H.rpdif.good hidx)]
        · have := B.dst _ hd'
          have := (H.rpdif.good.valid _ (cell_mem H.rpdif.good hidx)).2
          omega
        · have := dst _ hd'
          obtain ⟨i, hi', e⟩ := mem_cell i1.good this
          rw [i2] at hi'
          obtain ⟨a1, a2⟩ := hcell i hi'
          rw [a2] at e
          have := cell_inj H.rpdif.good H.nd a1 hidx e
          refine hc ?_
          obtain ⟨u, v1, v2, v3, v4⟩ := inRange_set_elim hd hi'
          have hl : i.length = P.dM.shape.length := by have := inRange_length hi'; simpa using this
          have hg : idx.getD dim 0 = i.getD dim 0 + lo := by
            rw [← this, hmod i hi', List.getD_eq_getElem?_getD, List.getElem?_set_self (by omega)]; rfl
          omega
    · rw [hk q (by omega) (by omega) ?_, e6, B.zero q a b]
      rw [dsts_append, dsts_append, hna.dsts, List.nil_append, List.mem_append]
      rintro (hd' | hd')
      · exact c hd'
      · have := (H.rpdif.good.valid q (tin q (dst q hd'))).2; omega

end Godeep
