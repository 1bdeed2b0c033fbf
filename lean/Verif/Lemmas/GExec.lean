import Verif.Lemmas.GLive
/-
  Executing the graphs of a training step of a sequential network of any layers.
-/
set_option linter.unusedSectionVars false

namespace Godeep
open Spec GoNum

variable {T : Type} [GoNum T]

section
variable {shape : List Nat} {ls : List (LSpec T)} {m : Nat} {d : CData T} {L : Nat → GLayer} {e : GData T} {w0 w1 wa wb a : World T}

/-- what the graphs of one step compute -/
structure GRes (ls : List (LSpec T)) (e : GData T) (ts : List Bool) (pv mv : List (List (STensor T))) (x y : STensor T) (al mu : T)
    (h6 : Heap T) : Prop where
  loss : h6.val e.loss = absLoss y (netFn ls pv x)
  new : ∀ j s, ls[j]? = some s → s.weighted = true → List.Forall₂ (Holds h6) (e.nps j) (s.learned al mu (pv.getD j []) (mv.getD j [])
    (learnAt al mu y ls ts pv mv x (x.map (Activation.linear : Activation T).derive) (j + 1)).2.2
    (shared (uses (ls.drop (j + 1))) (learnAt al mu y ls ts pv mv x (x.map (Activation.linear : Activation T).derive) (j + 1)).2.2)
    (netFn (ls.take j) (pv.take j) x))
  mom : ∀ j s, ls[j]? = some s → List.Forall₂ (Holds h6) (e.mbs j) (s.changed al mu (mv.getD j [])
    (learnAt al mu y ls ts pv mv x (x.map (Activation.linear : Activation T).derive) (j + 1)).2.2)

theorem GTNet.step (N : GTNet shape ls m d L e w0 w1 wa wb) {h0 h1 h2 h3 h4 h5 h6 : Heap T} {x y : STensor T} (hn : wb.store.heap.next ≤ h0.next)
    (e1 : exec e.rf h0 = .ok () h1) (n2 : h2.next = h1.next) (e2 : ∀ q, q ∉ d.inM.ops → h2.val q = h1.val q) (H2 : Holds h2 d.inM x)
    (n3 : h3.next = h2.next) (e3 : ∀ q, q ∉ e.tM.ops → h3.val q = h2.val q) (H3 : Holds h3 e.tM y)
    (e4 : exec d.ops h3 = .ok () h4) (e5 : exec e.cd h4 = .ok () h5) (e6 : exec e.bp h5 = .ok () h6)
    (hs : ∀ q, wa.store.heap.next ≤ q → q < wb.store.heap.next → ¬ GTW d e q → h0.val q = wb.store.heap.val q)
    (hr : ∀ k ≤ ls.length, h0.val (w1.layers (d.b + k)).ref = w1.store.heap.val (w1.layers (d.b + k)).ref)
    (hK : ∀ q c, d.K q c → h0.val q = c) {pv mv : List (List (STensor T))} (hp : List.Forall₂ (List.Forall₂ (Holds h0)) d.ps pv)
    (hml : mv.length = ls.length) (hm : ∀ j < ls.length, List.Forall₂ (Holds h0) (e.mbs j) (mv.getD j [])) {ts : List Bool} (ht : ts.length = ls.length) :
    GRes ls e ts pv mv x y (h0.val e.alpha) (h0.val e.momentum) h6 := by
  obtain ⟨n1, f1⟩ := exec_frame e1
  obtain ⟨n4, f4⟩ := exec_frame e4
  obtain ⟨n5, f5⟩ := exec_frame e5
  obtain ⟨n6, f6⟩ := exec_frame e6
  obtain ⟨c1, c2, c3, c4⟩ := N.built.cells
  obtain ⟨l1, l2, l3⟩ := N.built.le
  obtain ⟨i1, i2⟩ := N.hi
  have C := N.net.made.comp
  have G := N.net.dat
  have x1 : w1.store.heap.next ≤ wa.store.heap.next := N.pre.live.ext.next
  have hdif : ∀ j ≤ ls.length, ∀ q ∈ (L j).dM.ops, d.lo ≤ q ∧ q < d.hi := fun j hj q hq => N.dif hj hq
  have fr3 : ∀ q, q ∉ d.inM.ops → q ∉ e.tM.ops → q ∉ dsts e.rf → h3.val q = h0.val q := fun q q1 q2 q3 => by
    rw [e3 q q2, e2 q q1, f1 q q3]
  have fr5 : ∀ q, q ∉ d.inM.ops → q ∉ e.tM.ops → q ∉ dsts d.ops → q ∉ dsts e.cd → q ∉ dsts e.rf → h5.val q = h0.val q :=
    fun q q1 q2 q3 q4 q5 => by rw [f5 q q4, f4 q q3, fr3 q q1 q2 q5]
  have keep45 : ∀ q, q < wa.store.heap.next → q ∉ (L ls.length).dM.ops → h5.val q = h4.val q := fun q q1 q2 => f5 q fun h => by
    rcases N.cd_dst h with h | h
    · exact q2 h
    · omega
  -- the feed-forward pass
  have Hin : Holds h3 d.inM x := H2.kept (by omega) fun q hq => e3 q fun h => by
    have := N.built.treg q h
    have := C.inlt q hq
    omega
  have Kp : ∀ q c, d.K q c → h3.val q = c := fun q c h => by
    have hq := N.const_not h
    rw [fr3 q (fun h => hq ⟨by simp [h]⟩) (fun h => hq ⟨by simp [h]⟩) (fun h => hq ⟨by simp [h]⟩), hK q c h]
  have Pp : List.Forall₂ (List.Forall₂ (Holds h3)) d.ps pv := forall₂_kept (by omega) (fun p hp y hy q hq => by
    have := (N.par_not hp hy hq).1
    exact fr3 q this.inp this.tgt this.rf) hp
  obtain ⟨F1, F2⟩ := N.net.run h3 h4 x pv (by have := N.built.wide.ext.next; omega) Kp Hin (by rw [← N.net.ps]; exact Pp) e4
  have hlen : pv.length = ls.length := by
    have := hp.length_eq
    rw [N.net.ps, List.length_map, List.length_range] at this
    exact this.symm
  have hfull : netFn (ls.take ls.length) (pv.take ls.length) x = netFn ls pv x := by
    rw [List.take_length, ← hlen, List.take_length]
  -- the output error
  have Ho4 := F1 ls.length (le_refl _)
  rw [hfull] at Ho4
  have Ht4 : Holds h4 e.tM y := H3.kept (by omega) fun q hq => f4 q fun h => by
    have := N.built.treg q hq
    have := (N.ff_dst h).1
    omega
  have CD := N.built.cdone.run h4 h5 e5
  have tsh := N.built.tshape
  obtain ⟨dsh, dnd⟩ := N.net.sep.shape ls.length (le_refl _)
  have rd := (G.gdif ls.length (le_refl _)).2.1
  have Hd5 : Holds h5 (L ls.length).dM ⟨(netFn ls pv x).shape, fun idx => GoNum.sub (y.get idx) ((netFn ls pv x).get idx)⟩ := by
    refine holds_of_cell (rd.good.mono (by omega)) (by rw [dsh, Ho4.shape]) fun idx hi => ?_
    have ho := offset_lt hi
    have hu := unflat_offset hi
    have := CD.1 (offset (L ls.length).dM.shape idx) (by rw [← dsh]; exact ho)
    rw [← cell_unflat ho, hu] at this
    rw [this, getD_cell Ht4 (by rw [tsh, ← dsh]; exact ho), getD_cell Ho4 (by rw [← dsh]; exact ho), ← Ht4.shape, ← Ho4.shape, tsh, ← dsh, hu]
  -- the values before back-propagation
  obtain ⟨wx, wy, B, y1, y2, y3, y4, y5, y6⟩ := N.built.bp
  have href : ∀ j ≤ ls.length, (wx.layers (d.b + j)).ref = (w1.layers (d.b + j)).ref := fun j hj => by
    rw [y3]
    exact (Layer.fwd_eq (N.pre.live.layers _ (N.net.made.range hj).1 (N.net.made.range hj).2)).2.2.2.2.2.2.2.2.1
  have hKept : Kept wx wy e.bp h5 := fun q q1 q2 q3 => by
    rw [y1] at q1
    rw [y2] at q2
    obtain ⟨u1, u2⟩ := N.high_not q1 q3
    rw [fr5 q u1.inp u1.tgt u1.ff u1.cd u1.rf, hs q (by omega) (by omega) u2, y6.val q (by omega)]
  obtain ⟨wu, wz, RF, z1, z2⟩ := N.built.rf
  have RZ := RF.run h0 h1 (fun q q1 q2 => by
    rw [z1] at q1
    rw [z2] at q2
    rw [hs q (by omega) q2 (N.high_not (by omega) fun hb => by
      rcases N.bp_dst hb with ⟨j, hj, h⟩ | h
      · have := hdif j (by omega) q h; omega
      · omega).2, ← z2]
    exact RF.lay.zero q (by omega) (by rw [z2]; exact q2)) e1
  have V : GVals shape ls L (fun j => (wx.layers (d.b + j)).ref) (fun j => wx.store.heap.val (wx.layers (d.b + j)).ref) e.alpha e.momentum e.mbs
      ls.length h5 x pv mv ⟨(netFn ls pv x).shape, fun idx => GoNum.sub (y.get idx) ((netFn ls pv x).get idx)⟩ (h0.val e.alpha) (h0.val e.momentum) := by
    refine ⟨N.can.safe, hlen, fun j hj => ?_, fun j s hjs hw => ?_, fun j s hjs hw => ?_, fun j s hjs => ?_, ⟨?_, ?_⟩, fun j hj => ?_, fun j hj => ?_, Hd5,
      fun j hj hi q hq => ?_⟩
    · exact (F1 j hj).kept (by omega) fun q hq => keep45 q (lt_of_lt_of_le (G.oreg hj hq) x1) fun h =>
        N.net.sep.out _ (le_refl _) q h j hj hq
    · exact ((F2 j s hjs).1 hw).kept (by omega) fun q hq => keep45 q (lt_of_lt_of_le (G.nreg hjs hw hq) x1) fun h =>
        (N.net.sep.par _ (le_refl _) q h j s hjs).1 hw hq
    · rw [keep45 _ (lt_of_lt_of_le ((G.step j s hjs).mx hw).2.2 x1) fun h => (N.net.sep.par _ (le_refl _) _ h j s hjs).2.2 hw rfl]
      exact (F2 j s hjs).2 hw
    · have hj := (List.getElem?_eq_some_iff.1 hjs).1
      have := List.forall₂_iff_get.1 hp
      have hh := this.2 j (by rw [N.net.ps, List.length_map, List.length_range]; exact hj) (by omega)
      have e1 : d.ps.get ⟨j, by rw [N.net.ps, List.length_map, List.length_range]; exact hj⟩ = (L (j + 1)).ps := by
        simp [N.net.ps]
      have e2 : pv.get ⟨j, by omega⟩ = pv.getD j [] := by
        rw [List.getD_eq_getElem _ _ (by omega)]; rfl
      rw [e1, e2] at hh
      refine forall₂_kept1 hh (by omega) fun z hz q hq => ?_
      have := (N.par_not (N.mem_ps hj) hz hq).1
      exact fr5 q this.inp this.tgt this.ff this.cd this.rf
    · have := (N.rate_not (q := e.alpha) (Or.inl rfl)).1
      exact fr5 _ this.inp this.tgt this.ff this.cd this.rf
    · have := (N.rate_not (q := e.momentum) (Or.inr rfl)).1
      exact fr5 _ this.inp this.tgt this.ff this.cd this.rf
    · have hq := N.ref_not hj
      show h5.val (wx.layers (d.b + j)).ref = wx.store.heap.val (wx.layers (d.b + j)).ref
      have hlt := (N.net.made.ref hj rfl).2.1
      rw [href j hj, fr5 _ (fun h => hq ⟨by simp [h]⟩) (fun h => hq ⟨by simp [h]⟩) (fun h => hq ⟨by simp [h]⟩) (fun h => hq ⟨by simp [h]⟩)
        (fun h => hq ⟨by simp [h]⟩), hr j hj, y5.val _ (by omega), N.pre.ref j hj]
    · refine forall₂_kept1 (hm j hj) (by omega) fun z hz q hq => ?_
      have hlo := ((B.mom j hj z hz).2 q hq).1
      rw [y1] at hlo
      have hd : ∀ j ≤ ls.length, q ∉ (L j).dM.ops := fun j hj h => by have := hdif j hj q h; omega
      refine fr5 q (fun h => ?_) (fun h => ?_) (fun h => ?_) (fun h => ?_) (fun h => ?_)
      · have := C.inlt q h; omega
      · have := N.built.treg q h; omega
      · have := (N.ff_dst h).1; omega
      · rcases N.cd_dst h with h | h
        · exact hd _ (le_refl _) h
        · omega
      · obtain ⟨j, hj, h⟩ := N.rf_dst h
        exact hd j hj h
    · have hq' := hdif j (by omega) q hq
      rw [f5 q (fun h => ?_), f4 q (N.net.apart j (by omega) q hq).2.1, e3 q (fun h => ?_), e2 q (fun h => ?_), RZ j (by omega) q hq]
      · have := C.inlt q h; omega
      · have := N.built.treg q h; omega
      · rcases N.cd_dst h with h | h
        · exact N.net.sep.disj j ls.length hj (le_refl _) hi q hq h
        · omega
  have R := B.run h5 h6 x pv mv _ _ _ (by omega) hKept V e6
    (fun j => (learnAt (h0.val e.alpha) (h0.val e.momentum) y ls ts pv mv x (x.map (Activation.linear : Activation T).derive) j).2.2)
    (by rw [learnAt_last (le_refl _), hfull]) (learnAt_errs ht hlen hml)
  refine ⟨?_, fun j s hjs hw => (R j s (List.getElem?_eq_some_iff.1 hjs).1 hjs).1 hw, fun j s hjs => (R j s (List.getElem?_eq_some_iff.1 hjs).1 hjs).2⟩
  have h56 : h6.val e.loss = h5.val e.loss := f6 _ fun hb => by
    rcases N.bp_dst hb with ⟨j, hj, h⟩ | h
    · have := hdif j (by omega) _ h; omega
    · omega
  rw [h56, c1, CD.2, absLoss_eq Ht4 Ho4 tsh]

end
end Godeep
