import Verif.Lemmas.TrainLive
/-
  One training step of a network of dense layers, from the state of the program to the state of the program.
-/
set_option linter.unusedSectionVars false

namespace Godeep
open Spec GoNum

variable {T : Type} [GoNum T]

theorem trainNet_fst (alpha momentum : T) (y : STensor T) (as : List (Activation T)) (ts : List Bool) (ps : List (List (STensor T)))
    (x z z' : STensor T) (f f' : T → T) :
    (trainNet alpha momentum y as ts ps x z f).1 = (trainNet alpha momentum y as ts ps x z' f').1 := by
  rcases as with _ | ⟨a, as⟩
  · simp [trainNet]
  rcases ts with _ | ⟨t, ts⟩
  · simp [trainNet]
  rcases ps with _ | ⟨p, ps⟩
  · simp [trainNet]
  rcases p with _ | ⟨u, p⟩
  · simp [trainNet]
  rcases p with _ | ⟨v, p⟩
  · simp [trainNet]
  rcases p with _ | ⟨v', p⟩
  · simp [trainNet]
  · simp [trainNet]

theorem TW.par {d : CData T} {e : TData T} {q : Ptr} {p : List Mat} {y : Mat} (hp : p ∈ d.ps) (hy : y ∈ p) (hq : q ∈ y.ops) : TW d e q := by
  constructor
  iterate 8 right
  exact ⟨p, hp, y, hy, hq⟩

/-- only the heap changed, and only where training writes -/
structure TCh (d : CData T) (e : TData T) (h h' : Heap T) : Prop where
  next : h'.next = h.next
  val : ∀ q, ¬ TW d e q → h'.val q = h.val q

theorem TCh.refl (d : CData T) (e : TData T) (h : Heap T) : TCh d e h h := ⟨rfl, fun _ _ => rfl⟩

theorem TCh.trans {d : CData T} {e : TData T} {h1 h2 h3 : Heap T} (a : TCh d e h1 h2) (b : TCh d e h2 h3) : TCh d e h1 h3 :=
  ⟨b.next.trans a.next, fun q hq => (b.val q hq).trans (a.val q hq)⟩

/-- the world with another heap -/
abbrev atHeap (a : World T) (h : Heap T) : World T := { a with store := { a.store with heap := h } }

section
variable {shape : List Nat} {ds : List (Nat × Activation T)} {m : Nat} {d : CData T} {L : Nat → DLayer} {acts : Nat → Activation T}
  {e : TData T} {w0 w1 wa wb a : World T}

theorem TNet.dif (N : TNet shape ds m d L acts e w0 w1 wa wb) {j : Nat} (hj : j ≤ ds.length) {q : Ptr} (hq : q ∈ (L j).dM.ops) :
    d.lo ≤ q ∧ q < d.hi := N.net.set.dlow hj hq

/-- what training writes is part of the model or of the training graphs -/
theorem TNet.inside (N : TNet shape ds m d L acts e w0 w1 wa wb) {q : Ptr} (h : TW d e q) :
    ¬ Outside2 w0 w1 wa wb q ∧ q < wb.store.heap.next := by
  have M := N.net.made
  have x1 : w1.store.heap.next ≤ wb.store.heap.next := (N.pre.live.ext.trans N.built.wide.ext).next
  have in1 : ¬ Outside w0 w1 q → ¬ Outside2 w0 w1 wa wb q ∧ q < wb.store.heap.next := fun h => by
    refine ⟨fun ho => h ho.1, ?_⟩
    by_contra hc
    exact h (Or.inr (by omega))
  have in2 : wa.store.heap.next ≤ q → q < wb.store.heap.next → ¬ Outside2 w0 w1 wa wb q ∧ q < wb.store.heap.next := fun h1 h2 => by
    refine ⟨fun ho => ?_, h2⟩
    rcases ho.2 with h | h <;> omega
  obtain ⟨c1, c2, c3, c4⟩ := N.stat.cells
  obtain ⟨l1, l2, l3⟩ := N.stat.le
  rcases h.w with h | h | h | h | h | h | h | h | ⟨p, hp, y, hy, h⟩
  · exact in1 (M.inside_in h)
  · have := N.stat.treg q h
    exact in2 (by omega) (by omega)
  · exact in1 (M.inside_dst h)
  · rcases N.stat.cd_dst h with h | h
    · exact in1 (M.inside (N.dif (le_refl _) h).1 (N.dif (le_refl _) h).2)
    · exact in2 (by omega) (by omega)
  · rcases N.stat.bp_dst h with ⟨j, hj, h⟩ | h
    · exact in1 (M.inside (N.dif hj.le h).1 (N.dif hj.le h).2)
    · exact in2 (by omega) (by omega)
  · obtain ⟨j, hj, h⟩ := N.stat.rf_dst h
    exact in1 (M.inside (N.dif hj h).1 (N.dif hj h).2)
  · exact in2 (by omega) (by omega)
  · exact in2 (by omega) (by omega)
  · exact in1 (M.inside_par hp hy h)

theorem TNet.sample (N : TNet shape ds m d L acts e w0 w1 wa wb) {t : Nat} {x : STensor T} {h : Heap T}
    (s : Sample w0 w1 wa wb a t x) (c : TCh d e a.store.heap h) : Sample w0 w1 wa wb (atHeap a h) t x :=
  ⟨s.1, s.2.1.kept (le_of_eq c.next.symm) fun q hq => c.val q fun hw => (N.inside hw).1 (s.2.2 q hq), s.2.2⟩

theorem TLive.change (N : TNet shape ds m d L acts e w0 w1 wa wb) (A : TLive w0 w1 wa wb m ds.length d e a) {h : Heap T}
    (c : TCh d e a.store.heap h) : TLive w0 w1 wa wb m ds.length d e (atHeap a h) := by
  have x : Ext a (atHeap a h) := ext_of_eq (le_of_eq c.next.symm) rfl rfl
  refine ⟨⟨A.live.ext.trans x, A.live.layers, A.live.nets, fun q c h => (N.net.noK q c h).elim, A.live.layerNext⟩, A.ext.trans x, A.lay, A.net,
    fun q h1 h2 h3 => ?_⟩
  rw [show (atHeap a h).store.heap.val q = _ from c.val q h3]
  exact A.zero q h1 h2 h3

theorem TLive.ready (N : TNet shape ds m d L acts e w0 w1 wa wb) (A : TLive w0 w1 wa wb m ds.length d e a) : DReady ds L a :=
  N.net.dat.ready.ext A.live.ext

theorem TLive.tlay (N : TNet shape ds m d L acts e w0 w1 wa wb) (A : TLive w0 w1 wa wb m ds.length d e a) : TLay ds d.b L e a := by
  have B := N.built
  have ht : ∀ k ≤ ds.length, (a.layers (d.b + k)).tr = (wb.layers (d.b + k)).tr := fun k hk =>
    A.lay _ (N.net.range hk).1 (N.net.range hk).2
  have ht' : ∀ k < ds.length, (a.layers (d.b + 1 + k)).tr = (wb.layers (d.b + 1 + k)).tr := fun k hk => by
    rw [show d.b + 1 + k = d.b + (k + 1) by omega]; exact ht _ hk
  have hf : ∀ k ≤ ds.length, (a.layers (d.b + k)).fwd = (w1.layers (d.b + k)).fwd := fun k hk =>
    A.live.layers _ (N.net.range hk).1 (N.net.range hk).2
  have hf' : ∀ k < ds.length, (a.layers (d.b + 1 + k)).fwd = (w1.layers (d.b + 1 + k)).fwd := fun k hk => by
    rw [show d.b + 1 + k = d.b + (k + 1) by omega]; exact hf _ hk
  have e0 := Layer.fwd_eq (hf 0 (Nat.zero_le _))
  have t0 := ht 0 (Nat.zero_le _)
  rw [Nat.add_zero] at e0 t0
  have D := N.net.dat
  refine ⟨by rw [e0.2.1]; exact D.kind0.2, ⟨by rw [e0.2.2.1]; exact D.par0.1, by rw [e0.2.2.2.1]; exact D.par0.2, ?_⟩, fun j hj => ?_,
    fun j hj => ?_, fun j hj => ⟨(B.ready j hj).1.ext A.ext, (B.ready j hj).2.ext A.ext⟩⟩
  · refine (congrArg Layer.nBias t0 :).trans ?_
    show (wb.layers d.b).nBias = none
    rw [B.nb0.1]
    have := (N.pre.lay _ (N.net.range (Nat.zero_le _)).1 (N.net.range (Nat.zero_le _)).2)
    rw [Nat.add_zero] at this
    refine (congrArg Layer.nBias this :).trans ?_
    have := (N.net.fresh 0 (Nat.zero_le _)).2.2
    rwa [Nat.add_zero] at this
  · rw [(Layer.fwd_eq (hf' j hj)).2.1]; exact (D.lay j hj).2.1
  · have e1 := Layer.fwd_eq (hf' j hj)
    refine ⟨by rw [e1.2.2.1]; exact (D.lay j hj).2.2.2.2.2.2.1, by rw [e1.2.2.2.1]; exact (D.lay j hj).2.2.2.2.2.2.2,
      (congrArg Layer.nWeights (ht' j hj) :).trans (B.nw j hj).1, (congrArg Layer.nBias (ht' j hj) :).trans (B.nw j hj).2⟩

theorem TLive.params (N : TNet shape ds m d L acts e w0 w1 wa wb) (A : TLive w0 w1 wa wb m ds.length d e a) {pv : List (List (STensor T))} :
    HasParams a m pv ↔ List.Forall₂ (List.Forall₂ (Holds a.store.heap)) (parsFrom L 0 ds.length) pv := by
  rw [← N.net.ps]; exact A.live.hasParams N.net.made

theorem mem_parsFrom {L : Nat → DLayer} {n : Nat} {p : List Mat} {y : Mat} (hp : p ∈ parsFrom L 0 n) (hy : y ∈ p) :
    ∃ k < n, y = (L (k + 1)).wM ∨ y = (L (k + 1)).bM := by
  obtain ⟨k, hk, rfl⟩ := List.mem_map.1 hp
  have := List.mem_range'.1 hk
  simp only [List.mem_cons, List.not_mem_nil, or_false] at hy
  exact ⟨k, by omega, hy⟩

/-- a weight or a bias is not written before `Fit` -/
theorem TNet.par_not (N : TNet shape ds m d L acts e w0 w1 wa wb) {k : Nat} (hk : k < ds.length) {q : Ptr}
    (hq : q ∈ (L (k + 1)).wM.ops ∨ q ∈ (L (k + 1)).bM.ops) :
    q ∉ d.inM.ops ∧ q ∉ e.tM.ops ∧ q ∉ dsts d.ops ∧ q ∉ dsts e.cd ∧ q ∉ dsts e.bp ∧ q ∉ dsts e.rf ∧ q < wa.store.heap.next := by
  obtain ⟨h1, h2, h3⟩ := hq.elim ((N.stat.lowp hk).1 q) ((N.stat.lowp hk).2 q)
  obtain ⟨c1, c2, c3, c4⟩ := N.stat.cells
  obtain ⟨l1, l2, l3⟩ := N.stat.le
  refine ⟨fun h => ?_, fun h => ?_, fun h => ?_, fun h => ?_, fun h => ?_, fun h => ?_, h2⟩
  · have := N.net.set.low0 q h; omega
  · have := N.stat.treg q h; omega
  · have := (N.stat.ff_not h).2.2.2 k hk
    exact hq.elim this.1 this.2
  · rcases N.stat.cd_dst h with h | h
    · exact h3 _ (le_refl _) h
    · omega
  · rcases N.stat.bp_dst h with ⟨j, hj, h⟩ | h
    · exact h3 _ hj.le h
    · omega
  · obtain ⟨j, hj, h⟩ := N.stat.rf_dst h
    exact h3 j hj h

/-- the rates are not written by the graphs -/
theorem TNet.rate_not (N : TNet shape ds m d L acts e w0 w1 wa wb) {q : Ptr} (hq : q = e.alpha ∨ q = e.momentum) :
    q ∉ d.inM.ops ∧ q ∉ e.tM.ops ∧ q ∉ dsts d.ops ∧ q ∉ dsts e.cd ∧ q ∉ dsts e.bp ∧ q ∉ dsts e.rf ∧ wa.store.heap.next ≤ q := by
  obtain ⟨c1, c2, c3, c4⟩ := N.stat.cells
  obtain ⟨l1, l2, l3⟩ := N.stat.le
  have hib := N.stat.hib
  have hr : e.loss < q ∧ q < e.lx := by rcases hq with h | h <;> omega
  have hd : ∀ j ≤ ds.length, q ∉ (L j).dM.ops := fun j hj h => by have := N.dif hj h; omega
  refine ⟨fun h => ?_, fun h => ?_, fun h => ?_, fun h => ?_, fun h => ?_, fun h => ?_, by omega⟩
  · have h1 := N.net.made.comp.inlt q h
    have h2 := N.net.made.comp.hi.1
    omega
  · have := N.stat.treg q h; omega
  · have := (N.stat.ff_not h).1; omega
  · rcases N.stat.cd_dst h with h | h
    · exact hd _ (le_refl _) h
    · omega
  · rcases N.stat.bp_dst h with ⟨j, hj, h⟩ | h
    · exact hd _ hj.le h
    · omega
  · obtain ⟨j, hj, h⟩ := N.stat.rf_dst h
    exact hd j hj h

theorem absLoss_eq {h : Heap T} {tM oM : Mat} {y o : STensor T} (hy : Holds h tM y) (ho : Holds h oM o) (hs : tM.shape = oM.shape) :
    absLoss y o = sum1 ((List.range (size oM.shape)).map fun i =>
      let e := GoNum.sub (h.val (tM.ops.getD i 0)) (h.val (oM.ops.getD i 0))
      if lt e zero then GoNum.neg e else e) := by
  unfold absLoss
  congr 1
  rw [flat_eq_range, flat_eq_range, ← hy.shape, ← ho.shape, hs, List.zip_map', List.map_map]
  refine List.map_congr_left fun i hi => ?_
  rw [List.mem_range] at hi
  have e1 := getD_cell hy (j := i) (by rw [hs]; exact hi)
  have e2 := getD_cell ho hi
  simp only [Function.comp_apply]
  rw [e1, e2, ← hy.shape, ← ho.shape, hs]

/-- `ExecFit` with a sample of the right shapes -/
structure Fitted (ds : List (Nat × Activation T)) (m : Nat) (d : CData T) (e : TData T) (x y : STensor T) (a : World T) (h' : Heap T) : Prop where
  ch : TCh d e a.store.heap h'
  rates : h'.val e.alpha = a.store.heap.val e.alpha ∧ h'.val e.momentum = a.store.heap.val e.momentum
  loss : ∀ pv, HasParams a m pv → h'.val e.loss = absLoss y (netFn (ds.map dl) pv x)
  par : ∀ pv, HasParams a m pv → HasParams (atHeap a h') m (trainStep (a.store.heap.val e.alpha) (a.store.heap.val e.momentum) (ds.map Prod.snd)
    ((List.range ds.length).map fun j => (a.layers (d.b + 1 + j)).trainable) pv x y)

theorem TNet.tShape (N : TNet shape ds m d L acts e w0 w1 wa wb) : e.tM.shape = outShapes (ds.map dl) shape := by
  rw [N.stat.tshape, ← N.net.made.comp.oshape, ← N.net.made.comp.rout.mat, ← N.net.out, (N.net.dat.ready.out _ (le_refl _)).mat]

theorem TLive.sameNet (N : TNet shape ds m d L acts e w0 w1 wa wb) (A : TLive w0 w1 wa wb m ds.length d e a) :
    (a.nets m).input = some d.inp ∧ (a.nets m).target = some e.tgt ∧ (a.nets m).ff = some d.ops ∧ (a.nets m).calDif = some e.cd ∧
    (a.nets m).bp = some e.bp ∧ (a.nets m).resetFit = some e.rf ∧ (a.nets m).last = some (d.b + ds.length) ∧ (a.nets m).loss = e.loss ∧
    (a.nets m).alpha = e.alpha ∧ (a.nets m).momentum = e.momentum := by
  have C := A.live.comp N.net.made
  have hl := C.last
  rw [List.length_map] at hl
  refine ⟨C.input, ?_, C.ff, ?_, ?_, ?_, hl, ?_, ?_, ?_⟩ <;> rw [A.net, N.built.net]

theorem TNet.fine (N : TNet shape ds m d L acts e w0 w1 wa wb) :
    (∀ o ∈ e.rf, Fine o) ∧ (∀ o ∈ e.cd, Fine o) ∧ (∀ o ∈ e.bp, Fine o) := by
  obtain ⟨_, _, R, _, _⟩ := N.stat.rf
  obtain ⟨_, _, B, _, _⟩ := N.stat.bp
  exact ⟨R.fine, N.stat.cdone.fine, B.fine⟩

theorem TLive.tgt (N : TNet shape ds m d L acts e w0 w1 wa wb) (A : TLive w0 w1 wa wb m ds.length d e a) : Ready a e.tgt e.tM :=
  N.built.rt.ext A.ext

theorem TNet.execFit (N : TNet shape ds m d L acts e w0 w1 wa wb) (A : TLive w0 w1 wa wb m ds.length d e a) {tx ty : Nat} {x y : STensor T}
    (sx : Sample w0 w1 wa wb a tx x) (sy : Sample w0 w1 wa wb a ty y) (hx : x.shape = shape) (hy : y.shape = outShapes (ds.map dl) shape) :
    ∃ h', NetM.execFit m tx ty a = .ok () (atHeap a h') ∧ Fitted ds m d e x y a h' := by
  obtain ⟨n1, n2, n3, n4, n5, n6, n7, n8, n9, n10⟩ := A.sameNet N
  obtain ⟨f1, f2, f3⟩ := N.fine
  have C := A.live.comp N.net.made
  have hw : ∀ {q}, TW d e q → ∀ {t : Nat} {z : STensor T}, Sample w0 w1 wa wb a t z → q ∉ (a.store.nodes t).mat.ops :=
    fun hq _ _ s hm => (N.inside hq).1 (s.2.2 _ hm)
  -- reset
  obtain ⟨h1, e1⟩ := exec_fine e.rf a.store.heap f1
  have g1 := exec_frame e1
  have c1 : TCh d e a.store.heap h1 := ⟨g1.1, fun q hq => g1.2 q fun hm => hq ⟨by simp [hm]⟩⟩
  have A1 := A.change N c1
  -- input
  obtain ⟨h2, e2, H2, m2, v2⟩ := loadFrom_ok (w := atHeap a h1) (A1.live.comp N.net.made).rin C.nodup (N.sample sx c1).2.1
    (by rw [hx, C.ishape]) fun q hq hm => hw ⟨Or.inl hm⟩ sx hq
  have c2 : TCh d e a.store.heap h2 := c1.trans ⟨m2, fun q hq => v2 q fun hm => hq ⟨by simp [hm]⟩⟩
  have A2 := A.change N c2
  -- target
  obtain ⟨h3, e3, H3, m3, v3⟩ := loadFrom_ok (w := atHeap a h2) (A2.tgt N) N.stat.tnd (N.sample sy c2).2.1
    (by rw [hy, N.tShape]) fun q hq hm => hw ⟨by simp [hm]⟩ sy hq
  have c3 : TCh d e a.store.heap h3 := c2.trans ⟨m3, fun q hq => v3 q fun hm => hq ⟨by simp [hm]⟩⟩
  -- graphs
  obtain ⟨h4, e4⟩ := exec_fine d.ops h3 N.net.fffine
  have g4 := exec_frame e4
  have c4 : TCh d e a.store.heap h4 := c3.trans ⟨g4.1, fun q hq => g4.2 q fun hm => hq ⟨by simp [hm]⟩⟩
  obtain ⟨h5, e5⟩ := exec_fine e.cd h4 f2
  have g5 := exec_frame e5
  have c5 : TCh d e a.store.heap h5 := c4.trans ⟨g5.1, fun q hq => g5.2 q fun hm => hq ⟨by simp [hm]⟩⟩
  obtain ⟨h6, e6⟩ := exec_fine e.bp h5 f3
  have g6 := exec_frame e6
  have c6 : TCh d e a.store.heap h6 := c5.trans ⟨g6.1, fun q hq => g6.2 q fun hm => hq ⟨by simp [hm]⟩⟩
  have A6 := A.change N c6
  obtain ⟨k1, k2, k3, k4⟩ := N.stat.cells
  obtain ⟨l1, l2, l3⟩ := N.stat.le
  have hib := N.stat.hib
  have hlo := N.net.made.comp.hi.1
  have hdlt : ∀ j ≤ ds.length, ∀ q ∈ (L j).dM.ops, q < wa.store.heap.next := fun j hj q hq => by have := N.dif hj hq; omega
  -- cells of the training graphs that are not written
  have hnw : ∀ q, e.lx ≤ q → q < wb.store.heap.next → q ∉ dsts e.bp → ¬ TW d e q := fun q q1 q2 q3 hq => by
    rcases hq.w with h | h | h | h | h | h | h | h | ⟨p, hp, z, hz, h⟩
    · have := C.inlt q h; omega
    · have := N.stat.treg q h; omega
    · have := (N.stat.ff_not h).1; omega
    · rcases N.stat.cd_dst h with h | h
      · have := hdlt _ (le_refl _) _ h; omega
      · omega
    · exact q3 h
    · obtain ⟨j, hj, h⟩ := N.stat.rf_dst h
      have := hdlt j hj _ h; omega
    · omega
    · omega
    · have := C.stage.par p hp z hz q h; omega
  have V : TRes ds L acts d.inM d.ops e a.store.heap h2 h3 h6 :=
    N.stat.step (w := a) (A.ready N) (A.tgt N) e1 v2 v3 e4 e5 e6
      (fun q q1 q2 q3 => A.zero q (by omega) (by omega) (hnw q q1 (by omega) q3))
      (fun q q1 q2 => A.zero q (by omega) q2 (hnw q (by omega) q2 fun hm => by
        rcases N.stat.bp_dst hm with ⟨j, hj, h⟩ | h
        · have := hdlt j hj.le _ h; omega
        · omega))
  obtain ⟨h7, e7, F⟩ := N.stat.fit (w := atHeap a h6) (A6.ready N) (A6.tlay N) ds.length (a.layerNext + 1) (le_refl _) (by
    have := (N.net.range (le_refl ds.length)).2
    have := A.live.layerNext
    have := N.net.made.base
    omega)
  have hpar : ∀ q, (∀ j < ds.length, q ∉ (L (j + 1)).wM.ops ∧ q ∉ (L (j + 1)).bM.ops) → h7.val q = h6.val q := F.frame
  have hmem : ∀ j < ds.length, [(L (j + 1)).wM, (L (j + 1)).bM] ∈ d.ps := fun j hj => by
    rw [N.net.ps]
    exact List.mem_map.2 ⟨j, List.mem_range'.2 ⟨j, by omega, by omega⟩, rfl⟩
  have c7 : TCh d e a.store.heap h7 := c6.trans ⟨F.next, fun q hq => hpar q fun j hj =>
    ⟨fun hm => hq (TW.par (hmem j hj) List.mem_cons_self hm),
      fun hm => hq (TW.par (hmem j hj) (List.mem_cons_of_mem _ List.mem_cons_self) hm)⟩⟩
  have hrate : ∀ q, q = e.alpha ∨ q = e.momentum → h6.val q = a.store.heap.val q ∧ h7.val q = h6.val q := fun q hq => by
    obtain ⟨r1, r2, r3, r4, r5, r6, r7⟩ := N.rate_not hq
    refine ⟨V.frame q r1 r2 r3 r4 r5 r6, hpar q fun j hj => ⟨fun hm => ?_, fun hm => ?_⟩⟩
    · have := (N.par_not hj (Or.inl hm)).2.2.2.2.2.2; omega
    · have := (N.par_not hj (Or.inr hm)).2.2.2.2.2.2; omega
  have hx6 : Holds h6 (L 0).oM x := by
    rw [N.net.set.first.1]
    exact H2.kept (by rw [c6.next, c2.next]) fun q hq => V.inp q hq
  have hy6 : Holds h6 e.tM y := H3.kept (by rw [c6.next, c3.next]) fun q hq => V.tgt q hq
  have hpv6 : ∀ pv, HasParams a m pv → List.Forall₂ (List.Forall₂ (Holds h6)) (parsFrom L 0 ds.length) pv := fun pv hp => by
    rw [A.params N] at hp
    refine forall₂_kept (le_of_eq c6.next.symm) (fun p hp z hz q hq => ?_) hp
    obtain ⟨k, hk, hz⟩ := mem_parsFrom hp hz
    obtain ⟨r1, r2, r3, r4, r5, r6, _⟩ := N.par_not hk (q := q) (by rcases hz with rfl | rfl <;> simp [hq])
    exact V.frame q r1 r2 r3 r4 r5 r6
  refine ⟨h7, ?_, c7, ⟨?_, ?_⟩, fun pv hp => ?_, fun pv hp => ?_⟩
  · have : wp True (NetM.execFit m tx ty) (fun _ w => w = atHeap a h7) a := by
      unfold NetM.execFit
      refine wp_bind (wp_net ?_)
      refine wp_bind (wp_run n6 (fun _ => ⟨_, e1⟩) fun h' e' => ?_)
      rw [e1] at e'; cases e'
      refine wp_bind (wp_deref n1 ?_)
      refine wp_bind (wp_of_ok e2 ?_)
      refine wp_bind (wp_deref n2 ?_)
      refine wp_bind (wp_of_ok e3 ?_)
      refine wp_bind (wp_run n3 (fun _ => ⟨_, e4⟩) fun h' e' => ?_)
      rw [show exec d.ops h3 = _ from e4] at e'; cases e'
      refine wp_bind (wp_run n4 (fun _ => ⟨_, e5⟩) fun h' e' => ?_)
      rw [show exec e.cd h4 = _ from e5] at e'; cases e'
      refine wp_bind (wp_run n5 (fun _ => ⟨_, e6⟩) fun h' e' => ?_)
      rw [show exec e.bp h5 = _ from e6] at e'; cases e'
      refine wp_bind (wp_deref n7 ?_)
      refine wp_bind (wp_of_ok (r := a.layerNext + 1) rfl ?_)
      exact wp_of_ok e7 rfl
    obtain ⟨_, w', r1, r2⟩ := wp_total this
    rw [r1, r2]
  · rw [(hrate _ (Or.inl rfl)).2, (hrate _ (Or.inl rfl)).1]
  · rw [(hrate _ (Or.inr rfl)).2, (hrate _ (Or.inr rfl)).1]
  · have O := TRes.out N.stat (w := atHeap a h6) (A6.ready N) V ds.length 0 (by omega) x pv hx6 (hpv6 pv hp)
    rw [hpar _ fun j hj => ⟨fun hm => ?_, fun hm => ?_⟩, V.loss]
    · rw [absLoss_eq hy6 (o := netFn (ds.map dl) pv x) (by simpa using O) N.stat.tshape]
    · have := (N.par_not hj (Or.inl hm)).2.2.2.2.2.2; omega
    · have := (N.par_not hj (Or.inr hm)).2.2.2.2.2.2; omega
  · have hz6 : Holds h6 (L 0).nM x := by
      rw [N.net.set.first.2.1, ← N.net.set.first.1]; exact hx6
    have R := TRes.spec N.stat (w := atHeap a h6) (A6.ready N) (A6.tlay N) N.net.act V F hy6 ds.length 0 (by omega) x x pv hx6 hz6 (hpv6 pv hp) _ rfl
    rw [(A.change N c7).params N]
    have := R.2
    rw [show (atHeap a h6).store.heap.val e.alpha = _ from (hrate _ (Or.inl rfl)).1,
      show (atHeap a h6).store.heap.val e.momentum = _ from (hrate _ (Or.inr rfl)).1, trainNet_fst _ _ _ _ _ _ _ _ x _
        (Activation.linear : Activation T).derive] at this
    rw [List.range_eq_range']
    exact this

end
end Godeep
