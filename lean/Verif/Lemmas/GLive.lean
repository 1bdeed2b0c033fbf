import Verif.Lemmas.GNet
import Verif.Lemmas.TrainOne
/-
  Sequential networks of any layers through any number of training steps.
-/
set_option linter.unusedSectionVars false

namespace Godeep
open Spec GoNum

variable {T : Type} [GoNum T]

section
variable {shape : List Nat} {ls : List (LSpec T)} {m : Nat} {d : CData T} {w0 w1 : World T}

theorem MadeF.ref (M : Made w0 w1 m shape ls d) {k : Nat} (hk : k ≤ ls.length) {q : Ptr} (hq : q = (w1.layers (d.b + k)).ref) :
    w0.store.heap.next ≤ q ∧ q < d.lo ∧ q ∉ d.inM.ops ∧ q ∉ dsts d.ops ∧ ∀ p ∈ d.ps, ∀ y ∈ p, q ∉ y.ops := by
  subst hq
  obtain ⟨_, _, _, _, h5, h6, h7, h8⟩ := M.flags k hk
  have C := M.comp
  have := C.hi
  refine ⟨h8, h5, h6, fun h => ?_, fun p hp y hy h => ?_⟩
  · rcases C.stage.dst _ h with h | h
    · omega
    · exact h7 h
  · have := C.stage.par p hp y hy _ h; omega

theorem gpre_step (M : Made w0 w1 m shape ls d) {a b : World T} (P : Pre w0 w1 m ls.length d a) (s : Step w0 w1 m a b) :
    Pre w0 w1 m ls.length d b := by
  have hb := live_step M P.live s
  have hhi := M.comp.hi
  cases s with
  | use s =>
    have t := touch_use M P.live s
    refine ⟨hb, fun l h1 h2 => (t.layers l).trans (P.lay l h1 h2), t.nets.trans P.net, fun k hk => ?_⟩
    obtain ⟨r1, r2, r3, r4, r5⟩ := M.ref hk rfl
    rw [t.val _ (lt_of_lt_of_le (by omega) P.live.ext.next) r3 r4 r5, P.ref k hk]
  | elsewhere h1 h2 h0 h3 h4 h5 h6 h7 =>
    refine ⟨hb, fun l l1 l2 => by rw [h5 l l1 l2, P.lay l l1 l2], h6.trans P.net, fun k hk => ?_⟩
    obtain ⟨r1, r2, _⟩ := M.ref hk rfl
    rw [h7 _ (by rintro (h | h) <;> omega), P.ref k hk]

theorem gpre_steps (M : Made w0 w1 m shape ls d) {a : World T} (s : Steps w0 w1 m w1 a) : Pre w0 w1 m ls.length d a := by
  have h0 : Pre w0 w1 m ls.length d w1 :=
    ⟨⟨Ext.refl _, fun _ _ _ => rfl, rfl, M.comp.kept, le_refl _⟩, fun _ _ _ => rfl, rfl, fun _ _ => rfl⟩
  generalize hw : w1 = w at s h0
  revert h0
  induction s with
  | none => subst hw; exact fun h => h
  | more _ h2 ih => subst hw; exact fun h0 => gpre_step M (ih h0) h2

theorem MadeF.range (M : Made w0 w1 m shape ls d) {k : Nat} (hk : k ≤ ls.length) : w0.layerNext ≤ d.b + k ∧ d.b + k < w1.layerNext := by
  have h1 := M.base
  have h2 := M.next
  omega

end

/-- the scalars that training writes -/
structure GTW (d : CData T) (e : GData T) (q : Ptr) : Prop where
  w : q ∈ d.inM.ops ∨ q ∈ e.tM.ops ∨ q ∈ dsts d.ops ∨ q ∈ dsts e.cd ∨ q ∈ dsts e.bp ∨ q ∈ dsts e.rf ∨ q = e.alpha ∨ q = e.momentum ∨
    ∃ p ∈ d.ps, ∃ y ∈ p, q ∈ y.ops

theorem GTW.par {d : CData T} {e : GData T} {q : Ptr} {p : List Mat} {y : Mat} (hp : p ∈ d.ps) (hy : y ∈ p) (hq : q ∈ y.ops) : GTW d e q := by
  constructor
  iterate 8 right
  exact ⟨p, hp, y, hy, hq⟩

/-- a state after any number of steps after `CompileBackPropagation` -/
structure GLive (w0 w1 wa wb : World T) (m N : Nat) (d : CData T) (e : GData T) (a : World T) : Prop where
  live : Live w0 w1 m d a
  ext : Ext wb a
  lay : ∀ l, w0.layerNext ≤ l → l < w1.layerNext → (a.layers l).tr = (wb.layers l).tr
  net : a.nets m = wb.nets m
  same : ∀ q, wa.store.heap.next ≤ q → q < wb.store.heap.next → ¬ GTW d e q → a.store.heap.val q = wb.store.heap.val q
  ref : ∀ k ≤ N, a.store.heap.val (w1.layers (d.b + k)).ref = w1.store.heap.val (w1.layers (d.b + k)).ref

/-- a network prepared for training -/
structure GTNet (shape : List Nat) (ls : List (LSpec T)) (m : Nat) (d : CData T) (L : Nat → GLayer) (e : GData T) (w0 w1 wa wb : World T) : Prop where
  net : GNet shape ls m d L w0 w1
  pre : Pre w0 w1 m ls.length d wa
  built : GBuilt shape ls m d.b L .linear e wa wb
  can : CanLearn shape ls

/-- the last changes that the model keeps -/
structure GMom (ls : List (LSpec T)) (e : GData T) (a : World T) (mv : List (List (STensor T))) : Prop where
  len : mv.length = ls.length
  val : ∀ j < ls.length, List.Forall₂ (Holds a.store.heap) (e.mbs j) (mv.getD j [])

section
variable {shape : List Nat} {ls : List (LSpec T)} {m : Nat} {d : CData T} {L : Nat → GLayer} {e : GData T} {w0 w1 wa wb a : World T}

theorem GNet.later (G : GNet shape ls m d L w0 w1) (P : Pre w0 w1 m ls.length d a) : GAt shape ls d.b L .linear d.lo a :=
  G.dat.later P.live.ext (fun k hk => Layer.fwd_of_tr (P.lay _ (G.made.range hk).1 (G.made.range hk).2)) P.ref

/-- the state before `CompileBackPropagation` -/
theorem GNet.gin (G : GNet shape ls m d L w0 w1) (K : CanLearn shape ls) (P : Pre w0 w1 m ls.length d a) :
    GIn shape ls m d.b L .linear d.lo a := by
  have C := P.live.comp G.made
  have hl : ∀ k ≤ ls.length, (a.layers (d.b + k)).tr = (w1.layers (d.b + k)).tr := fun k hk => P.lay _ (G.made.range hk).1 (G.made.range hk).2
  refine ⟨G.later P, G.sep, K.bpf, K.hz, ?_, C.last, by rw [C.output, G.out.1], fun j hj => ?_, fun j hj => ?_, ?_⟩
  · rw [G.out.2, C.oshape]; exact K.szp
  · exact (congrArg Layer.bp (hl j hj) :).trans (G.fresh j hj).1
  · exact (congrArg Layer.der (hl j hj) :).trans (G.fresh j hj).2.1
  · have h1 := (G.made.range (le_refl ls.length)).2
    have := P.live.layerNext
    omega

theorem GNet.gtnet (G : GNet shape ls m d L w0 w1) (K : CanLearn shape ls) (P : Pre w0 w1 m ls.length d wa) :
    ∃ e wb, NetM.compileBP m wa = .ok () wb ∧ GTNet shape ls m d L e w0 w1 wa wb := by
  obtain ⟨_, wb, h1, e, B⟩ := wp_total (gcompileBP_ok (G.gin K P))
  exact ⟨e, wb, h1, G, P, B, K⟩

theorem GTNet.hi (N : GTNet shape ls m d L e w0 w1 wa wb) : d.lo ≤ d.hi ∧ d.hi ≤ wa.store.heap.next := (N.pre.live.comp N.net.made).hi

theorem GTNet.dif (N : GTNet shape ls m d L e w0 w1 wa wb) {j : Nat} (hj : j ≤ ls.length) {q : Ptr} (hq : q ∈ (L j).dM.ops) :
    d.lo ≤ q ∧ q < d.hi := ⟨N.net.sep.low j hj q hq, (N.net.apart j hj q hq).1⟩

theorem GTNet.ff_dst (N : GTNet shape ls m d L e w0 w1 wa wb) {q : Ptr} (hq : q ∈ dsts d.ops) : q < wa.store.heap.next ∧ q ∉ d.inM.ops := by
  have C := N.net.made.comp
  have := N.hi
  rcases C.stage.dst q hq with h | h
  · exact ⟨by omega, fun h' => by have := C.inlt q h'; omega⟩
  · exact ⟨by have := (C.own q h).1; omega, (C.own q h).2⟩

theorem GTNet.cd_dst (N : GTNet shape ls m d L e w0 w1 wa wb) {q : Ptr} (hq : q ∈ dsts e.cd) :
    q ∈ (L ls.length).dM.ops ∨ (e.la ≤ q ∧ q ≤ e.loss) := by
  have := N.built.cells
  rcases N.built.cdone.dst q hq with h | h
  · exact Or.inl h
  · exact Or.inr ⟨h.1, by omega⟩

theorem GTNet.bp_dst (N : GTNet shape ls m d L e w0 w1 wa wb) {q : Ptr} (hq : q ∈ dsts e.bp) :
    (∃ j, j < ls.length ∧ q ∈ (L j).dM.ops) ∨ (e.lx ≤ q ∧ q < e.ly) := by
  obtain ⟨wx, wy, B, e1, e2, _⟩ := N.built.bp
  rcases B.dst q hq with h | h
  · exact Or.inr (by rw [← e1, ← e2]; exact h)
  · exact Or.inl h

theorem GTNet.rf_dst (N : GTNet shape ls m d L e w0 w1 wa wb) {q : Ptr} (hq : q ∈ dsts e.rf) :
    ∃ j ≤ ls.length, q ∈ (L j).dM.ops := by
  obtain ⟨_, _, R, _, _⟩ := N.built.rf
  exact R.dst q hq

theorem GTNet.mem_ps (N : GTNet shape ls m d L e w0 w1 wa wb) {j : Nat} (hj : j < ls.length) : (L (j + 1)).ps ∈ d.ps := by
  rw [N.net.ps]
  exact List.mem_map.2 ⟨j, List.mem_range.2 hj, rfl⟩

theorem GTNet.of_ps (N : GTNet shape ls m d L e w0 w1 wa wb) {p : List Mat} (hp : p ∈ d.ps) : ∃ j < ls.length, p = (L (j + 1)).ps := by
  rw [N.net.ps] at hp
  obtain ⟨j, hj, rfl⟩ := List.mem_map.1 hp
  exact ⟨j, List.mem_range.1 hj, rfl⟩

/-- what training writes is part of the model or of the training graphs -/
theorem GTNet.inside (N : GTNet shape ls m d L e w0 w1 wa wb) {q : Ptr} (h : GTW d e q) :
    ¬ Outside2 w0 w1 wa wb q ∧ q < wb.store.heap.next := by
  have M := N.net.made
  have x1 : w1.store.heap.next ≤ wb.store.heap.next := (N.pre.live.ext.trans N.built.wide.ext).next
  have in1 : ¬ Outside w0 w1 q → ¬ Outside2 w0 w1 wa wb q ∧ q < wb.store.heap.next := fun h => by
    refine ⟨fun ho => h ho.1, ?_⟩
    by_contra hc
    exact h (Or.inr (by omega))
  have in2 : wa.store.heap.next ≤ q → q < wb.store.heap.next → ¬ Outside2 w0 w1 wa wb q ∧ q < wb.store.heap.next := fun h1 h2 => by
    refine ⟨fun ho => ?_, h2⟩
    rcases ho.2 with h | h <;> omega
  obtain ⟨c1, c2, c3, c4⟩ := N.built.cells
  obtain ⟨l1, l2, l3⟩ := N.built.le
  rcases h.w with h | h | h | h | h | h | h | h | ⟨p, hp, y, hy, h⟩
  · exact in1 (M.inside_in h)
  · have := N.built.treg q h
    exact in2 (by omega) (by omega)
  · exact in1 (M.inside_dst h)
  · rcases N.cd_dst h with h | h
    · exact in1 (M.inside (N.dif (le_refl _) h).1 (N.dif (le_refl _) h).2)
    · exact in2 (by omega) (by omega)
  · rcases N.bp_dst h with ⟨j, hj, h⟩ | h
    · exact in1 (M.inside (N.dif hj.le h).1 (N.dif hj.le h).2)
    · exact in2 (by omega) (by omega)
  · obtain ⟨j, hj, h⟩ := N.rf_dst h
    exact in1 (M.inside (N.dif hj h).1 (N.dif hj h).2)
  · exact in2 (by omega) (by omega)
  · exact in2 (by omega) (by omega)
  · exact in1 (M.inside_par hp hy h)

/-- the scalars that the graphs of a training step do not write -/
structure GNot (d : CData T) (e : GData T) (q : Ptr) : Prop where
  inp : q ∉ d.inM.ops
  tgt : q ∉ e.tM.ops
  ff : q ∉ dsts d.ops
  cd : q ∉ dsts e.cd
  bp : q ∉ dsts e.bp
  rf : q ∉ dsts e.rf

/-- a weight or a bias is not written before `Fit` -/
theorem GTNet.par_not (N : GTNet shape ls m d L e w0 w1 wa wb) {p : List Mat} (hp : p ∈ d.ps) {y : Mat} (hy : y ∈ p) {q : Ptr} (hq : q ∈ y.ops) :
    GNot d e q ∧ d.lo ≤ q ∧ q < wa.store.heap.next ∧ ∀ j ≤ ls.length, q ∉ (L j).dM.ops := by
  have C := N.net.made.comp
  obtain ⟨h1, h2, h3⟩ := C.stage.par p hp y hy q hq
  have := N.hi
  obtain ⟨c1, c2, c3, c4⟩ := N.built.cells
  obtain ⟨l1, l2, l3⟩ := N.built.le
  have hd : ∀ j ≤ ls.length, q ∉ (L j).dM.ops := fun j hj hm => by
    obtain ⟨k, hk, rfl⟩ := N.of_ps hp
    exact (N.net.sep.par j hj q hm k _ (List.getElem?_eq_getElem hk)).2.1 y hy hq
  refine ⟨⟨fun h => ?_, fun h => ?_, h3, fun h => ?_, fun h => ?_, fun h => ?_⟩, h1, by omega, hd⟩
  · have := C.inlt q h; omega
  · have := N.built.treg q h; omega
  · rcases N.cd_dst h with h | h
    · exact hd _ (le_refl _) h
    · omega
  · rcases N.bp_dst h with ⟨j, hj, h⟩ | h
    · exact hd _ hj.le h
    · omega
  · obtain ⟨j, hj, h⟩ := N.rf_dst h
    exact hd j hj h

/-- the rates are not written by the graphs -/
theorem GTNet.rate_not (N : GTNet shape ls m d L e w0 w1 wa wb) {q : Ptr} (hq : q = e.alpha ∨ q = e.momentum) :
    GNot d e q ∧ wa.store.heap.next ≤ q ∧ q < e.lx := by
  obtain ⟨c1, c2, c3, c4⟩ := N.built.cells
  obtain ⟨l1, l2, l3⟩ := N.built.le
  have hib := N.hi
  have hr : e.loss < q ∧ q < e.lx := by rcases hq with h | h <;> omega
  have hd : ∀ j ≤ ls.length, q ∉ (L j).dM.ops := fun j hj h => by have := N.dif hj h; omega
  refine ⟨⟨fun h => ?_, fun h => ?_, fun h => ?_, fun h => ?_, fun h => ?_, fun h => ?_⟩, by omega, hr.2⟩
  · have h1 := N.net.made.comp.inlt q h
    omega
  · have := N.built.treg q h; omega
  · have := (N.ff_dst h).1; omega
  · rcases N.cd_dst h with h | h
    · exact hd _ (le_refl _) h
    · omega
  · rcases N.bp_dst h with ⟨j, hj, h⟩ | h
    · exact hd _ hj.le h
    · omega
  · obtain ⟨j, hj, h⟩ := N.rf_dst h
    exact hd j hj h

/-- training writes no counter -/
theorem GTNet.ref_not (N : GTNet shape ls m d L e w0 w1 wa wb) {k : Nat} (hk : k ≤ ls.length) : ¬ GTW d e (w1.layers (d.b + k)).ref := by
  obtain ⟨r1, r2, r3, r4, r5⟩ := N.net.made.ref hk rfl
  obtain ⟨c1, c2, c3, c4⟩ := N.built.cells
  obtain ⟨l1, l2, l3⟩ := N.built.le
  have hib := N.hi
  have hd : ∀ j ≤ ls.length, (w1.layers (d.b + k)).ref ∉ (L j).dM.ops := fun j hj h => by have := N.dif hj h; omega
  intro h
  rcases h.w with h | h | h | h | h | h | h | h | ⟨p, hp, y, hy, h⟩
  · exact r3 h
  · have := N.built.treg _ h; omega
  · exact r4 h
  · rcases N.cd_dst h with h | h
    · exact hd _ (le_refl _) h
    · omega
  · rcases N.bp_dst h with ⟨j, hj, h⟩ | h
    · exact hd j hj.le h
    · omega
  · obtain ⟨j, hj, h⟩ := N.rf_dst h
    exact hd j hj h
  · omega
  · omega
  · exact r5 p hp y hy h

/-- training writes no constant of the feed-forward pass -/
theorem GTNet.const_not (N : GTNet shape ls m d L e w0 w1 wa wb) {q : Ptr} {c : T} (hK : d.K q c) : ¬ GTW d e q := by
  obtain ⟨k1, k2, k3, k4⟩ := N.net.made.comp.stage.keep q c hK
  obtain ⟨c1, c2, c3, c4⟩ := N.built.cells
  obtain ⟨l1, l2, l3⟩ := N.built.le
  have hib := N.hi
  have hd : ∀ j ≤ ls.length, q ∉ (L j).dM.ops := fun j hj h => (N.net.apart j hj q h).2.2 c hK
  intro h
  rcases h.w with h | h | h | h | h | h | h | h | ⟨p, hp, y, hy, h⟩
  · have := N.net.made.comp.inlt q h; omega
  · have := N.built.treg _ h; omega
  · exact k3 h
  · rcases N.cd_dst h with h | h
    · exact hd _ (le_refl _) h
    · omega
  · rcases N.bp_dst h with ⟨j, hj, h⟩ | h
    · exact hd j hj.le h
    · omega
  · obtain ⟨j, hj, h⟩ := N.rf_dst h
    exact hd j hj h
  · omega
  · omega
  · exact k4 p hp y hy h

/-- the scalars of the training graphs are only written by back-propagation -/
theorem GTNet.high_not (N : GTNet shape ls m d L e w0 w1 wa wb) {q : Ptr} (q1 : e.lx ≤ q) (q2 : q ∉ dsts e.bp) : GNot d e q ∧ ¬ GTW d e q := by
  obtain ⟨c1, c2, c3, c4⟩ := N.built.cells
  obtain ⟨l1, l2, l3⟩ := N.built.le
  have hib := N.hi
  have hd : ∀ j ≤ ls.length, q ∉ (L j).dM.ops := fun j hj h => by have := N.dif hj h; omega
  have X : GNot d e q := by
    refine ⟨fun h => ?_, fun h => ?_, fun h => ?_, fun h => ?_, q2, fun h => ?_⟩
    · have := N.net.made.comp.inlt q h; omega
    · have := N.built.treg _ h; omega
    · have := (N.ff_dst h).1; omega
    · rcases N.cd_dst h with h | h
      · exact hd _ (le_refl _) h
      · omega
    · obtain ⟨j, hj, h⟩ := N.rf_dst h
      exact hd j hj h
  refine ⟨X, fun h => ?_⟩
  rcases h.w with h | h | h | h | h | h | h | h | ⟨p, hp, y, hy, h⟩
  · exact X.inp h
  · exact X.tgt h
  · exact X.ff h
  · exact X.cd h
  · exact X.bp h
  · exact X.rf h
  · omega
  · omega
  · have := (N.par_not hp hy h).2.2.1; omega

theorem GTNet.start (N : GTNet shape ls m d L e w0 w1 wa wb) : GLive w0 w1 wa wb m ls.length d e wb := by
  have P := N.pre
  have B := N.built
  have hib := N.hi
  refine ⟨⟨P.live.ext.trans B.wide.ext, fun l h1 h2 => (B.fwd l).trans (P.live.layers l h1 h2), ?_, fun q c h => ?_, ?_⟩,
    Ext.refl _, fun _ _ _ => rfl, rfl, fun q h1 h2 _ => rfl, fun k hk => ?_⟩
  · rw [B.net]; exact P.live.nets
  · rw [B.wide.val q (by have := N.net.made.comp.stage.keep q c h; omega)]
    exact P.live.kept q c h
  · rw [B.wide.layerNext]; exact P.live.layerNext
  · rw [B.wide.val _ (by have := (N.net.made.ref hk rfl).2.1; omega)]
    exact P.ref k hk

/-- only the heap changed, and only where training writes -/
structure GCh (d : CData T) (e : GData T) (h h' : Heap T) : Prop where
  next : h'.next = h.next
  val : ∀ q, ¬ GTW d e q → h'.val q = h.val q

theorem GCh.refl (d : CData T) (e : GData T) (h : Heap T) : GCh d e h h := ⟨rfl, fun _ _ => rfl⟩

theorem GCh.trans {d : CData T} {e : GData T} {h1 h2 h3 : Heap T} (a : GCh d e h1 h2) (b : GCh d e h2 h3) : GCh d e h1 h3 :=
  ⟨b.next.trans a.next, fun q hq => (b.val q hq).trans (a.val q hq)⟩

theorem GTNet.sample (N : GTNet shape ls m d L e w0 w1 wa wb) {t : Nat} {x : STensor T} {h : Heap T}
    (s : Sample w0 w1 wa wb a t x) (c : GCh d e a.store.heap h) : Sample w0 w1 wa wb (atHeap a h) t x :=
  ⟨s.1, s.2.1.kept (le_of_eq c.next.symm) fun q hq => c.val q fun hw => (N.inside hw).1 (s.2.2 q hq), s.2.2⟩

theorem GLive.change (N : GTNet shape ls m d L e w0 w1 wa wb) (A : GLive w0 w1 wa wb m ls.length d e a) {h : Heap T}
    (c : GCh d e a.store.heap h) : GLive w0 w1 wa wb m ls.length d e (atHeap a h) := by
  have x : Ext a (atHeap a h) := ext_of_eq (le_of_eq c.next.symm) rfl rfl
  refine ⟨⟨A.live.ext.trans x, A.live.layers, A.live.nets, fun q v hK => ?_, A.live.layerNext⟩, A.ext.trans x, A.lay, A.net,
    fun q h1 h2 h3 => ?_, fun k hk => ?_⟩
  · rw [show (atHeap a h).store.heap.val q = _ from c.val q (N.const_not hK)]
    exact A.live.kept q v hK
  · rw [show (atHeap a h).store.heap.val q = _ from c.val q h3]
    exact A.same q h1 h2 h3
  · rw [show (atHeap a h).store.heap.val _ = _ from c.val _ (N.ref_not hk)]
    exact A.ref k hk

theorem GLive.at (N : GTNet shape ls m d L e w0 w1 wa wb) (A : GLive w0 w1 wa wb m ls.length d e a) : GAt shape ls d.b L .linear d.lo a :=
  N.net.dat.later A.live.ext (fun _ hk => A.live.layers _ (N.net.made.range hk).1 (N.net.made.range hk).2) A.ref

theorem GLive.params (N : GTNet shape ls m d L e w0 w1 wa wb) (A : GLive w0 w1 wa wb m ls.length d e a) {pv : List (List (STensor T))} :
    HasParams a m pv ↔ List.Forall₂ (List.Forall₂ (Holds a.store.heap)) d.ps pv := A.live.hasParams N.net.made

theorem GLive.sameNet (N : GTNet shape ls m d L e w0 w1 wa wb) (A : GLive w0 w1 wa wb m ls.length d e a) :
    (a.nets m).input = some d.inp ∧ (a.nets m).target = some e.tgt ∧ (a.nets m).ff = some d.ops ∧ (a.nets m).calDif = some e.cd ∧
    (a.nets m).bp = some e.bp ∧ (a.nets m).resetFit = some e.rf ∧ (a.nets m).last = some (d.b + ls.length) ∧ (a.nets m).loss = e.loss ∧
    (a.nets m).alpha = e.alpha ∧ (a.nets m).momentum = e.momentum := by
  have C := A.live.comp N.net.made
  refine ⟨C.input, ?_, C.ff, ?_, ?_, ?_, C.last, ?_, ?_, ?_⟩ <;> rw [A.net, N.built.net]

theorem GTNet.fine (N : GTNet shape ls m d L e w0 w1 wa wb) :
    (∀ o ∈ e.rf, Fine o) ∧ (∀ o ∈ e.cd, Fine o) ∧ (∀ o ∈ e.bp, Fine o) ∧ ∀ o ∈ d.ops, Fine o := by
  obtain ⟨_, _, R, _, _⟩ := N.built.rf
  obtain ⟨_, _, B, _, _⟩ := N.built.bp
  refine ⟨R.fine, N.built.cdone.fine, B.fine (fun j s hs => ?_) N.can.safe N.can.dv, N.net.made.comp.stage.fine N.can.safe⟩
  rw [N.net.dat.shape j (List.getElem?_eq_some_iff.1 hs).1.le]
  exact N.can.bps j s hs

theorem GLive.tgt (N : GTNet shape ls m d L e w0 w1 wa wb) (A : GLive w0 w1 wa wb m ls.length d e a) : Ready a e.tgt e.tM :=
  N.built.rt.ext A.ext

theorem GTNet.tShape (N : GTNet shape ls m d L e w0 w1 wa wb) : e.tM.shape = outShapes ls shape := by
  rw [N.built.tshape, N.net.out.2, N.net.made.comp.oshape]

end
end Godeep
