import Verif.Lemmas.GFit
import Verif.Lemmas.TrainRun
/-
  `TrainOne` and `Train` of a sequential network of any layers.
-/
set_option linter.unusedSectionVars false

namespace Godeep
open Spec GoNum

variable {T : Type} [GoNum T]

section
variable {shape : List Nat} {ls : List (LSpec T)} {m : Nat} {d : CData T} {L : Nat → GLayer} {e : GData T} {w0 w1 wa wb a : World T}

theorem GTNet.mom_reg (N : GTNet shape ls m d L e w0 w1 wa wb) {j : Nat} (hj : j < ls.length) {z : Mat} (hz : z ∈ e.mbs j) {q : Ptr} (hq : q ∈ z.ops) :
    e.lx ≤ q ∧ q < e.ly := by
  obtain ⟨wx, wy, B, y1, y2, _⟩ := N.built.bp
  obtain ⟨g, h⟩ := B.mom j hj z hz
  rw [← y1, ← y2]
  exact ⟨(h q hq).1, (g.valid q hq).2⟩

/-- the momenta are kept -/
theorem GMom.kept (N : GTNet shape ls m d L e w0 w1 wa wb) {b : World T} {mv : List (List (STensor T))} (G : GMom ls e a mv)
    (hn : a.store.heap.next ≤ b.store.heap.next) (hv : ∀ q, e.lx ≤ q → q < e.ly → b.store.heap.val q = a.store.heap.val q) : GMom ls e b mv :=
  ⟨G.len, fun j hj => forall₂_kept1 (G.val j hj) hn fun _ hz q hq => hv q (N.mom_reg hj hz hq).1 (N.mom_reg hj hz hq).2⟩

theorem noChange_get : ∀ (ls : List (LSpec T)) (shape : List Nat), (noChange ls shape).length = ls.length ∧ ∀ j s, ls[j]? = some s →
    (noChange ls shape).getD j [] = (s.momShapes (outShapes (ls.take j) shape)).map fun r => ⟨r, fun _ => zero⟩
  | [], _ => ⟨rfl, fun j s h => by simp at h⟩
  | l :: ls, s => by
    obtain ⟨h1, h2⟩ := noChange_get ls (l.outShape s)
    refine ⟨by simp [noChange, h1], fun j u hj => ?_⟩
    cases j with
    | zero =>
      simp only [List.getElem?_cons_zero, Option.some.injEq] at hj
      subst hj; rfl
    | succ j =>
      rw [List.getElem?_cons_succ] at hj
      have := h2 j u hj
      simpa [noChange, outShapes] using this

theorem GTNet.mom0 (N : GTNet shape ls m d L e w0 w1 wa wb) : GMom ls e wb (noChange ls shape) := by
  obtain ⟨n1, n2⟩ := noChange_get ls shape
  obtain ⟨wx, wy, B, y1, y2, y3, y4, y5, y6⟩ := N.built.bp
  refine ⟨n1, fun j hj => ?_⟩
  obtain ⟨s, hs⟩ : ∃ s, ls[j]? = some s := ⟨_, List.getElem?_eq_getElem hj⟩
  have ms := B.mshape j s hj hs
  rw [N.net.dat.shape j hj.le] at ms
  rw [n2 j s hs, ← ms, List.map_map]
  have : ∀ l : List Mat, (∀ z ∈ l, z ∈ e.mbs j) → List.Forall₂ (Holds wb.store.heap) l (l.map ((fun r => (⟨r, fun _ => zero⟩ : STensor T)) ∘ Mat.shape)) := by
    intro l
    induction l with
    | nil => exact fun _ => .nil
    | cons z l ih =>
      intro hl
      refine .cons ?_ (ih fun u hu => hl u (List.mem_cons_of_mem _ hu))
      obtain ⟨g, h⟩ := B.mom j hj z (hl z List.mem_cons_self)
      have g' : GoodMat wb.store.heap z := g.mono y6.ext.next
      refine holds_of_cell g' rfl fun idx hi => ?_
      have hm := cell_mem g' hi
      rw [y6.val _ (g.valid _ hm).2, (h _ hm).2]
      rfl
  exact this _ fun _ h => h

/-- `ExecFit` with a sample of the right shapes -/
structure GFitted (ls : List (LSpec T)) (m : Nat) (d : CData T) (e : GData T) (x y : STensor T) (a : World T) (h' : Heap T) : Prop where
  ch : GCh d e a.store.heap h'
  rates : h'.val e.alpha = a.store.heap.val e.alpha ∧ h'.val e.momentum = a.store.heap.val e.momentum
  loss : ∀ pv, HasParams a m pv → h'.val e.loss = absLoss y (netFn ls pv x)
  par : ∀ pv mv, HasParams a m pv → GMom ls e a mv → HasParams (atHeap a h') m (learnStep (a.store.heap.val e.alpha) (a.store.heap.val e.momentum) ls
    (flagsOf d ls.length a) (pv, mv) x y).1 ∧ GMom ls e (atHeap a h') (learnStep (a.store.heap.val e.alpha) (a.store.heap.val e.momentum) ls
    (flagsOf d ls.length a) (pv, mv) x y).2

theorem learned_of {s : LSpec T} (h : s.weighted = false) (al mu : T) (p mm : List (STensor T)) (dd r x : STensor T) :
    s.learned al mu p mm dd r x = p := by
  cases s <;> first | rfl | cases h

theorem GTNet.execFit (N : GTNet shape ls m d L e w0 w1 wa wb) (A : GLive w0 w1 wa wb m ls.length d e a) {tx ty : Nat} {x y : STensor T}
    (sx : Sample w0 w1 wa wb a tx x) (sy : Sample w0 w1 wa wb a ty y) (hx : x.shape = shape) (hy : y.shape = outShapes ls shape) (hM : ∃ mv, GMom ls e a mv) :
    ∃ h', NetM.execFit m tx ty a = .ok () (atHeap a h') ∧ GFitted ls m d e x y a h' := by
  obtain ⟨n1, n2, n3, n4, n5, n6, n7, n8, n9, n10⟩ := A.sameNet N
  obtain ⟨f1, f2, f3, f0⟩ := N.fine
  have C := A.live.comp N.net.made
  have hw : ∀ {q}, GTW d e q → ∀ {t : Nat} {z : STensor T}, Sample w0 w1 wa wb a t z → q ∉ (a.store.nodes t).mat.ops :=
    fun hq _ _ s hm => (N.inside hq).1 (s.2.2 _ hm)
  -- reset
  obtain ⟨h1, e1⟩ := exec_fine e.rf a.store.heap f1
  have g1 := exec_frame e1
  have c1 : GCh d e a.store.heap h1 := ⟨g1.1, fun q hq => g1.2 q fun hm => hq ⟨by simp [hm]⟩⟩
  have A1 := A.change N c1
  -- input
  obtain ⟨h2, e2, H2, m2, v2⟩ := loadFrom_ok (w := atHeap a h1) (A1.live.comp N.net.made).rin C.nodup (N.sample sx c1).2.1
    (by rw [hx, C.ishape]) fun q hq hm => hw ⟨Or.inl hm⟩ sx hq
  have c2 : GCh d e a.store.heap h2 := c1.trans ⟨m2, fun q hq => v2 q fun hm => hq ⟨by simp [hm]⟩⟩
  have A2 := A.change N c2
  -- target
  obtain ⟨h3, e3, H3, m3, v3⟩ := loadFrom_ok (w := atHeap a h2) (A2.tgt N) N.built.tnd (N.sample sy c2).2.1
    (by rw [hy, N.tShape]) fun q hq hm => hw ⟨by simp [hm]⟩ sy hq
  have c3 : GCh d e a.store.heap h3 := c2.trans ⟨m3, fun q hq => v3 q fun hm => hq ⟨by simp [hm]⟩⟩
  -- graphs
  obtain ⟨h4, e4⟩ := exec_fine d.ops h3 f0
  have g4 := exec_frame e4
  have c4 : GCh d e a.store.heap h4 := c3.trans ⟨g4.1, fun q hq => g4.2 q fun hm => hq ⟨by simp [hm]⟩⟩
  obtain ⟨h5, e5⟩ := exec_fine e.cd h4 f2
  have g5 := exec_frame e5
  have c5 : GCh d e a.store.heap h5 := c4.trans ⟨g5.1, fun q hq => g5.2 q fun hm => hq ⟨by simp [hm]⟩⟩
  obtain ⟨h6, e6⟩ := exec_fine e.bp h5 f3
  have g6 := exec_frame e6
  have c6 : GCh d e a.store.heap h6 := c5.trans ⟨g6.1, fun q hq => g6.2 q fun hm => hq ⟨by simp [hm]⟩⟩
  have A6 := A.change N c6
  have fr6 : ∀ q, GNot d e q → h6.val q = a.store.heap.val q := fun q hq => by
    rw [g6.2 q hq.bp, g5.2 q hq.cd, g4.2 q hq.ff, v3 q hq.tgt]
    exact (v2 q hq.inp).trans (g1.2 q hq.rf)
  obtain ⟨k1, k2, k3, k4⟩ := N.built.cells
  obtain ⟨l1, l2, l3⟩ := N.built.le
  have hfl : (flagsOf d ls.length a).length = ls.length := by simp [flagsOf]
  have V : ∀ pv mv, HasParams a m pv → GMom ls e a mv → GRes ls e (flagsOf d ls.length a) pv mv x y (a.store.heap.val e.alpha) (a.store.heap.val e.momentum) h6 :=
    fun pv mv hp hm => N.step (h0 := a.store.heap) A.ext.next e1 m2 v2 H2 m3 v3 H3 e4 e5 e6 A.same A.ref A.live.kept ((A.params N).1 hp) hm.len hm.val hfl
  obtain ⟨h7, e7, F⟩ := (A6.glay N).fit ls.length (a.layerNext + 1) (le_refl _) (by
    have := (N.net.made.range (le_refl ls.length)).2
    have := A.live.layerNext
    omega)
  have hpar : ∀ q, wa.store.heap.next ≤ q → h7.val q = h6.val q := fun q hq => F.frame q fun j hj z hz hm => by
    have := (N.par_not (N.mem_ps hj) hz hm).2.2.1; omega
  have c7 : GCh d e a.store.heap h7 := c6.trans ⟨F.next, fun q hq => F.frame q fun j hj z hz hm => hq (GTW.par (N.mem_ps hj) hz hm)⟩
  have hrate : ∀ q, q = e.alpha ∨ q = e.momentum → h7.val q = a.store.heap.val q := fun q hq => by
    obtain ⟨r, r1, r2⟩ := N.rate_not hq
    rw [hpar q r1, fr6 q r]
  refine ⟨h7, ?_, c7, ⟨hrate _ (Or.inl rfl), hrate _ (Or.inr rfl)⟩, fun pv hp => ?_, fun pv mv hp hm => ?_⟩
  · have : wp True (NetM.execFit m tx ty) (fun _ w => w = atHeap a h7) a := by
      unfold NetM.execFit
      refine wp_bind (wp_net ?_)
      refine wp_bind (wp_run n6 (fun _ => ⟨_, e1⟩) fun h' e' => ?_)
      rw [e1] at e'; cases e'
      refine wp_bind (wp_deref n1 ?_)
      refine wp_bind (wp_of_ok e2 ?_)
      refine wp_bind (wp_deref n2 ?_)
      refine wp_bind (wp_of_ok e3 ?_)
      refine wp_bind (wp_run n3 (fun _ => ⟨_, e4⟩) fun h' e' => ?_)
      rw [show exec d.ops h3 = _ from e4] at e'; cases e'
      refine wp_bind (wp_run n4 (fun _ => ⟨_, e5⟩) fun h' e' => ?_)
      rw [show exec e.cd h4 = _ from e5] at e'; cases e'
      refine wp_bind (wp_run n5 (fun _ => ⟨_, e6⟩) fun h' e' => ?_)
      rw [show exec e.bp h5 = _ from e6] at e'; cases e'
      refine wp_bind (wp_deref n7 ?_)
      refine wp_bind (wp_of_ok (r := a.layerNext + 1) rfl ?_)
      exact wp_of_ok e7 rfl
    obtain ⟨_, w', r1, r2⟩ := wp_total this
    rw [r1, r2]
  · obtain ⟨mv, hm⟩ := hM
    rw [hpar _ (by omega), (V pv mv hp hm).loss]
  · have R := V pv mv hp hm
    have hp' := (A.params N).1 hp
    have hlen : pv.length = ls.length := by
      have := hp'.length_eq
      rw [N.net.ps, List.length_map, List.length_range] at this
      exact this.symm
    obtain ⟨q1, q2⟩ := learn_length (a.store.heap.val e.alpha) (a.store.heap.val e.momentum) y ls (flagsOf d ls.length a) pv mv x
      (x.map (Activation.linear : Activation T).derive) hfl hlen hm.len
    have key := fun j s (hs : ls[j]? = some s) => learnAt_get (al := a.store.heap.val e.alpha) (mu := a.store.heap.val e.momentum) (y := y) (x := x)
      (D0 := x.map (Activation.linear : Activation T).derive) hfl hlen hm.len hs
    refine ⟨?_, q2, fun j hj => ?_⟩
    · rw [(A.change N c7).params N, N.net.ps, List.forall₂_iff_get]
      refine ⟨by rw [List.length_map, List.length_range]; exact q1.symm, fun j hj hj' => ?_⟩
      have hj : j < ls.length := by simpa using hj
      obtain ⟨s, hs⟩ : ∃ s, ls[j]? = some s := ⟨_, List.getElem?_eq_getElem hj⟩
      have e1 := Option.some.inj ((List.getElem?_eq_getElem hj').symm.trans (key j s hs).1)
      have hget : ∀ (hj : j < ((List.range ls.length).map fun k => (L (k + 1)).ps).length),
          ((List.range ls.length).map fun k => (L (k + 1)).ps).get ⟨j, hj⟩ = (L (j + 1)).ps := fun hj => by simp
      rw [hget]
      refine Eq.mpr (congrArg (List.Forall₂ (Holds h7) (L (j + 1)).ps) e1) ?_
      have hold : List.Forall₂ (Holds a.store.heap) (L (j + 1)).ps (pv.getD j []) := by
        rw [N.net.ps, List.forall₂_iff_get] at hp'
        have := hp'.2 j (by simpa using hj) (by omega)
        rw [hget] at this
        rw [List.getD_eq_getElem _ _ (by omega)]
        exact this
      have hflag : (flagsOf d ls.length a).getD j false = (a.layers (d.b + 1 + j)).trainable := by
        rw [List.getD_eq_getElem _ _ (by omega)]; simp [flagsOf]
      rw [hflag]
      have hkeep : (∀ z ∈ (L (j + 1)).ps, ∀ q ∈ z.ops, h7.val q = h6.val q) → List.Forall₂ (Holds h7) (L (j + 1)).ps (pv.getD j []) := fun hk =>
        forall₂_kept1 hold (le_of_eq c7.next.symm) fun z hz q hq => by
          rw [hk z hz q hq, fr6 q (N.par_not (N.mem_ps hj) hz hq).1]
      by_cases ht : (a.layers (d.b + 1 + j)).trainable = true
      · rw [if_pos ht]
        cases hw : s.weighted with
        | true => exact F.on j hj ht _ (R.new j s hs hw)
        | false =>
          rw [learned_of hw]
          have sp := N.net.dat.spar j s hs
          rw [paramShapes_of hw] at sp
          have e0 : (L (j + 1)).ps = [] := by simpa using sp
          exact hkeep fun z hz => by rw [e0] at hz; cases hz
      · rw [if_neg ht]
        exact hkeep fun z hz q hq => F.off j hj (by simpa using ht) z hz q hq
    · obtain ⟨s, hs⟩ : ∃ s, ls[j]? = some s := ⟨_, List.getElem?_eq_getElem hj⟩
      have e1 := (key j s hs).2
      rw [List.getElem?_eq_getElem (by omega)] at e1
      show List.Forall₂ (Holds h7) _ ((learn _ _ y ls _ pv mv x _).2.1.getD j [])
      rw [List.getD_eq_getElem _ _ (by omega), Option.some.inj e1]
      exact forall₂_kept1 (R.mom j s hs) (le_of_eq F.next.symm) fun z hz q hq => hpar q (by have := N.mom_reg hj hz hq; omega)

/-- training changed no weight, no bias, no momentum and no rate -/
structure GSame (ls : List (LSpec T)) (m : Nat) (d : CData T) (e : GData T) (a : World T) (h' : Heap T) : Prop where
  ch : GCh d e a.store.heap h'
  rates : h'.val e.alpha = a.store.heap.val e.alpha ∧ h'.val e.momentum = a.store.heap.val e.momentum
  par : ∀ pv, HasParams a m pv → HasParams (atHeap a h') m pv
  mom : ∀ mv, GMom ls e a mv → GMom ls e (atHeap a h') mv

theorem GLive.same' (N : GTNet shape ls m d L e w0 w1 wa wb) (A : GLive w0 w1 wa wb m ls.length d e a) {h' : Heap T}
    (hn : h'.next = a.store.heap.next) (hv : ∀ q, q ∉ d.inM.ops → q ∉ e.tM.ops → q ∉ dsts e.rf → h'.val q = a.store.heap.val q) : GSame ls m d e a h' := by
  have c : GCh d e a.store.heap h' := ⟨hn, fun q hq => hv q (fun h => hq ⟨by simp [h]⟩) (fun h => hq ⟨by simp [h]⟩) (fun h => hq ⟨by simp [h]⟩)⟩
  have hf : ∀ q, GNot d e q → h'.val q = a.store.heap.val q := fun q hq => hv q hq.inp hq.tgt hq.rf
  refine ⟨c, ⟨hf _ (N.rate_not (Or.inl rfl)).1, hf _ (N.rate_not (Or.inr rfl)).1⟩, fun pv hp => ?_, fun mv hm => hm.kept N (le_of_eq hn.symm) fun q q1 q2 => ?_⟩
  · rw [(A.change N c).params N]
    rw [A.params N] at hp
    exact forall₂_kept (le_of_eq hn.symm) (fun p hp z hz q hq => hf q (N.par_not hp hz hq).1) hp
  · obtain ⟨k1, k2, k3, k4⟩ := N.built.cells
    obtain ⟨l1, l2, l3⟩ := N.built.le
    have hib := N.hi
    refine hv q (fun h => ?_) (fun h => ?_) (fun h => ?_)
    · have := N.net.made.comp.inlt q h; omega
    · have := N.built.treg q h; omega
    · obtain ⟨j, hj, h⟩ := N.rf_dst h
      have := N.dif hj h; omega

/-- `ExecFit` with a sample of a wrong shape -/
theorem GTNet.execFit_err (N : GTNet shape ls m d L e w0 w1 wa wb) (A : GLive w0 w1 wa wb m ls.length d e a) {tx ty : Nat} {x y : STensor T}
    (sx : Sample w0 w1 wa wb a tx x) (sy : Sample w0 w1 wa wb a ty y) (hs : ¬ (x.shape = shape ∧ y.shape = outShapes ls shape)) :
    ∃ er h', NetM.execFit m tx ty a = .err er (atHeap a h') ∧ GSame ls m d e a h' := by
  obtain ⟨n1, n2, n3, n4, n5, n6, n7, n8, n9, n10⟩ := A.sameNet N
  obtain ⟨f1, f2, f3, f0⟩ := N.fine
  have C := A.live.comp N.net.made
  obtain ⟨h1, e1⟩ := exec_fine e.rf a.store.heap f1
  have g1 := exec_frame e1
  have c1 : GCh d e a.store.heap h1 := ⟨g1.1, fun q hq => g1.2 q fun hm => hq ⟨by simp [hm]⟩⟩
  have A1 := A.change N c1
  have C1 := A1.live.comp N.net.made
  by_cases hx : x.shape = shape
  · obtain ⟨h2, e2, H2, m2, v2⟩ := loadFrom_ok (w := atHeap a h1) C1.rin C.nodup (N.sample sx c1).2.1
      (by rw [hx, C.ishape]) fun q hq hm => (N.inside ⟨Or.inl hm⟩).1 (sx.2.2 q hq)
    have c2 : GCh d e a.store.heap h2 := c1.trans ⟨m2, fun q hq => v2 q fun hm => hq ⟨by simp [hm]⟩⟩
    have A2 := A.change N c2
    have hy : ¬ y.shape = outShapes ls shape := fun h => hs ⟨hx, h⟩
    obtain ⟨er, he⟩ := loadFrom_err (p := e.tgt) (t := ty) (w := atHeap a h2) (A2.tgt N).mat (by
      rw [show ((atHeap a h2).store.nodes ty).mat.shape = _ from sy.2.1.shape, N.tShape]; exact hy)
    refine ⟨er, h2, ?_, A.same' N c2.next fun q q1 _ q6 => by rw [v2 q q1]; exact g1.2 q q6⟩
    show (NetM.run (a.nets m).resetFit a).bind _ = _
    rw [run_ok n6 e1]
    show (Run.deref (a.nets m).input (atHeap a h1)).bind _ = _
    rw [n1]
    show (LayerM.loadFrom d.inp tx (atHeap a h1)).bind _ = _
    rw [e2]
    show (Run.deref (a.nets m).target (atHeap a h2)).bind _ = _
    rw [n2]
    show (LayerM.loadFrom e.tgt ty (atHeap a h2)).bind _ = _
    rw [he]
    rfl
  · obtain ⟨er, he⟩ := loadFrom_err (p := d.inp) (t := tx) (w := atHeap a h1) C1.rin.mat (by
      rw [show ((atHeap a h1).store.nodes tx).mat.shape = _ from sx.2.1.shape, C.ishape]; exact hx)
    refine ⟨er, h1, ?_, A.same' N c1.next fun q _ _ q6 => g1.2 q q6⟩
    show (NetM.run (a.nets m).resetFit a).bind _ = _
    rw [run_ok n6 e1]
    show (Run.deref (a.nets m).input (atHeap a h1)).bind _ = _
    rw [n1]
    show (LayerM.loadFrom d.inp tx (atHeap a h1)).bind _ = _
    rw [he]
    rfl

/-- setting the rates -/
def gRates (e : GData T) (alpha momentum : T) (h : Heap T) : Heap T := (h.put e.alpha alpha).put e.momentum momentum

theorem gRates_ch (N : GTNet shape ls m d L e w0 w1 wa wb) (alpha momentum : T) (h : Heap T) :
    GCh d e h (gRates e alpha momentum h) ∧ (gRates e alpha momentum h).val e.alpha = alpha ∧
    (gRates e alpha momentum h).val e.momentum = momentum ∧ ∀ q, q ≠ e.alpha → q ≠ e.momentum → (gRates e alpha momentum h).val q = h.val q := by
  obtain ⟨c1, c2, c3, c4⟩ := N.built.cells
  have hne : e.alpha ≠ e.momentum := by omega
  refine ⟨⟨rfl, fun q hq => ?_⟩, ?_, ?_, fun q h1 h2 => ?_⟩
  · have h1 : q ≠ e.alpha := fun h => hq ⟨by simp [h]⟩
    have h2 : q ≠ e.momentum := fun h => hq ⟨by simp [h]⟩
    simp [gRates, Heap.put, h1, h2]
  · simp [gRates, Heap.put, hne]
  · simp [gRates, Heap.put]
  · simp [gRates, Heap.put, h1, h2]

theorem GTNet.cellpos (N : GTNet shape ls m d L e w0 w1 wa wb) : 0 < e.loss ∧ 0 < e.alpha ∧ 0 < e.momentum := by
  obtain ⟨c1, c2, c3, c4⟩ := N.built.cells
  obtain ⟨l1, _⟩ := N.built.le
  have := (N.pre.live.comp N.net.made).pos
  refine ⟨by omega, by omega, by omega⟩

theorem GLive.sameParams (N : GTNet shape ls m d L e w0 w1 wa wb) (A : GLive w0 w1 wa wb m ls.length d e a) (alpha momentum : T) :
    (∀ pv, HasParams a m pv → HasParams (atHeap a (gRates e alpha momentum a.store.heap)) m pv) ∧
    ∀ mv, GMom ls e a mv → GMom ls e (atHeap a (gRates e alpha momentum a.store.heap)) mv := by
  obtain ⟨c, _, _, v⟩ := gRates_ch N alpha momentum a.store.heap
  have r1 := (N.rate_not (Or.inl rfl : e.alpha = _ ∨ _)).2
  have r2 := (N.rate_not (Or.inr rfl : e.momentum = _ ∨ _)).2
  refine ⟨fun pv hp => ?_, fun mv hm => hm.kept N (le_of_eq c.next.symm) fun q q1 q2 => v q (by omega) (by omega)⟩
  rw [(A.change N c).params N]
  rw [A.params N] at hp
  refine forall₂_kept (le_of_eq c.next.symm) (fun p hp z hz q hq => ?_) hp
  have hlt := (N.par_not hp hz hq).2.2.1
  exact v q (by omega) (by omega)

theorem GLive.trainOne_eq (N : GTNet shape ls m d L e w0 w1 wa wb) (A : GLive w0 w1 wa wb m ls.length d e a) (tx ty : Nat) (alpha momentum : T) :
    NetM.trainOne m tx ty alpha momentum a = (NetM.execFit m tx ty (atHeap a (gRates e alpha momentum a.store.heap))).bind fun _ w =>
      Run.value (w.nets m).loss w := by
  obtain ⟨n1, n2, n3, n4, n5, n6, n7, n8, n9, n10⟩ := A.sameNet N
  obtain ⟨p1, p2, p3⟩ := N.cellpos
  show (match (a.nets m).bp with | none => _ | some _ => _ : Run T T) a = _
  rw [n5]
  show (Run.setValue (a.nets m).alpha alpha a).bind _ = _
  rw [n9, setValue_ok p2]
  show (Run.setValue (a.nets m).momentum momentum _).bind _ = _
  rw [n10, setValue_ok p3]
  rfl

/-- `TrainOne` with a sample of the right shapes -/
theorem GTNet.trainOne (N : GTNet shape ls m d L e w0 w1 wa wb) (A : GLive w0 w1 wa wb m ls.length d e a) {tx ty : Nat} {x y : STensor T}
    (sx : Sample w0 w1 wa wb a tx x) (sy : Sample w0 w1 wa wb a ty y) (hx : x.shape = shape) (hy : y.shape = outShapes ls shape)
    (alpha momentum : T) {pv mv : List (List (STensor T))} (hp : HasParams a m pv) (hm : GMom ls e a mv) :
    ∃ h', NetM.trainOne m tx ty alpha momentum a = .ok (absLoss y (netFn ls pv x)) (atHeap a h') ∧ GCh d e a.store.heap h' ∧
      HasParams (atHeap a h') m (learnStep alpha momentum ls (flagsOf d ls.length a) (pv, mv) x y).1 ∧
      GMom ls e (atHeap a h') (learnStep alpha momentum ls (flagsOf d ls.length a) (pv, mv) x y).2 := by
  obtain ⟨c, v1, v2, _⟩ := gRates_ch N alpha momentum a.store.heap
  have hp' := (A.sameParams N alpha momentum).1 pv hp
  have hm' := (A.sameParams N alpha momentum).2 mv hm
  obtain ⟨h', r1, F⟩ := N.execFit (A.change N c) (N.sample sx c) (N.sample sy c) hx hy ⟨_, hm'⟩
  have := F.par pv mv hp' hm'
  rw [show (atHeap a (gRates e alpha momentum a.store.heap)).store.heap = gRates e alpha momentum a.store.heap from rfl, v1, v2] at this
  refine ⟨h', ?_, c.trans F.ch, this.1, this.2⟩
  rw [A.trainOne_eq N, r1]
  show Run.value (a.nets m).loss (atHeap a h') = _
  rw [(A.sameNet N).2.2.2.2.2.2.2.1, value_ok N.cellpos.1]
  show Out.ok (h'.val e.loss) _ = _
  rw [F.loss pv hp']

/-- `TrainOne` with a sample of a wrong shape -/
theorem GTNet.trainOne_err (N : GTNet shape ls m d L e w0 w1 wa wb) (A : GLive w0 w1 wa wb m ls.length d e a) {tx ty : Nat} {x y : STensor T}
    (sx : Sample w0 w1 wa wb a tx x) (sy : Sample w0 w1 wa wb a ty y) (hs : ¬ (x.shape = shape ∧ y.shape = outShapes ls shape))
    (alpha momentum : T) : ∃ er h', NetM.trainOne m tx ty alpha momentum a = .err er (atHeap a h') ∧ GCh d e a.store.heap h' ∧
      (∀ pv, HasParams a m pv → HasParams (atHeap a h') m pv) ∧ ∀ mv, GMom ls e a mv → GMom ls e (atHeap a h') mv := by
  obtain ⟨c, v1, v2, _⟩ := gRates_ch N alpha momentum a.store.heap
  obtain ⟨er, h', r1, r2⟩ := N.execFit_err (A.change N c) (N.sample sx c) (N.sample sy c) hs
  refine ⟨er, h', ?_, c.trans r2.ch, fun pv hp => r2.par pv ((A.sameParams N alpha momentum).1 pv hp),
    fun mv hm => r2.mom mv ((A.sameParams N alpha momentum).2 mv hm)⟩
  rw [A.trainOne_eq N, r1]
  rfl

/-- the loop of `Train`: the samples up to the first one of a wrong shape -/
theorem GTNet.loop (N : GTNet shape ls m d L e w0 w1 wa wb) {inputs targets : List Nat} {xs ys : Nat → STensor T}
    (hlen : inputs.length = targets.length) : ∀ (picks : List Nat) (a : World T), GLive w0 w1 wa wb m ls.length d e a → (∃ mv, GMom ls e a mv) →
    (∀ i t, inputs[i]? = some t → Sample w0 w1 wa wb a t (xs i)) → (∀ i t, targets[i]? = some t → Sample w0 w1 wa wb a t (ys i)) →
    (∀ k ∈ picks, k < inputs.length) →
    ∃ done rest h', picks = done ++ rest ∧ GCh d e a.store.heap h' ∧
      (h'.val e.alpha = a.store.heap.val e.alpha ∧ h'.val e.momentum = a.store.heap.val e.momentum) ∧
      (∀ k ∈ done, (xs k).shape = shape ∧ (ys k).shape = outShapes ls shape) ∧
      (∀ pv mv, HasParams a m pv → GMom ls e a mv → HasParams (atHeap a h') m
        (learnAll (a.store.heap.val e.alpha) (a.store.heap.val e.momentum) ls (flagsOf d ls.length a) xs ys done (pv, mv)).1 ∧ GMom ls e (atHeap a h')
        (learnAll (a.store.heap.val e.alpha) (a.store.heap.val e.momentum) ls (flagsOf d ls.length a) xs ys done (pv, mv)).2) ∧
      ((rest = [] ∧ NetM.trainLoop m inputs targets picks a = .ok () (atHeap a h')) ∨
        ∃ k r er, rest = k :: r ∧ ¬ ((xs k).shape = shape ∧ (ys k).shape = outShapes ls shape) ∧
          NetM.trainLoop m inputs targets picks a = .err er (atHeap a h')) := by
  intro picks
  induction picks with
  | nil =>
    intro a A _ _ _ _
    exact ⟨[], [], a.store.heap, rfl, GCh.refl _ _ _, ⟨rfl, rfl⟩, by simp, fun pv mv hp hm => ⟨hp, hm⟩, Or.inl ⟨rfl, rfl⟩⟩
  | cons k r ih =>
    intro a A hM hx hy hk
    have hk0 := hk k List.mem_cons_self
    obtain ⟨tx, htx⟩ : ∃ t, inputs[k]? = some t := ⟨_, List.getElem?_eq_getElem hk0⟩
    obtain ⟨ty, hty⟩ : ∃ t, targets[k]? = some t := ⟨_, List.getElem?_eq_getElem (by omega)⟩
    have ustep : NetM.trainLoop m inputs targets (k :: r) a = (NetM.execFit m tx ty a).bind fun _ => NetM.trainLoop m inputs targets r := by
      have i1 : Res.index inputs k = .ok tx := by unfold Res.index; rw [htx]
      have i2 : Res.index targets k = .ok ty := by unfold Res.index; rw [hty]
      show ((Run.lift (Res.index inputs k) a).bind _).bind _ = _
      rw [i1]
      show ((Run.lift (Res.index targets k) a).bind _).bind _ = _
      rw [i2]
      rfl
    by_cases hs : (xs k).shape = shape ∧ (ys k).shape = outShapes ls shape
    · obtain ⟨h1, r1, F⟩ := N.execFit A (hx k tx htx) (hy k ty hty) hs.1 hs.2 hM
      obtain ⟨pv0, hp0, _⟩ := A.live.someParams N.net.made
      obtain ⟨mv0, hm0⟩ := hM
      obtain ⟨done, rest, h', p1, p2, p3, p4, p5, p6⟩ := ih (atHeap a h1) (A.change N F.ch) ⟨_, (F.par pv0 mv0 hp0 hm0).2⟩
        (fun i t ht => N.sample (hx i t ht) F.ch) (fun i t ht => N.sample (hy i t ht) F.ch) fun j hj => hk j (List.mem_cons_of_mem _ hj)
      refine ⟨k :: done, rest, h', by rw [p1]; rfl, F.ch.trans p2, ⟨by rw [p3.1]; exact F.rates.1, by rw [p3.2]; exact F.rates.2⟩, fun j hj => ?_,
        fun pv mv hp hm => ?_, ?_⟩
      · rcases List.mem_cons.1 hj with rfl | hj
        · exact hs
        · exact p4 j hj
      · have f := F.par pv mv hp hm
        have := p5 _ _ f.1 f.2
        rw [show (atHeap a h1).store.heap = h1 from rfl, F.rates.1, F.rates.2] at this
        exact this
      · rw [ustep, r1]
        exact p6
    · obtain ⟨er, h1, r1, S⟩ := N.execFit_err A (hx k tx htx) (hy k ty hty) hs
      refine ⟨[], k :: r, h1, rfl, S.ch, S.rates, by simp, fun pv mv hp hm => ⟨S.par pv hp, S.mom mv hm⟩, Or.inr ⟨k, r, er, rfl, hs, ?_⟩⟩
      rw [ustep, r1]
      rfl

/-- `Train` -/
theorem GTNet.train (N : GTNet shape ls m d L e w0 w1 wa wb) (A : GLive w0 w1 wa wb m ls.length d e a) (hM : ∃ mv, GMom ls e a mv) {inputs targets : List Nat}
    {xs ys : Nat → STensor T} (hlen : inputs.length = targets.length)
    (hx : ∀ i t, inputs[i]? = some t → Sample w0 w1 wa wb a t (xs i)) (hy : ∀ i t, targets[i]? = some t → Sample w0 w1 wa wb a t (ys i))
    (epochs batch : Nat) (alpha momentum : T) (draw : Nat → Nat) (hne : inputs.length = 0 → drawn inputs.length epochs batch draw = []) :
    ∃ done rest h', drawn inputs.length epochs batch draw = done ++ rest ∧ GCh d e a.store.heap h' ∧
      (∀ k ∈ done, (xs k).shape = shape ∧ (ys k).shape = outShapes ls shape) ∧
      (∀ pv mv, HasParams a m pv → GMom ls e a mv → HasParams (atHeap a h') m
        (learnAll alpha momentum ls (flagsOf d ls.length a) xs ys done (pv, mv)).1 ∧
        GMom ls e (atHeap a h') (learnAll alpha momentum ls (flagsOf d ls.length a) xs ys done (pv, mv)).2) ∧
      ((rest = [] ∧ NetM.train m inputs targets epochs batch alpha momentum draw a = .ok () (atHeap a h')) ∨
        ∃ k r er, rest = k :: r ∧ ¬ ((xs k).shape = shape ∧ (ys k).shape = outShapes ls shape) ∧
          NetM.train m inputs targets epochs batch alpha momentum draw a = .err er (atHeap a h')) := by
  obtain ⟨n1, n2, n3, n4, n5, n6, n7, n8, n9, n10⟩ := A.sameNet N
  obtain ⟨p1, p2, p3⟩ := N.cellpos
  obtain ⟨c, v1, v2, _⟩ := gRates_ch N alpha momentum a.store.heap
  obtain ⟨S1, S2⟩ := A.sameParams N alpha momentum
  obtain ⟨mv0, hm0⟩ := hM
  obtain ⟨done, rest, h', q1, q2, q3, q4, q5, q6⟩ := N.loop (xs := xs) (ys := ys) hlen (drawn inputs.length epochs batch draw)
    (atHeap a (gRates e alpha momentum a.store.heap)) (A.change N c) ⟨_, S2 mv0 hm0⟩ (fun i t ht => N.sample (hx i t ht) c)
    (fun i t ht => N.sample (hy i t ht) c) fun k hk => by
      rcases Nat.eq_zero_or_pos inputs.length with h | h
      · rw [hne h] at hk; cases hk
      · obtain ⟨j, _, rfl⟩ := List.mem_map.1 hk
        exact Nat.mod_lt _ h
  have hrun : NetM.train m inputs targets epochs batch alpha momentum draw a =
      (NetM.trainLoop m inputs targets (drawn inputs.length epochs batch draw) (atHeap a (gRates e alpha momentum a.store.heap))).bind fun _ w =>
        (Run.value e.loss w).bind fun _ w => .ok () w := by
    show (if inputs.length ≠ targets.length then _ else _ : Run T Unit) a = _
    rw [if_neg (by simpa using hlen)]
    show (match (a.nets m).bp with | none => _ | some _ => _ : Run T Unit) a = _
    rw [n5]
    show (Run.setValue (a.nets m).alpha alpha a).bind _ = _
    rw [n9, setValue_ok p2]
    show (Run.setValue (a.nets m).momentum momentum _).bind _ = _
    rw [n10, setValue_ok p3]
    show (if inputs.length = 0 ∧ (epochs * if batch = 0 then inputs.length else batch) ≠ 0 then _ else _ : Run T Unit) _ = _
    rw [if_neg]
    · show (NetM.trainLoop m inputs targets _ _).bind _ = _
      rw [← n8]
      rfl
    · rintro ⟨h1, h2⟩
      have := congrArg List.length (hne h1)
      unfold drawn at this
      rw [List.length_map, List.length_range] at this
      exact h2 this
  refine ⟨done, rest, h', q1, c.trans q2, q4, fun pv mv hp hm => ?_, ?_⟩
  · have := q5 pv mv (S1 pv hp) (S2 mv hm)
    rw [show (atHeap a (gRates e alpha momentum a.store.heap)).store.heap = gRates e alpha momentum a.store.heap from rfl, v1, v2] at this
    exact this
  · rcases q6 with ⟨r1, r2⟩ | ⟨k, r, er, r1, r2, r3⟩
    · left
      refine ⟨r1, ?_⟩
      rw [hrun, r2]
      show (Run.value e.loss _).bind _ = _
      rw [value_ok p1]
      rfl
    · right
      refine ⟨k, r, er, r1, r2, ?_⟩
      rw [hrun, r3]
      rfl

end
end Godeep
