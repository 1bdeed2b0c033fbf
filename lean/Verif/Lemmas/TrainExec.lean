import Verif.Lemmas.TrainBuild
import Verif.Spec.Train
/-
  Executing the graphs of a training step.
-/
set_option linter.unusedSectionVars false

namespace Godeep
open Spec GoNum

variable {T : Type} [GoNum T]

/-- the graphs of a network of dense layers; its forward part uses scalars below `base`, the rest those from
`base` to `top` -/
structure TStat (ds : List (Nat × Activation T)) (b : Nat) (L : Nat → DLayer) (acts : Nat → Activation T) (m0 : Mat) (lo hi : Nat)
    (ff : List (Op T)) (d : TData T) (base top : Nat) : Prop where
  set : DSet ds m0 lo hi L
  hib : hi ≤ base
  wid : ∀ d ∈ ds, 0 < d.1
  ne : 0 < ds.length
  ffdst : ∀ q ∈ dsts ff, (∃ k < ds.length, q ∈ (L (k + 1)).oM.ops) ∨ ∃ k < ds.length, (L (k + 1)).lo ≤ q ∧ q < (L (k + 1)).hi ∧
    q ∉ (L (k + 1)).dM.ops ∧ q ∉ (L (k + 1)).wM.ops ∧ q ∉ (L (k + 1)).bM.ops
  fffine : ∀ o ∈ ff, Fine o
  ffeqs : ∀ h h', exec ff h = .ok () h' → DEqs ds L h'.val
  tshape : d.tM.shape = (L ds.length).oM.shape
  tnd : d.tM.ops.Nodup
  treg : ∀ q ∈ d.tM.ops, base ≤ q ∧ q < d.la
  cdone : CDone (L ds.length).dM d.tM (L ds.length).oM (size (L ds.length).oM.shape) d.la d.cd
  cells : d.loss = d.la + size (L ds.length).oM.shape ∧ d.alpha = d.loss + 1 ∧ d.momentum = d.loss + 2 ∧ d.lx = d.loss + 3
  bp : ∃ wx wy, BPDone ds b L acts d.alpha d.momentum ds.length d.bp d.P wx wy ∧ wx.store.heap.next = d.lx ∧ wy.store.heap.next = d.ly
  rf : ∃ wy wz, RFDone L ds.length d.rf wy wz ∧ wy.store.heap.next = d.ly ∧ wz.store.heap.next = top
  le : base ≤ d.la ∧ d.lx ≤ d.ly ∧ d.ly ≤ top

section
variable {ds : List (Nat × Activation T)} {b : Nat} {L : Nat → DLayer} {acts : Nat → Activation T} {m0 : Mat} {lo hi : Nat}
    {ff : List (Op T)} {d : TData T} {base top : Nat}

/-- the feed-forward pass writes no error, no weight and no bias, and not the input -/
theorem TStat.ff_not (S : TStat ds b L acts m0 lo hi ff d base top) {q : Ptr} (hq : q ∈ dsts ff) :
    q < base ∧ q ∉ m0.ops ∧ (∀ j ≤ ds.length, q ∉ (L j).dM.ops) ∧ ∀ k < ds.length, q ∉ (L (k + 1)).wM.ops ∧ q ∉ (L (k + 1)).bM.ops := by
  have hhb := S.hib
  rcases S.ffdst q hq with ⟨k, hk, h⟩ | ⟨k, hk, h1, h2, h3, h4, h5⟩
  · have h6 := S.set.oreg (k := k + 1) hk q h
    have h7 := (S.set.all 0 (Nat.zero_le _))
    have h8 := h7.ge
    have h9 := h7.mid
    have h10 := h7.le
    refine ⟨by omega, (S.set.odis k hk q h).1, fun j hj hm => ?_, fun j hj => ?_⟩
    · have := S.set.dlow hj hm; omega
    · have O := S.set.one j _ (List.getElem?_eq_getElem hj)
      have A := S.set.all (j + 1) hj
      have := A.ge
      refine ⟨fun hm => ?_, fun hm => ?_⟩
      · have := O.wreg q hm; omega
      · have := O.breg q hm; omega
  · have A := S.set.all (k + 1) hk
    have a1 := A.ge
    have a2 := A.le
    refine ⟨by omega, fun hm => ?_, fun j hj hm => ?_, fun j hj => ?_⟩
    · have := S.set.low0 q hm; omega
    · by_cases e : j = k + 1
      · subst e; exact h3 hm
      · exact S.set.ne hj hk e ((S.set.all j hj).dreg q hm) ⟨h1, h2⟩
    · have O := S.set.one j _ (List.getElem?_eq_getElem hj)
      by_cases e : j = k
      · subst e; exact ⟨h4, h5⟩
      · exact ⟨fun hm => S.set.ne (j := j + 1) (k := k + 1) hj hk (by omega) (O.wreg q hm) ⟨h1, h2⟩,
          fun hm => S.set.ne (j := j + 1) (k := k + 1) hj hk (by omega) (O.breg q hm) ⟨h1, h2⟩⟩

theorem TStat.cd_dst (S : TStat ds b L acts m0 lo hi ff d base top) {q : Ptr} (hq : q ∈ dsts d.cd) :
    q ∈ (L ds.length).dM.ops ∨ (d.la ≤ q ∧ q ≤ d.loss) := by
  have := S.cells
  rcases S.cdone.dst q hq with h | h
  · exact Or.inl h
  · exact Or.inr ⟨h.1, by omega⟩

theorem TStat.bp_dst (S : TStat ds b L acts m0 lo hi ff d base top) {q : Ptr} (hq : q ∈ dsts d.bp) :
    (∃ j, j < ds.length ∧ q ∈ (L j).dM.ops) ∨ (d.lx ≤ q ∧ q < d.ly) := by
  obtain ⟨wx, wy, B, e1, e2⟩ := S.bp
  rcases B.blk.dst q hq with h | h
  · exact Or.inr (by rw [← e1, ← e2]; exact h)
  · exact Or.inl h

theorem TStat.rf_dst (S : TStat ds b L acts m0 lo hi ff d base top) {q : Ptr} (hq : q ∈ dsts d.rf) :
    ∃ j ≤ ds.length, q ∈ (L j).dM.ops := by
  obtain ⟨_, _, R, _, _⟩ := S.rf
  exact R.dst q hq

/-- every cell of the forward part -/
theorem TStat.low (S : TStat ds b L acts m0 lo hi ff d base top) {k : Nat} (hk : k ≤ ds.length) :
    (∀ q ∈ (L k).dM.ops, q < base) ∧ (∀ q ∈ (L k).oM.ops, q < base ∧ ∀ j ≤ ds.length, q ∉ (L j).dM.ops) ∧
    ∀ q ∈ (L k).nM.ops, q < base ∧ ∀ j ≤ ds.length, q ∉ (L j).dM.ops := by
  have hhb := S.hib
  have h7 := (S.set.all 0 (Nat.zero_le _))
  have h8 := h7.ge
  have h9 := h7.mid
  have h10 := h7.le
  refine ⟨fun q hq => ?_, fun q hq => ⟨?_, fun j hj hm => ((S.set.dsep hj hm).2.2 k hk).1 hq⟩,
    fun q hq => ⟨?_, fun j hj hm => ((S.set.dsep hj hm).2.2 k hk).2 hq⟩⟩
  · have := S.set.dlow hk hq; omega
  · have := S.set.oreg hk q hq; omega
  · rcases Nat.eq_zero_or_pos k with h0 | h0
    · subst h0
      rw [S.set.first.2.1] at hq
      have := S.set.low0 q hq; omega
    · obtain ⟨i, rfl⟩ : ∃ i, k = i + 1 := ⟨k - 1, by omega⟩
      have O := S.set.one i _ (List.getElem?_eq_getElem (by omega))
      have := O.nreg q hq
      have := (S.set.all _ hk).le
      omega

theorem TStat.lowp (S : TStat ds b L acts m0 lo hi ff d base top) {k : Nat} (hk : k < ds.length) :
    (∀ q ∈ (L (k + 1)).wM.ops, lo ≤ q ∧ q < base ∧ ∀ j ≤ ds.length, q ∉ (L j).dM.ops) ∧
    ∀ q ∈ (L (k + 1)).bM.ops, lo ≤ q ∧ q < base ∧ ∀ j ≤ ds.length, q ∉ (L j).dM.ops := by
  have hhb := S.hib
  have O := S.set.one k _ (List.getElem?_eq_getElem hk)
  have A := S.set.all (k + 1) hk
  have := A.le
  have := A.ge
  refine ⟨fun q hq => ⟨?_, ?_, fun j hj hm => ((S.set.dsep hj hm).2.1 k hk).1 hq⟩,
    fun q hq => ⟨?_, ?_, fun j hj hm => ((S.set.dsep hj hm).2.1 k hk).2 hq⟩⟩
  · have := O.wreg q hq; omega
  · have := O.wreg q hq; omega
  · have := O.breg q hq; omega
  · have := O.breg q hq; omega

theorem DEqs.keep {v v' : Ptr → T} {w : World T} (S : TStat ds b L acts m0 lo hi ff d base top) (R : DReady ds L w)
    (h : DEqs ds L v) (hv : ∀ q, q < base → (∀ j ≤ ds.length, q ∉ (L j).dM.ops) → v' q = v q) : DEqs ds L v' := by
  intro k e hk i hi
  have hlt := (List.getElem?_eq_some_iff.1 hk).1
  have O := S.set.one k e hk
  obtain ⟨h1, h2⟩ := h k e hk i hi
  have en : v' (cell (L (k + 1)).nM [i]) = v (cell (L (k + 1)).nM [i]) := by
    have := (S.low (k := k + 1) hlt).2.2 _ (cell_mem (R.neta (k + 1) hlt).good (inRange1 O.sn hi))
    exact hv _ this.1 this.2
  have eo : v' (cell (L (k + 1)).oM [i]) = v (cell (L (k + 1)).oM [i]) := by
    have := (S.low (k := k + 1) hlt).2.1 _ (cell_mem (R.out (k + 1) hlt).good (inRange1 O.so hi))
    exact hv _ this.1 this.2
  rw [en, eo]
  refine ⟨h1.trans ?_, h2⟩
  symm
  refine preact_congr (fun j hj => ⟨?_, ?_⟩) ?_
  · have := (S.low (k := k) (by omega)).2.1 _ (getD_mem (R.out k (by omega)).good (i := j) hj)
    exact hv _ this.1 this.2
  · have := (S.lowp hlt).1 _ (cell_mem (R.wn k hlt).good (inRange2 O.sw hi hj))
    exact hv _ this.2.1 this.2.2
  · have := (S.lowp hlt).2 _ (cell_mem (R.bn k hlt).good (inRange1 O.sb hi))
    exact hv _ this.2.1 this.2.2

/-- what the graphs of one step compute -/
structure TRes (ds : List (Nat × Activation T)) (L : Nat → DLayer) (acts : Nat → Activation T) (m0 : Mat) (ff : List (Op T)) (d : TData T)
    (h0 h2 h3 h6 : Heap T) : Prop where
  frame : ∀ q, q ∉ m0.ops → q ∉ d.tM.ops → q ∉ dsts ff → q ∉ dsts d.cd → q ∉ dsts d.bp → q ∉ dsts d.rf → h6.val q = h0.val q
  inp : ∀ q ∈ m0.ops, h6.val q = h2.val q
  tgt : ∀ q ∈ d.tM.ops, h6.val q = h3.val q
  eqs : DEqs ds L h6.val
  err : ∀ i < size (L ds.length).oM.shape, h6.val ((L ds.length).dM.ops.getD i 0) =
    GoNum.sub (h6.val (d.tM.ops.getD i 0)) (h6.val ((L ds.length).oM.ops.getD i 0))
  loss : h6.val d.loss = sum1 ((List.range (size (L ds.length).oM.shape)).map fun i =>
      let e := GoNum.sub (h6.val (d.tM.ops.getD i 0)) (h6.val ((L ds.length).oM.ops.getD i 0))
      if lt e zero then GoNum.neg e else e)
  back : BEqs ds L d.P acts d.alpha d.momentum ds.length (fun _ => zero) h6.val

theorem TStat.step (S : TStat ds b L acts m0 lo hi ff d base top) {w : World T} (R : DReady ds L w) (rt : Ready w d.tgt d.tM)
    {h0 h1 h2 h3 h4 h5 h6 : Heap T} (e1 : exec d.rf h0 = .ok () h1) (e2 : ∀ q, q ∉ m0.ops → h2.val q = h1.val q)
    (e3 : ∀ q, q ∉ d.tM.ops → h3.val q = h2.val q) (e4 : exec ff h3 = .ok () h4) (e5 : exec d.cd h4 = .ok () h5)
    (e6 : exec d.bp h5 = .ok () h6) (z1 : ∀ q, d.lx ≤ q → q < d.ly → q ∉ dsts d.bp → h0.val q = zero)
    (z2 : ∀ q, d.ly ≤ q → q < top → h0.val q = zero) : TRes ds L acts m0 ff d h0 h2 h3 h6 := by
  have f1 := (exec_frame e1).2
  have f4 := (exec_frame e4).2
  have f5 := (exec_frame e5).2
  have f6 := (exec_frame e6).2
  obtain ⟨c1, c2, c3, c4⟩ := S.cells
  obtain ⟨l1, l2, l3⟩ := S.le
  have hhb := S.hib
  have h7 := (S.set.all 0 (Nat.zero_le _))
  have h8 := h7.ge
  have h9 := h7.mid
  have h10 := h7.le
  have hm0 : ∀ q ∈ m0.ops, q < lo := S.set.low0
  have hdb : ∀ j ≤ ds.length, ∀ q ∈ (L j).dM.ops, lo ≤ q ∧ q < base := fun j hj q hq => by
    have := S.set.dlow hj hq; omega
  -- cells that the last two graphs do not write
  have k46 : ∀ q, q < d.la → (∀ j ≤ ds.length, q ∉ (L j).dM.ops) → h6.val q = h4.val q := fun q hq hd => by
    rw [f6 q fun hm => ?_, f5 q fun hm => ?_]
    · rcases S.cd_dst hm with h | h
      · exact hd _ (le_refl _) h
      · omega
    · rcases S.bp_dst hm with ⟨j, hj, h⟩ | h
      · exact hd j (by omega) h
      · omega
  have ktgt : ∀ q ∈ d.tM.ops, h6.val q = h4.val q ∧ h4.val q = h3.val q := fun q hq => by
    have := S.treg q hq
    refine ⟨k46 q (by omega) fun j hj hm => ?_, f4 q fun hm => ?_⟩
    · have := hdb j hj q hm; omega
    · have := (S.ff_not hm).1; omega
  have kout : ∀ q ∈ (L ds.length).oM.ops, h6.val q = h4.val q := fun q hq => by
    have := (S.low (le_refl _)).2.1 q hq
    exact k46 q (by omega) this.2
  have ktl : ∀ i < size (L ds.length).oM.shape, d.tM.ops.getD i 0 ∈ d.tM.ops := fun i hi =>
    getD_mem rt.good (by rw [S.tshape]; exact hi)
  have kol : ∀ i < size (L ds.length).oM.shape, (L ds.length).oM.ops.getD i 0 ∈ (L ds.length).oM.ops := fun i hi =>
    getD_mem (R.out _ (le_refl _)).good hi
  have hsz := (S.set.sizes (le_refl ds.length)).1
  have CD := S.cdone.run h4 h5 e5
  refine ⟨fun q q1 q2 q3 q4 q5 q6 => ?_, fun q hq => ?_, fun q hq => ?_, ?_, fun i hi => ?_, ?_, ?_⟩
  · rw [f6 q q5, f5 q q4, f4 q q3, e3 q q2, e2 q q1, f1 q q6]
  · have := hm0 q hq
    rw [k46 q (by omega) (fun j hj hm => by have := hdb j hj q hm; omega), f4 q (fun hm => (S.ff_not hm).2.1 hq),
      e3 q (fun hm => by have := S.treg q hm; omega)]
  · rw [(ktgt q hq).1, (ktgt q hq).2]
  · exact (S.ffeqs h3 h4 e4).keep S R fun q hq hd => k46 q (by omega) hd
  · have hm : (L ds.length).dM.ops.getD i 0 ∈ (L ds.length).dM.ops :=
      getD_mem (R.dif _ (le_refl _)).1.good (by rw [hsz]; exact hi)
    have h56 : h6.val ((L ds.length).dM.ops.getD i 0) = h5.val ((L ds.length).dM.ops.getD i 0) := f6 _ fun hb => by
      rcases S.bp_dst hb with ⟨j, hj, h⟩ | h
      · exact (S.set.dsep (le_refl _) hm).1 j (by omega) (by omega) h
      · have := hdb _ (le_refl _) _ hm; omega
    rw [h56, CD.1 i hi, (ktgt _ (ktl i hi)).1, kout _ (kol i hi)]
  · have h56 : h6.val d.loss = h5.val d.loss := f6 _ fun hb => by
      rcases S.bp_dst hb with ⟨j, hj, h⟩ | h
      · have := hdb j (by omega) _ h; omega
      · omega
    rw [h56, c1, CD.2]
    congr 1
    refine List.map_congr_left fun i hi => ?_
    rw [List.mem_range] at hi
    rw [(ktgt _ (ktl i hi)).1, kout _ (kol i hi)]
  · obtain ⟨wx, wy, B, x1, x2⟩ := S.bp
    have BE := B.eqs h5 h6 (exec_ssa1 B.blk.ssa e6) fun q q1 q2 q3 => by
      rw [x1] at q1
      rw [x2] at q2
      rw [f6 q q3, f5 q (fun hm => ?_), f4 q (fun hm => ?_), e3 q (fun hm => ?_), e2 q (fun hm => ?_), f1 q (fun hm => ?_), z1 q q1 q2 q3]
      · obtain ⟨j, hj, h⟩ := S.rf_dst hm
        have := hdb j hj _ h; omega
      · have := hm0 q hm; omega
      · have := S.treg q hm; omega
      · have := (S.ff_not hm).1; omega
      · rcases S.cd_dst hm with h | h
        · have := hdb _ (le_refl _) _ h; omega
        · omega
    obtain ⟨wy', wz, RF, y1, y2⟩ := S.rf
    have RZ := (RF.run (fun j hj q hq => by rw [y1]; have := hdb j hj q hq; omega)
      (h := h0) (h' := h1) (fun q q1 q2 => z2 q (by rw [← y1]; exact q1) (by rw [← y2]; exact q2)) e1).1
    intro j e hj hje
    obtain ⟨b1, b2, b3⟩ := BE j e hj hje
    refine ⟨fun i hi => ?_, b2, b3⟩
    have hm : (L j).dM.ops.getD i 0 ∈ (L j).dM.ops :=
      getD_mem (R.dif j (by omega)).1.good (by rw [(S.set.sizes (show j ≤ ds.length by omega)).1]; exact hi)
    have hz : h5.val ((L j).dM.ops.getD i 0) = zero := by
      have := hdb j (by omega) _ hm
      rw [f5 _ (fun hb => ?_), f4 _ (fun hb => ?_), e3 _ (fun hb => ?_), e2 _ (fun hb => ?_), RZ j (by omega) _ hm]
      · have := hm0 _ hb; omega
      · have := S.treg _ hb; omega
      · exact (S.ff_not hb).2.2.1 j (by omega) hm
      · rcases S.cd_dst hb with h | h
        · exact (S.set.dsep (show j ≤ ds.length by omega) hm).1 _ (le_refl _) (by omega) h
        · omega
    rw [b1 i hi, hz]

/-- `Fit`: what the weights are after the new values have been stored -/
structure FitDone (ds : List (Nat × Activation T)) (b : Nat) (L : Nat → DLayer) (P : Nat → NLayer) (k : Nat) (w : World T) (h' : Heap T) : Prop where
  next : h'.next = w.store.heap.next
  frame : ∀ q, (∀ j < k, q ∉ (L (j + 1)).wM.ops ∧ q ∉ (L (j + 1)).bM.ops) → h'.val q = w.store.heap.val q
  on : ∀ j < k, (w.layers (b + 1 + j)).trainable = true → ∀ X Y, Holds w.store.heap (P (j + 1)).nwM X → Holds w.store.heap (P (j + 1)).nbM Y →
    Holds h' (L (j + 1)).wM X ∧ Holds h' (L (j + 1)).bM Y
  off : ∀ j < k, (w.layers (b + 1 + j)).trainable = false → ∀ q, q ∈ (L (j + 1)).wM.ops ∨ q ∈ (L (j + 1)).bM.ops → h'.val q = w.store.heap.val q

/-- the layers of a network that can be trained -/
structure TLay (ds : List (Nat × Activation T)) (b : Nat) (L : Nat → DLayer) (d : TData T) (w : World T) : Prop where
  pre0 : (w.layers b).pre = none
  par0 : (w.layers b).weights = none ∧ (w.layers b).bias = none ∧ (w.layers b).nBias = none
  pre : ∀ j < ds.length, (w.layers (b + 1 + j)).pre = some (b + j)
  par : ∀ j < ds.length, (w.layers (b + 1 + j)).weights = some (L (j + 1)).wn ∧ (w.layers (b + 1 + j)).bias = some (L (j + 1)).bn ∧
    (w.layers (b + 1 + j)).nWeights = some (d.P (j + 1)).nw ∧ (w.layers (b + 1 + j)).nBias = some (d.P (j + 1)).nb
  new : ∀ j < ds.length, Ready w (d.P (j + 1)).nw (d.P (j + 1)).nwM ∧ Ready w (d.P (j + 1)).nb (d.P (j + 1)).nbM

theorem TStat.new (S : TStat ds b L acts m0 lo hi ff d base top) {j : Nat} (hj : j < ds.length) :
    (d.P (j + 1)).nwM.shape = (L (j + 1)).wM.shape ∧ (d.P (j + 1)).nbM.shape = (L (j + 1)).bM.shape ∧
    (∀ q ∈ (d.P (j + 1)).nwM.ops, d.lx ≤ q ∧ q < d.ly) ∧ ∀ q ∈ (d.P (j + 1)).nbM.ops, d.lx ≤ q ∧ q < d.ly := by
  obtain ⟨wx, wy, B, x1, x2⟩ := S.bp
  have O := S.set.one j _ (List.getElem?_eq_getElem hj)
  obtain ⟨s1, s2⟩ := B.shape j _ hj (List.getElem?_eq_getElem hj)
  obtain ⟨r1, r2⟩ := B.reg j hj
  rw [x1, x2] at r1 r2
  exact ⟨by rw [s1, O.sw], by rw [s2, O.sb], r1, r2⟩

theorem TStat.fit (S : TStat ds b L acts m0 lo hi ff d base top) {w : World T} (R : DReady ds L w) (TL : TLay ds b L d w) :
    ∀ k fuel, k ≤ ds.length → k < fuel → ∃ h', LayerM.fit fuel (b + k) w = .ok () { w with store := { w.store with heap := h' } } ∧
      FitDone ds b L d.P k w h' := by
  intro k
  induction k with
  | zero =>
    intro fuel _ hf
    obtain ⟨f, rfl⟩ : ∃ f, fuel = f + 1 := ⟨fuel - 1, by omega⟩
    refine ⟨w.store.heap, ?_, rfl, fun _ _ => rfl, fun j hj => absurd hj (by omega), fun j hj => absurd hj (by omega)⟩
    show (match (w.layers b).pre with | some p => _ | none => _ : Run T Unit) w = _
    rw [TL.pre0]
    show LayerM.fitOwn b w = .ok () w
    show (if !(w.layers b).trainable then pure () else _ : Run T Unit) w = _
    split_ifs
    · rfl
    · rw [TL.par0.1, TL.par0.2.1, TL.par0.2.2]
      rfl
  | succ k ih =>
    intro fuel hk hf
    obtain ⟨f, rfl⟩ : ∃ f, fuel = f + 1 := ⟨fuel - 1, by omega⟩
    obtain ⟨h1, e1, F⟩ := ih f (by omega) (by omega)
    obtain ⟨p1, p2, p3, p4⟩ := TL.par k hk
    have O := S.set.one k _ (List.getElem?_eq_getElem (show k < ds.length by omega))
    obtain ⟨n1, n2, n3, n4⟩ := S.new (show k < ds.length by omega)
    have hpre := TL.pre k hk
    obtain ⟨w1, hw1⟩ : ∃ x : World T, x = { w with store := { w.store with heap := h1 } } := ⟨_, rfl⟩
    have x1 : Ext w w1 := by rw [hw1]; exact ext_of_eq (le_of_eq F.next.symm) rfl rfl
    have hl1 : w1.layers = w.layers := by rw [hw1]
    have hh1 : w1.store.heap = h1 := by rw [hw1]
    have hnode : w1.store.nodes = w.store.nodes := by rw [hw1]
    have hle := S.le
    have hce := S.cells
    have hoff : ∀ j < k, ∀ q, q ∈ (L (k + 1)).wM.ops ∨ q ∈ (L (k + 1)).bM.ops → q ∉ (L (j + 1)).wM.ops ∧ q ∉ (L (j + 1)).bM.ops := by
      intro j hj q hq
      have Oj := S.set.one j _ (List.getElem?_eq_getElem (show j < ds.length by omega))
      have hqr : (L (k + 1)).lo ≤ q ∧ q < (L (k + 1)).hi := hq.elim (O.wreg q) (O.breg q)
      exact ⟨fun h => S.set.ne (j := k + 1) (k := j + 1) (by omega) (by omega) (by omega) hqr (Oj.wreg q h),
        fun h => S.set.ne (j := k + 1) (k := j + 1) (by omega) (by omega) (by omega) hqr (Oj.breg q h)⟩
    have hnew : ∀ j, j < ds.length → ∀ q, q ∈ (d.P (j + 1)).nwM.ops ∨ q ∈ (d.P (j + 1)).nbM.ops →
        ∀ i < ds.length, q ∉ (L (i + 1)).wM.ops ∧ q ∉ (L (i + 1)).bM.ops := by
      intro j hj q hq i hi
      obtain ⟨_, _, n3, n4⟩ := S.new hj
      have := hq.elim (n3 q) (n4 q)
      exact ⟨fun h => by have := (S.lowp hi).1 q h; omega, fun h => by have := (S.lowp hi).2 q h; omega⟩
    have e0 : LayerM.fit (f + 1) (b + (k + 1)) w = LayerM.fitOwn (b + 1 + k) w1 := by
      rw [show b + (k + 1) = b + 1 + k by omega, hw1]
      show (match (w.layers (b + 1 + k)).pre with | some p => _ | none => _ : Run T Unit) w = _
      rw [hpre]
      show ((LayerM.ignoreErr (LayerM.fit f (b + k))) w).bind _ = _
      unfold LayerM.ignoreErr
      rw [e1]
      rfl
    rw [e0]
    by_cases ht : (w.layers (b + 1 + k)).trainable = true
    · have rw1 := (R.wn k (by omega)).ext x1
      have rb1 := (R.bn k (by omega)).ext x1
      have rnw := ((TL.new k (by omega)).1).ext x1
      have rnb := ((TL.new k (by omega)).2).ext x1
      obtain ⟨h2, e2, H2, nx2, v2⟩ := loadFrom_ok (t := (d.P (k + 1)).nw) rw1 O.ndw (good_holds (h := w1.store.heap) (by rw [rnw.mat]; exact rnw.good))
        (by rw [rnw.mat]; exact n1) (fun q hq => by rw [rnw.mat] at hq; exact (hnew k (by omega) q (Or.inl hq) k (by omega)).1)
      obtain ⟨w2, hw2⟩ : ∃ x : World T, x = { w1 with store := { w1.store with heap := h2 } } := ⟨_, rfl⟩
      rw [← hw2] at e2
      have x2 : Ext w1 w2 := by rw [hw2]; exact ext_of_eq (le_of_eq nx2.symm) rfl rfl
      have rb2 := rb1.ext x2
      have rnb2 := rnb.ext x2
      obtain ⟨h3, e3, H3, nx3, v3⟩ := loadFrom_ok (t := (d.P (k + 1)).nb) rb2 O.ndb (good_holds (h := w2.store.heap) (by rw [rnb2.mat]; exact rnb2.good))
        (by rw [rnb2.mat]; exact n2) (fun q hq => by rw [rnb2.mat] at hq; exact (hnew k (by omega) q (Or.inr hq) k (by omega)).2)
      have hh2 : w2.store.heap = h2 := by rw [hw2]
      rw [hh2] at v3 nx3
      rw [hh1] at v2 nx2
      refine ⟨h3, ?_, by rw [nx3, nx2, F.next], fun q hq => ?_, fun j hj hjt X Y HX HY => ?_, fun j hj hjt q hq => ?_⟩
      · have : LayerM.fitOwn (b + 1 + k) w1 = (LayerM.loadFrom (L (k + 1)).wn (d.P (k + 1)).nw w1).bind fun _ =>
            LayerM.loadFrom (L (k + 1)).bn (d.P (k + 1)).nb := by
          show (if !(w1.layers (b + 1 + k)).trainable then pure () else _ : Run T Unit) w1 = _
          rw [hl1, if_neg (by rw [ht]; decide)]
          rw [p1, p2, p3, p4]
          rfl
        rw [this, e2]
        show LayerM.loadFrom (L (k + 1)).bn (d.P (k + 1)).nb w2 = _
        rw [e3, hw2, hw1]
      · rw [v3 q (hq k (by omega)).2, v2 q (hq k (by omega)).1, F.frame q fun j hj => hq j (by omega)]
      · rcases Nat.lt_or_ge j k with hjk | hjk
        · obtain ⟨g1, g2⟩ := F.on j hjk hjt X Y HX HY
          have hd : ∀ q, q ∈ (L (j + 1)).wM.ops ∨ q ∈ (L (j + 1)).bM.ops → h3.val q = h1.val q := fun q hq => by
            rw [v3 q (fun h => (hoff j hjk q (Or.inr h)).elim fun a c => hq.elim a c), v2 q (fun h => (hoff j hjk q (Or.inl h)).elim fun a c => hq.elim a c)]
          exact ⟨g1.kept (by omega) fun q hq => hd q (Or.inl hq), g2.kept (by omega) fun q hq => hd q (Or.inr hq)⟩
        · have : j = k := by omega
          subst this
          have hX1 : Holds h1 (d.P (j + 1)).nwM X := HX.kept (le_of_eq F.next.symm) fun q hq =>
            F.frame q fun i hi => hnew j (by omega) q (Or.inl hq) i (by omega)
          have hY2 : Holds h2 (d.P (j + 1)).nbM Y := HY.kept (by rw [nx2, F.next]) fun q hq => by
            have hn := hnew j (by omega) q (Or.inr hq)
            rw [v2 q (hn j (by omega)).1, F.frame q fun i hi => hn i (by omega)]
          have tr : ∀ {hh h : Heap T} {A B : Mat} {Z : STensor T}, Holds hh A (ofMat h.val B) → Holds h B Z → Holds hh A Z := by
            intro hh h A B Z HA HB
            refine ⟨HA.shape.trans HB.shape, HA.mul, HA.len, HA.valid, fun idx hi => ?_⟩
            have hi' : InRange B.shape idx := by rw [HB.shape]; exact hi
            rw [HA.get idx hi']
            have gB : GoodMat h B := ⟨HB.mul, HB.len, HB.valid⟩
            have := holds_cell (good_holds gB) hi'
            rw [← this, holds_cell HB hi']
          rw [rnw.mat, hh1] at H2
          rw [rnb2.mat, hh2] at H3
          refine ⟨(tr H2 hX1).kept (le_of_eq nx3.symm) fun q hq => v3 q fun h => ?_, tr H3 hY2⟩
          exact O.wb q hq h
      · rcases Nat.lt_or_ge j k with hjk | hjk
        · rw [v3 q (fun h => (hoff j hjk q (Or.inr h)).elim fun a c => hq.elim a c), v2 q (fun h => (hoff j hjk q (Or.inl h)).elim fun a c => hq.elim a c),
            F.off j hjk hjt q hq]
        · have : j = k := by omega
          subst this
          rw [ht] at hjt; cases hjt
    · refine ⟨h1, ?_, F.next, fun q hq => F.frame q fun j hj => hq j (by omega), fun j hj hjt => ?_, fun j hj hjt q hq => ?_⟩
      · show (if !(w1.layers (b + 1 + k)).trainable then pure () else _ : Run T Unit) w1 = _
        rw [hl1, if_pos (by simpa using ht), hw1]
        rfl
      · rcases Nat.lt_or_ge j k with hjk | hjk
        · exact F.on j hjk hjt
        · have : j = k := by omega
          subst this
          exact (ht hjt).elim
      · rcases Nat.lt_or_ge j k with hjk | hjk
        · exact F.off j hjk hjt q hq
        · have : j = k := by omega
          subst this
          exact F.frame q fun i hi => hoff i hi q hq

end
end Godeep
