import Verif.Lemmas.GLearn
import Verif.Lemmas.TrainBuild
/-
  `CompileBackPropagation` of a sequential network of any layers.
-/
set_option linter.unusedSectionVars false

namespace Godeep
open Spec GoNum

variable {T : Type} [GoNum T]

/-! ### `ResetFit` -/

/-- building the operations that set the errors of the layers up to `k` to zero; layers may share their errors -/
structure GRF (L : Nat → GLayer) (k : Nat) (rf : List (Op T)) (w w' : World T) : Prop where
  lay : Lay (fun _ => False) rf w w'
  dst : ∀ q ∈ dsts rf, ∃ j ≤ k, q ∈ (L j).dM.ops
  fine : ∀ o ∈ rf, Fine o
  run : ∀ h h', (∀ q, w.store.heap.next ≤ q → q < w'.store.heap.next → h.val q = GoNum.zero) → exec rf h = .ok () h' →
    ∀ j ≤ k, ∀ q ∈ (L j).dM.ops, h'.val q = GoNum.zero

theorem exec_set {l : List Ptr} {z : Ptr} (hn : l.Nodup) (hz : z ∉ l) {h h' : Heap T}
    (he : exec (l.map fun p => (Op.asg p (.set z) : Op T)) h = .ok () h') : ∀ q ∈ l, h'.val q = h.val z := by
  intro q hq
  have hs := exec_ssa1 (ssa1_set hn hz) he
  rw [hs.setv (List.mem_map.2 ⟨q, hq, rfl⟩) (fun e => hz (e ▸ hq))]
  exact (exec_frame he).2 z fun hm => hz (dsts_map_set hm)

theorem gresetFit_chain {shape : List Nat} {ls : List (LSpec T)} {b : Nat} {L : Nat → GLayer} {a0 : Activation T} {lo : Nat}
    (S : GSep ls L lo) :
    ∀ (k : Nat) (fuel : Nat) (w : World T), k ≤ ls.length → GAt shape ls b L a0 lo w → k < fuel →
      wp True (LayerM.resetFit fuel (b + k)) (fun _ w' => ∃ rf, GRF L k rf w w') w := by
  have last : ∀ (k : Nat) (w : World T), k ≤ ls.length → GAt shape ls b L a0 lo w →
      wp True (do
        let z ← Run.scalar (zero : T)
        let d ← Run.deref (w.layers (b + k)).dif
        Run.fill d z : Run T Unit) (fun _ w' => ∃ z nops, AllNop nops ∧
          Lay (fun _ => False) (nops ++ (L k).dM.ops.map fun p => .asg p (.set z)) w w' ∧
          w.store.heap.next ≤ z ∧ z < w'.store.heap.next) w := by
    intro k w hk D
    refine wp_bind (wp_scalar' (L := fun _ => False) fun w1 y1 n1 l1 o1 x1 => ?_)
    refine wp_bind (wp_deref (D.gdif k hk).1 ?_)
    refine wp_fill ((D.gdif k hk).2.1.grow y1.grow) fun w2 nops hn y2 n2 => ?_
    exact ⟨_, nops, hn, by simpa using y1.trans y2, le_refl _, by rw [n2, n1]; omega⟩
  -- one layer
  have one : ∀ (k : Nat) (w w' : World T), k ≤ ls.length → GAt shape ls b L a0 lo w → ∀ z nops, AllNop nops →
      w.store.heap.next ≤ z → (dsts (nops ++ (L k).dM.ops.map fun p => (Op.asg p (.set z) : Op T)) = dsts ((L k).dM.ops.map fun p => (Op.asg p (.set z) : Op T))) ∧
      (∀ o ∈ nops ++ (L k).dM.ops.map (fun p => (Op.asg p (.set z) : Op T)), Fine o) ∧ 
      ∀ h h' : Heap T, exec (nops ++ (L k).dM.ops.map fun p => (Op.asg p (.set z) : Op T)) h = .ok () h' → ∀ q ∈ (L k).dM.ops, h'.val q = h.val z := by
    intro k w w' hk D z nops hn hz
    refine ⟨by rw [dsts_append, hn.dsts, List.nil_append], fun o ho => ?_, fun h h' he => ?_⟩
    · rcases List.mem_append.1 ho with ho | ho
      · exact hn.fine o ho
      · obtain ⟨p, hp, rfl⟩ := List.mem_map.1 ho
        refine ⟨((D.gdif k hk).2.1.good.valid p hp).1, ?_, trivial, trivial⟩
        intro q hq
        simp only [Rhs.reads, List.mem_singleton] at hq
        have := D.pos
        subst hq; omega
    · obtain ⟨h1, e1, e2⟩ := exec_append_ok.1 he
      rw [hn.exec] at e1
      cases e1
      exact exec_set (S.shape k hk).2 (fun hm => by have := D.dreg hk hm; omega) e2
  intro k
  induction k with
  | zero =>
    intro fuel w hk D hf
    obtain ⟨f, rfl⟩ : ∃ f, fuel = f + 1 := ⟨fuel - 1, by omega⟩
    unfold LayerM.resetFit
    refine wp_bind (wp_layer ?_)
    rw [Nat.add_zero, D.kind0.2.1]
    refine wp_mono (last 0 w hk D) ?_
    rintro _ w' ⟨z, nops, hn, y, z1, z2⟩
    obtain ⟨o1, o2, o3⟩ := one 0 w w' hk D z nops hn z1
    refine ⟨_, y, fun q hq => ?_, o2, fun h h' hz he j hj q hq => ?_⟩
    · rw [o1] at hq
      exact ⟨0, le_refl _, dsts_map_set hq⟩
    · have : j = 0 := by omega
      subst this
      rw [o3 h h' he q hq]
      exact hz z z1 z2
  | succ k ih =>
    intro fuel w hk D hf
    obtain ⟨f, rfl⟩ : ∃ f, fuel = f + 1 := ⟨fuel - 1, by omega⟩
    unfold LayerM.resetFit
    refine wp_bind (wp_layer ?_)
    have hp : (w.layers (b + (k + 1))).pre = some (b + k) := by
      rw [show b + (k + 1) = b + 1 + k by omega]; exact (D.lay k _ (List.getElem?_eq_getElem (by omega))).2.1
    rw [hp]
    refine wp_bind (wp_mono (ih f w (by omega) D (by omega)) ?_)
    rintro _ w1 ⟨rf1, R⟩
    have n1 := R.lay.grow.next
    have el : ∀ l, w1.layers l = w.layers l := fun l => R.lay.grow.layers l (fun h => h)
    have D1 : GAt shape ls b L a0 lo w1 := D.later R.lay.grow.ext (fun j _ => by rw [el]) (fun j hj => R.lay.val (lt_of_lt_of_le (D.ref j hj).2.1 D.le))
    have H := last (k + 1) w1 hk D1
    rw [el] at H
    refine wp_mono H ?_
    rintro _ w' ⟨z, nops, hn, y, z1, z2⟩
    have n2 := y.grow.next
    obtain ⟨o1, o2, o3⟩ := one (k + 1) w1 w' hk D1 z nops hn z1
    refine ⟨_, R.lay.trans y, fun q hq => ?_, fun o ho => ?_, fun h h' hz he j hj q hq => ?_⟩
    · rw [dsts_append, o1, List.mem_append] at hq
      rcases hq with hq | hq
      · obtain ⟨j, hj, h⟩ := R.dst q hq
        exact ⟨j, by omega, h⟩
      · exact ⟨k + 1, le_refl _, dsts_map_set hq⟩
    · rcases List.mem_append.1 ho with ho | ho
      · exact R.fine o ho
      · exact o2 o ho
    · obtain ⟨h1, e1, e2⟩ := exec_append_ok.1 he
      have zz : h1.val z = GoNum.zero := by
        rw [(exec_frame e1).2 z fun hm => ?_, hz z (by omega) z2]
        obtain ⟨i, hi, hq⟩ := R.dst z hm
        have := D.dreg (by omega) hq
        omega
      have s1 := o3 h1 h' e2
      by_cases hq2 : q ∈ (L (k + 1)).dM.ops
      · rw [s1 q hq2, zz]
      · have hjk : j ≤ k := by
          rcases Nat.lt_or_ge k j with h | h
          · have : j = k + 1 := by omega
            subst this; exact absurd hq hq2
          · exact h
        rw [(exec_frame e2).2 q (by rw [o1]; exact fun hm => hq2 (dsts_map_set hm))]
        exact R.run h h1 (fun q a c => hz q a (by omega)) e1 j hjk q hq

/-! ### `CompileBackPropagation` -/

/-- scalars and tensors are kept -/
structure WideG (L : Nat → Prop) (w w' : World T) : Prop where
  ext : Ext w w'
  val : ∀ q, q < w.store.heap.next → w'.store.heap.val q = w.store.heap.val q
  layers : ∀ l, ¬ L l → w'.layers l = w.layers l
  layerNext : w'.layerNext = w.layerNext
  netNext : w'.netNext = w.netNext

theorem Grow.wideG {L L' : Nat → Prop} {new : List (Op T)} {w w' : World T} (y : Grow L (fun _ => False) new w w') (h : ∀ l, L l → L' l) : WideG L' w w' :=
  ⟨y.ext, fun _ hq => y.val _ hq (fun h => h), fun l hl => y.layers l fun h' => hl (h l h'), y.layerNext, y.netNext⟩

theorem Lay.wideG {L L' : Nat → Prop} {new : List (Op T)} {w w' : World T} (y : Lay L new w w') (h : ∀ l, L l → L' l) : WideG L' w w' :=
  _root_.Godeep.Grow.wideG y.grow h

theorem wideG_of_eq {L : Nat → Prop} {w w' : World T} (h1 : w'.store.heap = w.store.heap) (h2 : w'.nodeNext = w.nodeNext)
    (h3 : w'.store.nodes = w.store.nodes) (h4 : w'.layers = w.layers) (h5 : w'.layerNext = w.layerNext) (h6 : w'.netNext = w.netNext) :
    WideG L w w' :=
  ⟨ext_of_eq (by rw [h1]) h2 h3, fun q _ => by rw [h1], fun l _ => by rw [h4], h5, h6⟩

theorem WideG.trans {L : Nat → Prop} {w1 w2 w3 : World T} (a : WideG L w1 w2) (b : WideG L w2 w3) : WideG L w1 w3 := by
  have h1 := a.ext.next
  exact ⟨a.ext.trans b.ext, fun q hq => by rw [b.val q (by omega), a.val q hq],
    fun l hl => by rw [b.layers l hl, a.layers l hl], by rw [b.layerNext, a.layerNext], by rw [b.netNext, a.netNext]⟩

/-- what `CompileBackPropagation` makes -/
structure GData (T : Type) where
  tgt : Nat
  tM : Mat
  loss : Ptr
  alpha : Ptr
  momentum : Ptr
  cd : List (Op T)
  bp : List (Op T)
  rf : List (Op T)
  nps : Nat → List Mat
  mbs : Nat → List Mat
  la : Nat
  lx : Nat
  ly : Nat

/-- a compiled network before `CompileBackPropagation` -/
structure GIn (shape : List Nat) (ls : List (LSpec T)) (m b : Nat) (L : Nat → GLayer) (a0 : Activation T) (lo : Nat) (w : World T) : Prop where
  dat : GAt shape ls b L a0 lo w
  set : GSep ls L lo
  bpf : ∀ s ∈ ls, s.bpFits
  hz : ∀ j ≤ ls.length, eq (uses (ls.drop j)) zero = false
  szp : 0 < size (L ls.length).oM.shape
  last : (w.nets m).last = some (b + ls.length)
  out : (w.nets m).output = some (L ls.length).out
  bp : ∀ j ≤ ls.length, (w.layers (b + j)).bp = false
  der : ∀ j ≤ ls.length, (w.layers (b + j)).der = none
  fuel : b + ls.length < w.layerNext

/-- what it does -/
structure GBuilt (shape : List Nat) (ls : List (LSpec T)) (m b : Nat) (L : Nat → GLayer) (a0 : Activation T) (d : GData T)
    (w w' : World T) : Prop where
  wide : WideG (fun l => b ≤ l ∧ l ≤ b + ls.length) w w'
  fwd : ∀ l, (w'.layers l).fwd = (w.layers l).fwd
  train : ∀ l, (w'.layers l).trainable = (w.layers l).trainable
  other : ∀ k, k ≠ m → w'.nets k = w.nets k
  net : w'.nets m = { w.nets m with target := some d.tgt, loss := d.loss, calDif := some d.cd, alpha := d.alpha, momentum := d.momentum, bp := some d.bp, resetFit := some d.rf }
  rt : Ready w' d.tgt d.tM
  tshape : d.tM.shape = (L ls.length).oM.shape
  tnd : d.tM.ops.Nodup
  treg : ∀ q ∈ d.tM.ops, w.store.heap.next ≤ q ∧ q < d.la
  cdone : CDone (L ls.length).dM d.tM (L ls.length).oM (size (L ls.length).oM.shape) d.la d.cd
  cells : d.loss = d.la + size (L ls.length).oM.shape ∧ d.alpha = d.loss + 1 ∧ d.momentum = d.loss + 2 ∧ d.lx = d.loss + 3
  bp : ∃ wx wy, GBDone shape ls b L a0 d.alpha d.momentum ls.length d.bp d.nps d.mbs wx wy ∧ wx.store.heap.next = d.lx ∧ wy.store.heap.next = d.ly ∧
    wx.layers = w.layers ∧ w'.layers = wy.layers ∧ WideG (fun l => b ≤ l ∧ l ≤ b + ls.length) w wx ∧ WideG (fun l => b ≤ l ∧ l ≤ b + ls.length) wy w'
  rf : ∃ wy wz, GRF L ls.length d.rf wy wz ∧ wy.store.heap.next = d.ly ∧ wz.store.heap = w'.store.heap
  le : w.store.heap.next ≤ d.la ∧ d.lx ≤ d.ly ∧ d.ly ≤ w'.store.heap.next

structure GTail (shape : List Nat) (ls : List (LSpec T)) (m b : Nat) (L : Nat → GLayer) (a0 : Activation T) (loss : Ptr)
    (bp rf : List (Op T)) (nps mbs : Nat → List Mat) (ly : Nat) (w w' : World T) : Prop where
  wide : WideG (fun l => b ≤ l ∧ l ≤ b + ls.length) w w'
  fwd : ∀ l, (w'.layers l).fwd = (w.layers l).fwd
  train : ∀ l, (w'.layers l).trainable = (w.layers l).trainable
  nets : w'.nets = (updN m (fun x => { x with loss := loss, calDif := some w.store.ctx, alpha := w.store.heap.next, momentum := w.store.heap.next + 1, bp := some bp, resetFit := some rf }) w).nets
  bp : ∃ wx wy, GBDone shape ls b L a0 w.store.heap.next (w.store.heap.next + 1) ls.length bp nps mbs wx wy ∧ wx.store.heap.next = w.store.heap.next + 2 ∧
    wy.store.heap.next = ly ∧ wx.layers = w.layers ∧ w'.layers = wy.layers ∧ WideG (fun l => b ≤ l ∧ l ≤ b + ls.length) w wx ∧
    WideG (fun l => b ≤ l ∧ l ≤ b + ls.length) wy w'
  rf : ∃ wy wz, GRF L ls.length rf wy wz ∧ wy.store.heap.next = ly ∧ wz.store.heap = w'.store.heap
  le : w.store.heap.next + 2 ≤ ly ∧ ly ≤ w'.store.heap.next

theorem gbpTail_ok {shape : List Nat} {ls : List (LSpec T)} {m b fuel : Nat} {L : Nat → GLayer} {a0 : Activation T} {lo : Nat}
    {loss : Ptr} {w : World T} (D : GAt shape ls b L a0 lo w) (S : GSep ls L lo) (hbf : ∀ s ∈ ls, s.bpFits)
    (hz : ∀ j ≤ ls.length, eq (uses (ls.drop j)) zero = false) (bpf : ∀ j ≤ ls.length, (w.layers (b + j)).bp = false)
    (der : ∀ j ≤ ls.length, (w.layers (b + j)).der = none) (hf : ls.length < fuel) :
    wp True (bpTail m (b + ls.length) fuel (L ls.length).dif loss) (fun _ w' => ∃ bp rf nps mbs ly, GTail shape ls m b L a0 loss bp rf nps mbs ly w w') w := by
  unfold bpTail
  refine wp_bind (wp_of_ok (r := ()) (w' := updN m (fun x => { x with loss := loss }) w) rfl ?_)
  refine wp_bind (wp_of_ok (r := w.store.ctx) (w' := updN m (fun x => { x with loss := loss }) w) rfl ?_)
  obtain ⟨cd, hcd⟩ : ∃ x, x = w.store.ctx := ⟨_, rfl⟩
  rw [← hcd]
  refine wp_bind (wp_of_ok (r := ()) (w' := updN m (fun x => { x with calDif := some cd }) (updN m (fun x => { x with loss := loss }) w)) rfl ?_)
  refine wp_bind (wp_of_ok (r := ()) (w' := clr (updN m (fun x => { x with calDif := some cd }) (updN m (fun x => { x with loss := loss }) w))) rfl ?_)
  obtain ⟨w8, hw8⟩ : ∃ x, x = clr (updN m (fun x => { x with calDif := some cd }) (updN m (fun x => { x with loss := loss }) w)) := ⟨_, rfl⟩
  rw [← hw8]
  have W78 : WideG (fun l => b ≤ l ∧ l ≤ b + ls.length) w w8 := by rw [hw8]; exact wideG_of_eq rfl rfl rfl rfl rfl rfl
  have h8 : w8.store.heap = w.store.heap := by rw [hw8]; rfl
  have n8 : w8.nets = (updN m (fun x => { x with loss := loss, calDif := some cd }) w).nets := by
    rw [hw8]
    funext k
    by_cases hk : k = m
    · subst hk
      rw [show ∀ v : World T, (clr v).nets = v.nets from fun _ => rfl, updN_same, updN_same, updN_same]
    · rw [show ∀ v : World T, (clr v).nets = v.nets from fun _ => rfl, updN_ne _ _ hk, updN_ne _ _ hk, updN_ne _ _ hk]
  have l8 : w8.layers = w.layers := by rw [hw8]; rfl
  have c8 : w8.store.ctx = [] := by rw [hw8]; rfl
  clear hw8
  refine wp_bind (wp_scalar' (L := fun _ => False) fun w9 y9 x9 l9 o9 d9 => ?_)
  refine wp_bind (wp_scalar' (L := fun _ => False) fun w10 y10 x10 l10 o10 d10 => ?_)
  rw [h8] at x9 ⊢
  rw [x9] at x10 ⊢
  obtain ⟨al, hal⟩ : ∃ x, x = w.store.heap.next := ⟨_, rfl⟩
  rw [← hal] at x10 ⊢
  refine wp_bind (wp_of_ok (r := ()) (w' := updN m (fun x => { x with alpha := al, momentum := al + 1 }) w10) rfl ?_)
  obtain ⟨w11, hw11⟩ : ∃ x, x = updN m (fun x => { x with alpha := al, momentum := al + 1 }) w10 := ⟨_, rfl⟩
  rw [← hw11]
  have y810 : Lay (fun _ => False) [] w8 w10 := by simpa using y9.trans y10
  have W1011 : WideG (fun l => b ≤ l ∧ l ≤ b + ls.length) w10 w11 := by rw [hw11]; exact wideG_of_eq rfl rfl rfl rfl rfl rfl
  have n11 : w11.nets = (updN m (fun x => { x with loss := loss, calDif := some cd, alpha := al, momentum := al + 1 }) w).nets := by
    rw [hw11]
    funext k
    by_cases hk : k = m
    · subst hk
      rw [updN_same, updN_same, y810.grow.nets, n8, updN_same]
    · rw [updN_ne _ _ hk, updN_ne _ _ hk, y810.grow.nets, n8, updN_ne _ _ hk]
  have c11 : w11.store.ctx = [] := by rw [hw11, updN_store, y810.grow.ctx, c8]; rfl
  have x11 : w11.store.heap.next = al + 2 := by rw [hw11, updN_store, x10]
  have l11 : w11.layers = w.layers := by rw [hw11, updN_layers, l10, l9, l8]
  have W011 : WideG (fun l => b ≤ l ∧ l ≤ b + ls.length) w w11 := (W78.trans (y810.wideG fun _ h => h.elim)).trans W1011
  clear hw11
  have rdw := (D.gdif ls.length (le_refl _)).2
  have pos := D.pos
  have k11 : (w11.store.nodes (L ls.length).dif).kind = .leaf := by rw [W011.ext.kind _ rdw.1.lt, rdw.2]
  refine wp_bind (wp_setBuild k11 fun wx yx hx => ?_)
  have W0x : WideG (fun l => b ≤ l ∧ l ≤ b + ls.length) w wx := W011.trans (yx.wideG fun _ h => h.elim)
  have nxw : wx.store.heap.next = al + 2 := by rw [hx, x11]
  have lx : wx.layers = w.layers := by
    funext l
    rw [yx.grow.layers l (fun h => h), l11]
  have Dx : GAt shape ls b L a0 lo wx := D.later W0x.ext (fun k _ => by rw [lx]) (fun k hk => W0x.val _ (lt_of_lt_of_le (D.ref k hk).2.1 D.le))
  have hdlow : ∀ j ≤ ls.length, ∀ q ∈ (L j).dM.ops, q < al := fun j hj q hq => by
    rw [hal]; exact D.dreg hj hq
  have B := gbp_chain (b := b) (a0 := a0) (alpha := al) (momentum := al + 1) S hbf hz
    ⟨by omega, fun j hj h => by have := hdlow j hj _ h; omega⟩ ⟨by omega, fun j hj h => by have := hdlow j hj _ h; omega⟩
    ls.length fuel wx (le_refl _) Dx hf (by omega) (by omega)
    (fun j hj => by rw [lx]; exact bpf j hj) (fun j hj => by rw [lx]; exact der j (by have := root_le ls ls.length; omega))
  refine wp_bind (wp_mono B ?_)
  rintro _ wy ⟨bp, nps, mbs, BD⟩
  have cy : wy.store.ctx = bp := by rw [BD.grow.ctx, yx.grow.ctx, c11]; simp
  refine wp_bind (wp_of_ok (r := wy.store.ctx) (w' := wy) rfl ?_)
  rw [cy]
  refine wp_bind (wp_of_ok (r := ()) (w' := clr wy) rfl ?_)
  have W0y : WideG (fun l => b ≤ l ∧ l ≤ b + ls.length) w wy := W0x.trans (BD.grow.wideG fun _ h => h)
  have W0c : WideG (fun l => b ≤ l ∧ l ≤ b + ls.length) w (clr wy) := W0y.trans (wideG_of_eq rfl rfl rfl rfl rfl rfl)
  have Dy : GAt shape ls b L a0 lo (clr wy) := D.later W0c.ext (fun k _ => by
    show (wy.layers _).fwd = _
    rw [BD.fwd, lx]) (fun k hk => W0c.val _ (lt_of_lt_of_le (D.ref k hk).2.1 D.le))
  have hny := W0c.ext.next
  refine wp_bind (wp_mono (gresetFit_chain S ls.length fuel (clr wy) (le_refl _) Dy hf) ?_)
  rintro _ wz ⟨rf, RD⟩
  have cz : wz.store.ctx = rf := by rw [RD.lay.grow.ctx]; rfl
  refine wp_bind (wp_of_ok (r := wz.store.ctx) (w' := wz) rfl ?_)
  rw [cz]
  refine wp_of_ok (r := ()) (w' := updN m (fun x => { x with bp := some bp, resetFit := some rf }) wz) rfl ?_
  obtain ⟨w', hw'⟩ : ∃ x, x = updN m (fun x => { x with bp := some bp, resetFit := some rf }) wz := ⟨_, rfl⟩
  rw [← hw']
  have Wz' : WideG (fun l => b ≤ l ∧ l ≤ b + ls.length) wz w' := by rw [hw']; exact wideG_of_eq rfl rfl rfl rfl rfl rfl
  have Wyz : WideG (fun l => b ≤ l ∧ l ≤ b + ls.length) wy w' :=
    ((wideG_of_eq rfl rfl rfl rfl rfl rfl : WideG _ wy (clr wy)).trans (RD.lay.wideG fun _ h => h.elim)).trans Wz'
  have lz : w'.layers = wy.layers := by
    funext l
    rw [hw', updN_layers, RD.lay.grow.layers l (fun h => h)]; rfl
  have nz : wz.nets = w11.nets := by
    rw [RD.lay.grow.nets]
    show wy.nets = _
    rw [BD.grow.nets, yx.grow.nets]
  refine ⟨bp, rf, nps, mbs, wy.store.heap.next, W0y.trans Wyz, fun l => ?_, fun l => ?_, ?_,
    ⟨wx, wy, by rw [← hal]; exact BD, by rw [nxw, hal], rfl, lx, lz, W0x, Wyz⟩, ⟨clr wy, wz, RD, rfl, by rw [hw']; rfl⟩, ⟨?_, Wyz.ext.next⟩⟩
  · rw [lz, BD.fwd, lx]
  · rw [lz, BD.train, lx]
  · rw [← hcd, ← hal, hw']
    funext k
    by_cases hk : k = m
    · subst hk
      rw [updN_same, nz, n11, updN_same, updN_same]
    · rw [updN_ne _ _ hk, nz, n11, updN_ne _ _ hk, updN_ne _ _ hk]
  · have := BD.grow.next
    omega

attribute [local irreducible] bpTail bpMid

theorem gbpMid_ok {shape : List Nat} {ls : List (LSpec T)} {m b : Nat} {L : Nat → GLayer} {a0 : Activation T} {lo : Nat}
    {w w6 : World T} (I : GIn shape ls m b L a0 lo w) {n dm tgt : Nat} {tM : Mat} {na : List (Op T)} (hn : n = size (L ls.length).oM.shape)
    (W06 : WideG (fun l => b ≤ l ∧ l ≤ b + ls.length) w w6) (an : AllNop na)
    (c6 : w6.store.ctx = na ++ subOps (L ls.length).dM tM (L ls.length).oM n)
    (n6 : w6.nets = (updN m (fun x => { x with target := some tgt }) w).nets) (l6 : w6.layers = w.layers)
    (rm6 : Ready w6 dm (L ls.length).dM) (rt6 : Ready w6 tgt tM) (tsh : tM.shape = (L ls.length).oM.shape) (tnd : tM.ops.Nodup)
    (htr0 : ∀ q ∈ tM.ops, w.store.heap.next ≤ q ∧ q < w6.store.heap.next)
    (hlen : (L ls.length).dM.ops.length = n ∧ tM.ops.length = n ∧ (L ls.length).oM.ops.length = n) :
    wp True (bpMid m (b + ls.length) (w.layerNext + 1) (L ls.length).dif dm) (fun _ w' => ∃ d, GBuilt shape ls m b L a0 d w w') w6 := by
  have shd := (I.set.shape ls.length (le_refl _)).1
  have szp := I.szp
  have rdw := (I.dat.gdif ls.length (le_refl _)).2
  have row := I.dat.out ls.length (le_refl _)
  obtain ⟨la, hla⟩ : ∃ x, x = w6.store.heap.next := ⟨_, rfl⟩
  have hnl : w.store.heap.next ≤ la := by rw [hla]; exact W06.ext.next
  have htr : ∀ q ∈ tM.ops, w.store.heap.next ≤ q ∧ q < la := by rw [hla]; exact htr0
  refine wp_bpMid rm6 ?_
  intro w7 nb anb y7 h7
  rw [shd] at h7 ⊢
  rw [← hla] at h7 y7 ⊢
  rw [← hn] at h7 ⊢
  have c7 : w7.store.ctx = na ++ (subOps (L ls.length).dM tM (L ls.length).oM n ++ (nb ++ lossOps la (L ls.length).dM)) := by
    rw [y7.grow.ctx, c6, List.append_assoc]
  have n7 : w7.nets = (updN m (fun x => { x with target := some tgt }) w).nets := by rw [y7.grow.nets, n6]
  have W07 : WideG (fun l => b ≤ l ∧ l ≤ b + ls.length) w w7 := W06.trans (y7.wideG fun _ h => h.elim)
  have l7 : w7.layers = w.layers := by
    funext l
    rw [y7.grow.layers l (fun h => h), l6]
  have rt7 := rt6.grow y7.grow
  have D7 : GAt shape ls b L a0 lo w7 := I.dat.later W07.ext (fun k _ => by rw [l7]) (fun k hk => W07.val _ (lt_of_lt_of_le (I.dat.ref k hk).2.1 I.dat.le))
  have CI : CIn (L ls.length).dM tM (L ls.length).oM n la := by
    have hd : ∀ q ∈ (L ls.length).dM.ops, q < w.store.heap.next := fun q hq => I.dat.dreg (le_refl _) hq
    refine ⟨by omega, by rw [shd, hn], hlen, (I.set.shape _ (le_refl _)).2, fun q hq => ⟨fun h => ?_, fun h => ?_⟩,
      fun q hq => ⟨(rdw.1.good.valid q hq).1, by have := hd q hq; omega⟩,
      fun q hq => ⟨(rt6.good.valid q hq).1, (htr q hq).2⟩, fun q hq => ⟨(row.good.valid q hq).1, by have := (row.good.valid q hq).2; omega⟩⟩
    · have := htr q h
      have := hd q hq
      omega
    · exact I.set.out _ (le_refl _) q hq _ (le_refl _) h
  have CD := CI.done (T := T) an anb
  rw [← c7, hn] at CD
  have hx7 : w.store.heap.next ≤ w7.store.heap.next := W07.ext.next
  have HT := gbpTail_ok (m := m) (fuel := w.layerNext + 1) (loss := la + n) D7 I.set I.bpf I.hz
    (fun j hj => by rw [l7]; exact I.bp j hj) (fun j hj => by rw [l7]; exact I.der j hj) (by have := I.fuel; omega)
  refine wp_mono HT ?_
  rintro _ w' ⟨bp, rf, nps, mbs, ly, H⟩
  refine ⟨⟨tgt, tM, la + n, la + n + 1, la + n + 2, w7.store.ctx, bp, rf, nps, mbs, la, la + n + 3, ly⟩, W07.trans H.wide, fun l => ?_, fun l => ?_,
    fun k hk => ?_, ?_, rt7.ext H.wide.ext, tsh, tnd, htr, CD, ⟨by rw [hn], rfl, rfl, rfl⟩, ?_, H.rf, ⟨hnl, ?_, H.le.2⟩⟩
  · rw [H.fwd, l7]
  · rw [H.train, l7]
  · rw [H.nets, updN_ne _ _ hk, n7, updN_ne _ _ hk]
  · rw [H.nets, updN_same, n7, updN_same, h7]
  · obtain ⟨wx, wy, h1, h2, h3, h4, h5, h6, h8⟩ := H.bp
    rw [h7] at h1 h2
    exact ⟨wx, wy, h1, h2, h3, by rw [h4, l7], h5, W07.trans h6, h8⟩
  · have := H.le.1
    rw [h7] at this
    exact this

theorem gcompileBP_ok {shape : List Nat} {ls : List (LSpec T)} {m b : Nat} {L : Nat → GLayer} {a0 : Activation T} {lo : Nat}
    {w : World T} (I : GIn shape ls m b L a0 lo w) :
    wp True (NetM.compileBP m) (fun _ w' => ∃ d, GBuilt shape ls m b L a0 d w w') w := by
  have shd := (I.set.shape ls.length (le_refl _)).1
  have szp := I.szp
  obtain ⟨N, hN⟩ : ∃ N, N = ls.length := ⟨_, rfl⟩
  obtain ⟨n, hn⟩ : ∃ n, n = size (L ls.length).oM.shape := ⟨_, rfl⟩
  have rdw := (I.dat.gdif ls.length (le_refl _)).2
  have row := I.dat.out ls.length (le_refl _)
  rw [compileBP_eq]
  refine wp_bind (wp_of_ok (r := ()) (w' := clr w) rfl ?_)
  refine wp_bind (wp_net ?_)
  refine wp_bind (wp_deref I.last ?_)
  refine wp_bind (wp_of_ok (r := w.layerNext + 1) (w' := clr w) rfl ?_)
  have hgd : LayerM.getDif (w.layerNext + 1) (b + ls.length) (clr w) = .ok (some (L ls.length).dif) (clr w) := by
    have hlay : ((clr w).layers (b + ls.length)).pre = none ∨ ∃ s : LSpec T, ((clr w).layers (b + ls.length)).kind = s.kind := by
      rcases Nat.eq_zero_or_pos ls.length with h | h
      · rw [h]; exact Or.inl I.dat.kind0.2.1
      · have := (I.dat.lay (ls.length - 1) _ (List.getElem?_eq_getElem (by omega))).1
        rw [show b + 1 + (ls.length - 1) = b + ls.length by omega] at this
        exact Or.inr ⟨_, this⟩
    have := delegated_ok (field := Layer.dif) (fuel := w.layerNext + 1) (p := b + ls.length) (w := clr w) (by omega) hlay
    rw [show (clr w).layers = w.layers from rfl, (I.dat.gdif ls.length (le_refl _)).1] at this
    exact this
  refine wp_bind (wp_of_ok hgd ?_)
  refine wp_bind (wp_deref rfl ?_)
  -- the error tensor
  have e0 : Ext w (clr w) := ext_clr w
  have k0 : ((clr w).store.nodes (L ls.length).dif).kind = .leaf := rdw.2
  refine wp_bind (wp_setBuild k0 fun w1 y1 h1 => ?_)
  have k1 : (w1.store.nodes (L ls.length).dif).kind = .leaf := by rw [y1.grow.kind _ (rdw.1.ext e0).lt, k0]
  refine wp_bind (wp_buildMat k1 fun w2 na an y2 h2 => ?_)
  have y02 : Lay (fun _ => False) na (clr w) w2 := by simpa using y1.trans y2
  refine wp_bind (wp_deref I.out ?_)
  refine wp_bind (wp_mat ?_)
  rw [((row.ext e0).grow y02.grow).mat]
  have hp2 : 0 < w2.store.heap.next := by rw [h2, h1]; exact I.dat.pos
  refine wp_bind (wp_zeros' (L := fun _ => False) hp2 fun w3 tM y3 _ _ rt3 tsh tnd treg _ => ?_)
  obtain ⟨tgt, htgt⟩ : ∃ t, t = w2.nodeNext := ⟨_, rfl⟩
  rw [← htgt] at rt3 ⊢
  refine wp_bind (wp_of_ok (r := ()) (w' := updN m (fun x => { x with target := some tgt }) w3) rfl ?_)
  obtain ⟨w4, hw4⟩ : ∃ x, x = updN m (fun x => { x with target := some tgt }) w3 := ⟨_, rfl⟩
  rw [← hw4]
  have y03 : Lay (fun _ => False) na (clr w) w3 := by simpa using y02.trans y3
  have e34 : WideG (fun l => b ≤ l ∧ l ≤ b + ls.length) w3 w4 := by rw [hw4]; exact wideG_of_eq rfl rfl rfl rfl rfl rfl
  have c4 : w4.store.ctx = na := by
    rw [hw4, updN_store, y03.grow.ctx]; rfl
  have n4 : w4.nets = (updN m (fun x => { x with target := some tgt }) w).nets := by
    rw [hw4]; unfold updN
    rw [y03.grow.nets]; rfl
  have W04 : WideG (fun l => b ≤ l ∧ l ≤ b + ls.length) w w4 :=
    ((wideG_of_eq rfl rfl rfl rfl rfl rfl : WideG _ w (clr w)).trans (y03.wideG fun _ h => h.elim)).trans e34
  have rd4 := rdw.1.ext W04.ext
  have ro4 := row.ext W04.ext
  have rt4 := rt3.ext e34.ext
  have hlen : (L ls.length).dM.ops.length = n ∧ tM.ops.length = n ∧ (L ls.length).oM.ops.length = n := by
    refine ⟨by rw [rdw.1.good.len, shd, hn], by rw [rt3.good.len, tsh, hn], by rw [row.good.len, hn]⟩
  refine wp_bind (wp_calDif rd4 rt4 ro4 hlen fun w5 y5 h5 => ?_)
  -- the loss
  have em : NetM.matNode (L ls.length).dif w5 = .ok w5.nodeNext
      { w5 with store := w5.store.setNode w5.nodeNext ⟨.leaf, (w5.store.nodes (L ls.length).dif).mat, (w5.store.nodes (L ls.length).dif).built⟩, nodeNext := w5.nodeNext + 1 } := rfl
  refine wp_bind (wp_of_ok em ?_)
  obtain ⟨w6, hw6⟩ : ∃ x, x = ({ w5 with store := w5.store.setNode w5.nodeNext ⟨.leaf, (w5.store.nodes (L ls.length).dif).mat, (w5.store.nodes (L ls.length).dif).built⟩, nodeNext := w5.nodeNext + 1 } : World T) := ⟨_, rfl⟩
  rw [← hw6]
  have y6 : Lay (fun _ => False) [] w5 w6 := by
    rw [hw6]
    exact ⟨grow_newNode _ w5, fun q h1 h2 => by
      have : q < w5.store.heap.next := h2
      omega⟩
  have h6 : w6.store.heap = w5.store.heap := by rw [hw6]; rfl
  have rd5 := rd4.grow y5.grow
  have rm6 : Ready w6 w5.nodeNext (L ls.length).dM := by
    have en : w6.store.nodes w5.nodeNext = ⟨.leaf, (w5.store.nodes (L ls.length).dif).mat, (w5.store.nodes (L ls.length).dif).built⟩ := by
      rw [hw6]; simp [Store.setNode]
    refine ⟨by rw [hw6]; simp, by rw [en]; exact rd5.mat, ?_, by rw [h6]; exact rd5.good, ?_, ?_, ?_⟩
    · right
      rw [en]; trivial
    · rw [en]; simp [Kind.kids]
    · rw [en]; trivial
    · rw [en]; trivial
  obtain ⟨dmn, hdmn⟩ : ∃ x, x = w5.nodeNext := ⟨_, rfl⟩
  rw [← hdmn] at rm6 ⊢
  have y46 : Lay (fun _ => False) (subOps (L ls.length).dM tM (L ls.length).oM n) w4 w6 := by
    simpa using y5.trans y6
  refine gbpMid_ok I hn (W04.trans (y46.wideG fun _ h => h.elim)) an ?_ ?_ ?_ rm6 (rt4.grow y46.grow) tsh tnd ?_ hlen
  · rw [y46.grow.ctx, c4]
  · rw [y46.grow.nets, n4]
  · funext l
    rw [y46.grow.layers l (fun h => h), hw4, updN_layers, y03.grow.layers l (fun h => h)]
    rfl
  · intro q hq
    have h1 := treg q hq
    have h3 := y02.grow.next
    have h4 : (clr w).store.heap.next = w.store.heap.next := rfl
    have h5 := (e34.trans (y46.wideG fun _ h => h.elim)).ext.next
    omega

end Godeep
