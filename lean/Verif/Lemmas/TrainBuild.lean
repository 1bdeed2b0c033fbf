import Verif.Lemmas.CalDif
/-
  `CompileBackPropagation` of a network of dense layers.
-/
set_option linter.unusedSectionVars false

namespace Godeep
open Spec GoNum

variable {T : Type} [GoNum T]

/-- scalars and tensors are kept and the new scalars are zero -/
structure Wide (L : Nat → Prop) (w w' : World T) : Prop where
  ext : Ext w w'
  val : ∀ q, q < w.store.heap.next → w'.store.heap.val q = w.store.heap.val q
  zero : ∀ q, w.store.heap.next ≤ q → q < w'.store.heap.next → w'.store.heap.val q = GoNum.zero
  layers : ∀ l, ¬ L l → w'.layers l = w.layers l
  layerNext : w'.layerNext = w.layerNext
  netNext : w'.netNext = w.netNext

theorem Lay.wide {L L' : Nat → Prop} {new : List (Op T)} {w w' : World T} (y : Lay L new w w') (h : ∀ l, L l → L' l) : Wide L' w w' :=
  ⟨y.grow.ext, fun _ hq => y.val hq, y.zero, fun l hl => y.grow.layers l fun h' => hl (h l h'), y.grow.layerNext, y.grow.netNext⟩

theorem wide_of_eq {L : Nat → Prop} {w w' : World T} (h1 : w'.store.heap = w.store.heap) (h2 : w'.nodeNext = w.nodeNext)
    (h3 : w'.store.nodes = w.store.nodes) (h4 : w'.layers = w.layers) (h5 : w'.layerNext = w.layerNext) (h6 : w'.netNext = w.netNext) :
    Wide L w w' :=
  ⟨ext_of_eq (by rw [h1]) h2 h3, fun q _ => by rw [h1], fun q a b => by rw [h1] at b; omega, fun l _ => by rw [h4], h5, h6⟩

theorem Wide.trans {L : Nat → Prop} {w1 w2 w3 : World T} (a : Wide L w1 w2) (b : Wide L w2 w3) : Wide L w1 w3 := by
  have h1 := a.ext.next
  refine ⟨a.ext.trans b.ext, fun q hq => by rw [b.val q (by omega), a.val q hq], fun q h2 h3 => ?_,
    fun l hl => by rw [b.layers l hl, a.layers l hl], by rw [b.layerNext, a.layerNext], by rw [b.netNext, a.netNext]⟩
  by_cases h : q < w2.store.heap.next
  · rw [b.val q h, a.zero q h2 h]
  · exact b.zero q (by omega) h3

/-- `SetBuild` on a plain tensor -/
theorem lay_setBuild {n : Nat} {v : Bool} {w : World T} (hk : (w.store.nodes n).kind = .leaf) {ctx : List (Op T)} :
    Lay (fun _ => False) ctx w { w with store := { w.store.setNode n { w.store.nodes n with built := v } with ctx := w.store.ctx ++ ctx } } := by
  refine ⟨⟨le_refl _, fun _ _ _ => rfl, le_refl _, fun x _ => ?_, fun x _ hf => ?_, fun _ _ => rfl, rfl, rfl, rfl, rfl⟩, fun q h1 h2 => ?_⟩
  · show (if x = n then _ else _ : Node T).kind = _
    split_ifs with h
    · rw [h]
    · rfl
  · refine ⟨?_, ?_⟩
    · by_cases h : x = n
      · right
        show (match (if x = n then _ else _ : Node T).kind with
          | .leaf => True
          | _ => False)
        rw [if_pos h]
        simp only [hk]
      · show frozen ({ w.store.setNode n _ with ctx := _ }) x
        unfold frozen at hf ⊢
        simp only [Store.setNode, if_neg h]
        exact hf
    · show (if x = n then _ else _ : Node T).mat = _
      split_ifs with h
      · rw [h]
      · rfl
  · have : q < w.store.heap.next := h2
    omega

theorem wp_setBuild {tot : Prop} {n : Nat} {v : Bool} {w : World T} {Q : Unit → World T → Prop} (hk : (w.store.nodes n).kind = .leaf)
    (h : ∀ w', Lay (fun _ => False) [] w w' → w'.store.heap = w.store.heap → Q () w') : wp tot (NetM.setBuild n v) Q w := by
  have := lay_setBuild (v := v) (ctx := []) hk
  simp only [List.append_nil] at this
  exact h _ this rfl

theorem wp_buildMat {tot : Prop} {n : Nat} {w : World T} {Q : Unit → World T → Prop} (hk : (w.store.nodes n).kind = .leaf)
    (h : ∀ w' nops, AllNop nops → Lay (fun _ => False) nops w w' → w'.store.heap = w.store.heap → Q () w') : wp tot (NetM.buildMat n) Q w := by
  unfold NetM.buildMat wp
  by_cases hb : (w.store.nodes n).built = true
  · simp only [hb, if_true]
    exact h w [] allNop_nil (.refl _ _) rfl
  · simp only [hb]
    refine h _ _ (fun o ho => ?_) (lay_setBuild (v := true) hk) rfl
    obtain ⟨p, _, rfl⟩ := List.mem_map.1 ho
    exact ⟨p, rfl⟩

/-- the loop of `CompileBackPropagation` -/
theorem wp_calDif {dif target output n : Nat} {dM tM oM : Mat} {w : World T} {Q : Unit → World T → Prop}
    (rd : Ready w dif dM) (rt : Ready w target tM) (ro : Ready w output oM)
    (hl : dM.ops.length = n ∧ tM.ops.length = n ∧ oM.ops.length = n)
    (h : ∀ w', Lay (fun _ => False) (subOps dM tM oM n) w w' → w'.store.heap = w.store.heap → Q () w') :
    wp True (NetM.calDif dif target output) Q w := by
  obtain ⟨l1, l2, l3⟩ := hl
  unfold NetM.calDif
  refine wp_bind (wp_mat ?_)
  refine wp_bind (wp_mat ?_)
  refine wp_bind (wp_mat ?_)
  rw [rd.mat, rt.mat, ro.mat, l2]
  refine wp_mono (wp_range (fun j w' => Lay (fun _ => False) (subOps dM tM oM j) w w' ∧ w'.store.heap = w.store.heap)
    ⟨Lay.refl _ w, rfl⟩ ?_) fun _ w' hw => h w' hw.1 hw.2
  rintro j hj w1 ⟨y1, e1⟩
  have hi : ∀ {l : List Ptr}, l.length = n → Res.index l j = .ok (l.getD j 0) := fun {l} hl => by
    have : j < l.length := by omega
    simp [Res.index, this]
  refine wp_bind (wp_lift (hi l1) ?_)
  refine wp_bind (wp_lift (hi l2) ?_)
  refine wp_bind (wp_lift (hi l3) ?_)
  refine wp_push (L := fun _ => False) (C := fun _ => False) fun w2 g2 e2 _ _ _ => ?_
  have y2 : Lay (fun _ => False) [Op.asg (dM.ops.getD j 0) (.sub (tM.ops.getD j 0) (oM.ops.getD j 0))] w1 w2 :=
    ⟨g2, fun q h1 h2 => by rw [e2] at h2; omega⟩
  refine ⟨?_, by rw [e2, e1]⟩
  have := y1.trans y2
  unfold subOps at this ⊢
  rw [List.range_succ, List.map_append]
  exact this

/-- what `CompileBackPropagation` makes -/
structure TData (T : Type) where
  tgt : Nat
  tM : Mat
  loss : Ptr
  alpha : Ptr
  momentum : Ptr
  cd : List (Op T)
  bp : List (Op T)
  rf : List (Op T)
  P : Nat → NLayer
  la : Nat
  lx : Nat
  ly : Nat

/-- a compiled network of dense layers before `CompileBackPropagation` -/
structure BIn (ds : List (Nat × Activation T)) (m b : Nat) (L : Nat → DLayer) (acts : Nat → Activation T) (m0 : Mat) (lo hi : Nat)
    (w : World T) : Prop where
  dat : DAt ds b L acts w
  set : DSet ds m0 lo hi L
  ne : 0 < ds.length
  wid : ∀ d ∈ ds, 0 < d.1
  le : hi ≤ w.store.heap.next
  pos : 0 < w.store.heap.next
  last : (w.nets m).last = some (b + ds.length)
  out : (w.nets m).output = some (L ds.length).out
  bp : ∀ j ≤ ds.length, (w.layers (b + j)).bp = false
  der : ∀ j < ds.length, (w.layers (b + j)).der = none
  fuel : b + ds.length < w.layerNext

/-- what it does -/
structure TBuilt (ds : List (Nat × Activation T)) (m b : Nat) (L : Nat → DLayer) (acts : Nat → Activation T) (d : TData T)
    (w w' : World T) : Prop where
  wide : Wide (fun l => b ≤ l ∧ l ≤ b + ds.length) w w'
  fwd : ∀ l, (w'.layers l).fwd = (w.layers l).fwd
  train : ∀ l, (w'.layers l).trainable = (w.layers l).trainable
  nb0 : (w'.layers b).nBias = (w.layers b).nBias ∧ (w'.layers b).nWeights = (w.layers b).nWeights
  nw : ∀ j, j < ds.length → (w'.layers (b + 1 + j)).nWeights = some (d.P (j + 1)).nw ∧ (w'.layers (b + 1 + j)).nBias = some (d.P (j + 1)).nb
  ready : ∀ j, j < ds.length → Ready w' (d.P (j + 1)).nw (d.P (j + 1)).nwM ∧ Ready w' (d.P (j + 1)).nb (d.P (j + 1)).nbM
  other : ∀ k, k ≠ m → w'.nets k = w.nets k
  net : w'.nets m = { w.nets m with target := some d.tgt, loss := d.loss, calDif := some d.cd, alpha := d.alpha, momentum := d.momentum, bp := some d.bp, resetFit := some d.rf }
  rt : Ready w' d.tgt d.tM
  tshape : d.tM.shape = (L ds.length).oM.shape
  tnd : d.tM.ops.Nodup
  treg : ∀ q ∈ d.tM.ops, w.store.heap.next ≤ q ∧ q < d.la
  cdone : CDone (L ds.length).dM d.tM (L ds.length).oM (size (L ds.length).oM.shape) d.la d.cd
  cells : d.loss = d.la + size (L ds.length).oM.shape ∧ d.alpha = d.loss + 1 ∧ d.momentum = d.loss + 2 ∧ d.lx = d.loss + 3
  bp : ∃ wx wy, BPDone ds b L acts d.alpha d.momentum ds.length d.bp d.P wx wy ∧ wx.store.heap.next = d.lx ∧ wy.store.heap.next = d.ly
  rf : ∃ wy wz, RFDone L ds.length d.rf wy wz ∧ wy.store.heap.next = d.ly ∧ wz.store.heap.next = w'.store.heap.next
  le : w.store.heap.next ≤ d.la ∧ d.lx ≤ d.ly ∧ d.ly ≤ w'.store.heap.next

theorem BIn.outShape {ds : List (Nat × Activation T)} {m b : Nat} {L : Nat → DLayer} {acts : Nat → Activation T} {m0 : Mat} {lo hi : Nat}
    {w : World T} (I : BIn ds m b L acts m0 lo hi w) : (L ds.length).dM.shape = (L ds.length).oM.shape ∧ 0 < size (L ds.length).oM.shape := by
  obtain ⟨j, hj⟩ : ∃ j, ds.length = j + 1 := ⟨ds.length - 1, by have := I.ne; omega⟩
  have O := I.set.one j _ (List.getElem?_eq_getElem (by omega))
  rw [hj, O.sd, O.so]
  refine ⟨rfl, ?_⟩
  have := I.wid _ (List.getElem_mem (show j < ds.length by omega))
  simpa [size] using this

/-- the second half of `CompileBackPropagation` -/
def bpTail (m last fuel dif : Nat) (loss : Ptr) : Run T Unit := do
  Run.modifyNet m fun x => { x with loss := loss }
  let cd ← Run.ops
  Run.modifyNet m fun x => { x with calDif := some cd }
  Run.newCtx
  let alpha ← Run.scalar zero
  let momentum ← Run.scalar zero
  Run.modifyNet m fun x => { x with alpha := alpha, momentum := momentum }
  NetM.setBuild dif false
  LayerM.backProp alpha momentum fuel last
  let bp ← Run.ops
  Run.newCtx
  LayerM.resetFit fuel last
  let rf ← Run.ops
  Run.modifyNet m fun x => { x with bp := some bp, resetFit := some rf }

structure TTail (ds : List (Nat × Activation T)) (m b : Nat) (L : Nat → DLayer) (acts : Nat → Activation T) (loss : Ptr)
    (bp rf : List (Op T)) (P : Nat → NLayer) (ly : Nat) (w w' : World T) : Prop where
  wide : Wide (fun l => b ≤ l ∧ l ≤ b + ds.length) w w'
  fwd : ∀ l, (w'.layers l).fwd = (w.layers l).fwd
  train : ∀ l, (w'.layers l).trainable = (w.layers l).trainable
  nb0 : (w'.layers b).nBias = (w.layers b).nBias ∧ (w'.layers b).nWeights = (w.layers b).nWeights
  nw : ∀ j, j < ds.length → (w'.layers (b + 1 + j)).nWeights = some (P (j + 1)).nw ∧ (w'.layers (b + 1 + j)).nBias = some (P (j + 1)).nb
  ready : ∀ j, j < ds.length → Ready w' (P (j + 1)).nw (P (j + 1)).nwM ∧ Ready w' (P (j + 1)).nb (P (j + 1)).nbM
  nets : w'.nets = (updN m (fun x => { x with loss := loss, calDif := some w.store.ctx, alpha := w.store.heap.next, momentum := w.store.heap.next + 1, bp := some bp, resetFit := some rf }) w).nets
  bp : ∃ wx wy, BPDone ds b L acts w.store.heap.next (w.store.heap.next + 1) ds.length bp P wx wy ∧ wx.store.heap.next = w.store.heap.next + 2 ∧
    wy.store.heap.next = ly
  rf : ∃ wy wz, RFDone L ds.length rf wy wz ∧ wy.store.heap.next = ly ∧ wz.store.heap.next = w'.store.heap.next
  le : w.store.heap.next + 2 ≤ ly ∧ ly ≤ w'.store.heap.next

theorem bpTail_ok {ds : List (Nat × Activation T)} {m b fuel : Nat} {L : Nat → DLayer} {acts : Nat → Activation T} {m0 : Mat} {lo hi : Nat}
    {loss : Ptr} {w : World T} (D : DAt ds b L acts w) (S : DSet ds m0 lo hi L) (wid : ∀ d ∈ ds, 0 < d.1) (le : hi ≤ w.store.heap.next)
    (pos : 0 < w.store.heap.next) (bpf : ∀ j ≤ ds.length, (w.layers (b + j)).bp = false)
    (der : ∀ j < ds.length, (w.layers (b + j)).der = none) (hf : ds.length < fuel) :
    wp True (bpTail m (b + ds.length) fuel (L ds.length).dif loss) (fun _ w' => ∃ bp rf P ly, TTail ds m b L acts loss bp rf P ly w w') w := by
  unfold bpTail
  refine wp_bind (wp_of_ok (r := ()) (w' := updN m (fun x => { x with loss := loss }) w) rfl ?_)
  refine wp_bind (wp_of_ok (r := w.store.ctx) (w' := updN m (fun x => { x with loss := loss }) w) rfl ?_)
  obtain ⟨cd, hcd⟩ : ∃ x, x = w.store.ctx := ⟨_, rfl⟩
  rw [← hcd]
  refine wp_bind (wp_of_ok (r := ()) (w' := updN m (fun x => { x with calDif := some cd }) (updN m (fun x => { x with loss := loss }) w)) rfl ?_)
  refine wp_bind (wp_of_ok (r := ()) (w' := clr (updN m (fun x => { x with calDif := some cd }) (updN m (fun x => { x with loss := loss }) w))) rfl ?_)
  obtain ⟨w8, hw8⟩ : ∃ x, x = clr (updN m (fun x => { x with calDif := some cd }) (updN m (fun x => { x with loss := loss }) w)) := ⟨_, rfl⟩
  rw [← hw8]
  have W78 : Wide (fun l => b ≤ l ∧ l ≤ b + ds.length) w w8 := by rw [hw8]; exact wide_of_eq rfl rfl rfl rfl rfl rfl
  have h8 : w8.store.heap = w.store.heap := by rw [hw8]; rfl
  have n8 : w8.nets = (updN m (fun x => { x with loss := loss, calDif := some cd }) w).nets := by
    rw [hw8]
    funext k
    by_cases hk : k = m
    · subst hk
      rw [show ∀ v : World T, (clr v).nets = v.nets from fun _ => rfl, updN_same, updN_same, updN_same]
    · rw [show ∀ v : World T, (clr v).nets = v.nets from fun _ => rfl, updN_ne _ _ hk, updN_ne _ _ hk, updN_ne _ _ hk]
  have l8 : w8.layers = w.layers := by rw [hw8]; rfl
  have c8 : w8.store.ctx = [] := by rw [hw8]; rfl
  clear hw8
  refine wp_bind (wp_scalar' (L := fun _ => False) fun w9 y9 x9 l9 o9 d9 => ?_)
  refine wp_bind (wp_scalar' (L := fun _ => False) fun w10 y10 x10 l10 o10 d10 => ?_)
  rw [h8] at x9 ⊢
  rw [x9] at x10 ⊢
  obtain ⟨al, hal⟩ : ∃ x, x = w.store.heap.next := ⟨_, rfl⟩
  rw [← hal] at x10 ⊢
  refine wp_bind (wp_of_ok (r := ()) (w' := updN m (fun x => { x with alpha := al, momentum := al + 1 }) w10) rfl ?_)
  obtain ⟨w11, hw11⟩ : ∃ x, x = updN m (fun x => { x with alpha := al, momentum := al + 1 }) w10 := ⟨_, rfl⟩
  rw [← hw11]
  have y810 : Lay (fun _ => False) [] w8 w10 := by simpa using y9.trans y10
  have W1011 : Wide (fun l => b ≤ l ∧ l ≤ b + ds.length) w10 w11 := by rw [hw11]; exact wide_of_eq rfl rfl rfl rfl rfl rfl
  have n11 : w11.nets = (updN m (fun x => { x with loss := loss, calDif := some cd, alpha := al, momentum := al + 1 }) w).nets := by
    rw [hw11]
    funext k
    by_cases hk : k = m
    · subst hk
      rw [updN_same, updN_same, y810.grow.nets, n8, updN_same]
    · rw [updN_ne _ _ hk, updN_ne _ _ hk, y810.grow.nets, n8, updN_ne _ _ hk]
  have c11 : w11.store.ctx = [] := by rw [hw11, updN_store, y810.grow.ctx, c8]; rfl
  have x11 : w11.store.heap.next = al + 2 := by rw [hw11, updN_store, x10]
  have l11 : w11.layers = w.layers := by rw [hw11, updN_layers, l10, l9, l8]
  have W011 : Wide (fun l => b ≤ l ∧ l ≤ b + ds.length) w w11 := (W78.trans (y810.wide fun _ h => h.elim)).trans W1011
  clear hw11
  have rdw := D.ready.dif ds.length (le_refl _)
  have k11 : (w11.store.nodes (L ds.length).dif).kind = .leaf := by rw [W011.ext.kind _ rdw.1.lt, rdw.2]
  refine wp_bind (wp_setBuild k11 fun wx yx hx => ?_)
  have W0x : Wide (fun l => b ≤ l ∧ l ≤ b + ds.length) w wx := W011.trans (yx.wide fun _ h => h.elim)
  have nxw : wx.store.heap.next = al + 2 := by rw [hx, x11]
  have lx : wx.layers = w.layers := by
    funext l
    rw [yx.grow.layers l (fun h => h), l11]
  have Dx : DAt ds b L acts wx := D.later W0x.ext (fun k _ => by rw [lx]) (fun k hk => W0x.val _ (D.ref k hk).2.1)
  have hdlow : ∀ j ≤ ds.length, ∀ q ∈ (L j).dM.ops, q < al := fun j hj q hq => by
    have := S.dlow hj hq
    omega
  have B := bp_chain (b := b) (acts := acts) (alpha := al) (momentum := al + 1) S wid
    ⟨by omega, fun j hj h => by have := hdlow j hj _ h; omega⟩ ⟨by omega, fun j hj h => by have := hdlow j hj _ h; omega⟩
    ds.length fuel wx (le_refl _) Dx (by rw [nxw]; omega) hf (by omega) (by omega)
    (fun j hj => by rw [lx]; exact bpf j hj) (fun j hj => by rw [lx]; exact der j hj)
  refine wp_bind (wp_mono B ?_)
  rintro _ wy ⟨bp, P, BD⟩
  have cy : wy.store.ctx = bp := by rw [BD.lay.grow.ctx, yx.grow.ctx, c11]; simp
  refine wp_bind (wp_of_ok (r := wy.store.ctx) (w' := wy) rfl ?_)
  rw [cy]
  refine wp_bind (wp_of_ok (r := ()) (w' := clr wy) rfl ?_)
  have W0y : Wide (fun l => b ≤ l ∧ l ≤ b + ds.length) w wy := W0x.trans (BD.lay.wide fun _ h => h)
  have W0c : Wide (fun l => b ≤ l ∧ l ≤ b + ds.length) w (clr wy) := W0y.trans (wide_of_eq rfl rfl rfl rfl rfl rfl)
  have Dy : DAt ds b L acts (clr wy) := D.later W0c.ext (fun k _ => by
    show (wy.layers _).fwd = _
    rw [BD.fwd, lx]) (fun k hk => W0c.val _ (D.ref k hk).2.1)
  have hny := W0c.ext.next
  refine wp_bind (wp_mono (resetFit_chain S ds.length fuel (clr wy) (le_refl _) Dy (by omega) (by omega) hf) ?_)
  rintro _ wz ⟨rf, RD⟩
  have cz : wz.store.ctx = rf := by rw [RD.lay.grow.ctx]; rfl
  refine wp_bind (wp_of_ok (r := wz.store.ctx) (w' := wz) rfl ?_)
  rw [cz]
  refine wp_of_ok (r := ()) (w' := updN m (fun x => { x with bp := some bp, resetFit := some rf }) wz) rfl ?_
  obtain ⟨w', hw'⟩ : ∃ x, x = updN m (fun x => { x with bp := some bp, resetFit := some rf }) wz := ⟨_, rfl⟩
  rw [← hw']
  have Wz' : Wide (fun l => b ≤ l ∧ l ≤ b + ds.length) wz w' := by rw [hw']; exact wide_of_eq rfl rfl rfl rfl rfl rfl
  have Wyz : Wide (fun l => b ≤ l ∧ l ≤ b + ds.length) wy w' :=
    ((wide_of_eq rfl rfl rfl rfl rfl rfl : Wide _ wy (clr wy)).trans (RD.lay.wide fun _ h => h.elim)).trans Wz'
  have lz : w'.layers = wy.layers := by
    funext l
    rw [hw', updN_layers, RD.lay.grow.layers l (fun h => h)]; rfl
  have nz : wz.nets = w11.nets := by
    rw [RD.lay.grow.nets]
    show wy.nets = _
    rw [BD.lay.grow.nets, yx.grow.nets]
  refine ⟨bp, rf, P, wy.store.heap.next, W0y.trans Wyz, fun l => ?_, fun l => ?_, ?_, fun j hj => ?_,
    fun j hj => ?_, ?_, ⟨wx, wy, by rw [← hal]; exact BD, by rw [nxw, hal], rfl⟩, ⟨clr wy, wz, RD, rfl, by rw [hw']; rfl⟩, ⟨?_, Wyz.ext.next⟩⟩
  · rw [lz, BD.fwd, lx]
  · rw [lz, BD.train, lx]
  · rw [lz, BD.nb0.1, BD.nb0.2, lx]; exact ⟨rfl, rfl⟩
  · rw [lz]; exact BD.nw j hj
  · exact ⟨(BD.ready j hj).1.ext Wyz.ext, (BD.ready j hj).2.ext Wyz.ext⟩
  · rw [← hcd, ← hal, hw']
    funext k
    by_cases hk : k = m
    · subst hk
      rw [updN_same, nz, n11, updN_same, updN_same]
    · rw [updN_ne _ _ hk, nz, n11, updN_ne _ _ hk, updN_ne _ _ hk]
  · have := BD.lay.grow.next
    omega


/-- the part of `CompileBackPropagation` from the loss on -/
def bpMid (m last fuel dif dm : Nat) : Run T Unit := do
  let a ← Run.lazy (.abs dm)
  let s ← Run.lazy (.math .sum a)
  LayerM.ignoreErr (Run.buildGraph s)
  let loss ← Run.operandAt s 0
  bpTail m last fuel dif loss

theorem compileBP_eq (m : Nat) : (NetM.compileBP m : Run T Unit) = (do
  Run.newCtx
  let x ← Run.net m
  let last ← Run.deref x.last
  let n ← Run.fuel
  let dif ← Run.deref (← LayerM.getDif n last)
  NetM.setBuild dif false
  NetM.buildMat dif
  let out ← Run.deref x.output
  let om ← Run.mat out
  let target ← Run.zeros om.shape
  Run.modifyNet m fun x => { x with target := some target }
  NetM.calDif dif target out
  let dm ← NetM.matNode dif
  bpMid m last n dif dm) := rfl

theorem wp_bpMid {m l f d dm : Nat} {w6 : World T} {M : Mat} {Q : Unit → World T → Prop}
    (rm6 : Ready w6 dm M) (h : ∀ w' nops, AllNop nops → Lay (fun _ => False) (nops ++ lossOps w6.store.heap.next M) w6 w' →
      w'.store.heap.next = w6.store.heap.next + size M.shape + 1 → wp True (bpTail m l f d (w6.store.heap.next + size M.shape)) Q w') : 
    wp True (bpMid m l f d dm) Q w6 := by
  unfold bpMid
  exact wp_loss rm6 h

attribute [local irreducible] bpTail bpMid

theorem bpMid_ok {ds : List (Nat × Activation T)} {m b : Nat} {L : Nat → DLayer} {acts : Nat → Activation T} {m0 : Mat} {lo hi : Nat}
    {w w6 : World T} (I : BIn ds m b L acts m0 lo hi w) {n dm tgt : Nat} {tM : Mat} {na : List (Op T)} (hn : n = size (L ds.length).oM.shape)
    (W06 : Wide (fun l => b ≤ l ∧ l ≤ b + ds.length) w w6) (an : AllNop na)
    (c6 : w6.store.ctx = na ++ subOps (L ds.length).dM tM (L ds.length).oM n)
    (n6 : w6.nets = (updN m (fun x => { x with target := some tgt }) w).nets) (l6 : w6.layers = w.layers)
    (rm6 : Ready w6 dm (L ds.length).dM) (rt6 : Ready w6 tgt tM) (tsh : tM.shape = (L ds.length).oM.shape) (tnd : tM.ops.Nodup)
    (htr0 : ∀ q ∈ tM.ops, w.store.heap.next ≤ q ∧ q < w6.store.heap.next)
    (hlen : (L ds.length).dM.ops.length = n ∧ tM.ops.length = n ∧ (L ds.length).oM.ops.length = n) :
    wp True (bpMid m (b + ds.length) (w.layerNext + 1) (L ds.length).dif dm) (fun _ w' => ∃ d, TBuilt ds m b L acts d w w') w6 := by
  obtain ⟨shd, szp⟩ := I.outShape
  have rdw := I.dat.ready.dif ds.length (le_refl _)
  have row := I.dat.ready.out ds.length (le_refl _)
  obtain ⟨la, hla⟩ : ∃ x, x = w6.store.heap.next := ⟨_, rfl⟩
  have hnl : w.store.heap.next ≤ la := by rw [hla]; exact W06.ext.next
  have htr : ∀ q ∈ tM.ops, w.store.heap.next ≤ q ∧ q < la := by rw [hla]; exact htr0
  refine wp_bpMid rm6 ?_
  intro w7 nb anb y7 h7
  rw [shd] at h7 ⊢
  rw [← hla] at h7 y7 ⊢
  rw [← hn] at h7 ⊢
  have c7 : w7.store.ctx = na ++ (subOps (L ds.length).dM tM (L ds.length).oM n ++ (nb ++ lossOps la (L ds.length).dM)) := by
    rw [y7.grow.ctx, c6, List.append_assoc]
  have n7 : w7.nets = (updN m (fun x => { x with target := some tgt }) w).nets := by rw [y7.grow.nets, n6]
  have W07 : Wide (fun l => b ≤ l ∧ l ≤ b + ds.length) w w7 := W06.trans (y7.wide fun _ h => h.elim)
  have l7 : w7.layers = w.layers := by
    funext l
    rw [y7.grow.layers l (fun h => h), l6]
  have rt7 := rt6.grow y7.grow
  have D7 : DAt ds b L acts w7 := I.dat.later W07.ext (fun k _ => by rw [l7]) (fun k hk => W07.val _ (I.dat.ref k hk).2.1)
  have CI : CIn (L ds.length).dM tM (L ds.length).oM n la := by
    have hd : ∀ q ∈ (L ds.length).dM.ops, lo ≤ q ∧ q < w.store.heap.next := fun q hq => by
      have := I.set.dlow (le_refl _) hq
      have := I.le
      omega
    refine ⟨by omega, by rw [shd, hn], hlen, (I.set.all _ (le_refl _)).ndd, fun q hq => ⟨fun h => ?_, fun h => ?_⟩,
      fun q hq => ⟨(rdw.1.good.valid q hq).1, by have := hd q hq; omega⟩,
      fun q hq => ⟨(rt6.good.valid q hq).1, (htr q hq).2⟩, fun q hq => ⟨(row.good.valid q hq).1, by have := (row.good.valid q hq).2; omega⟩⟩
    · have := htr q h
      have := hd q hq
      omega
    · have := I.set.oreg (le_refl _) q h
      have := hd q hq
      omega
  have CD := CI.done (T := T) an anb
  rw [← c7, hn] at CD
  have hx7 : w.store.heap.next ≤ w7.store.heap.next := W07.ext.next
  have HT := bpTail_ok (m := m) (fuel := w.layerNext + 1) (loss := la + n) D7 I.set I.wid (le_trans I.le hx7)
    (lt_of_lt_of_le I.pos hx7) (fun j hj => by rw [l7]; exact I.bp j hj) (fun j hj => by rw [l7]; exact I.der j hj)
    (by have := I.fuel; omega)
  refine wp_mono HT ?_
  rintro _ w' ⟨bp, rf, P, ly, H⟩
  refine ⟨⟨tgt, tM, la + n, la + n + 1, la + n + 2, w7.store.ctx, bp, rf, P, la, la + n + 3, ly⟩, W07.trans H.wide, fun l => ?_, fun l => ?_, ?_, H.nw,
    H.ready, fun k hk => ?_, ?_, rt7.ext H.wide.ext, tsh, tnd, htr, CD, ⟨by rw [hn], rfl, rfl, rfl⟩, ?_, H.rf, ⟨hnl, ?_, H.le.2⟩⟩
  · rw [H.fwd, l7]
  · rw [H.train, l7]
  · rw [H.nb0.1, H.nb0.2, l7]; exact ⟨rfl, rfl⟩
  · rw [H.nets, updN_ne _ _ hk, n7, updN_ne _ _ hk]
  · rw [H.nets, updN_same, n7, updN_same, h7]
  · have := H.bp
    rw [h7] at this
    exact this
  · have := H.le.1
    rw [h7] at this
    exact this

theorem compileBP_ok {ds : List (Nat × Activation T)} {m b : Nat} {L : Nat → DLayer} {acts : Nat → Activation T} {m0 : Mat} {lo hi : Nat}
    {w : World T} (I : BIn ds m b L acts m0 lo hi w) :
    wp True (NetM.compileBP m) (fun _ w' => ∃ d, TBuilt ds m b L acts d w w') w := by
  obtain ⟨shd, szp⟩ := I.outShape
  obtain ⟨N, hN⟩ : ∃ N, N = ds.length := ⟨_, rfl⟩
  obtain ⟨n, hn⟩ : ∃ n, n = size (L ds.length).oM.shape := ⟨_, rfl⟩
  have rdw := I.dat.ready.dif ds.length (le_refl _)
  have row := I.dat.ready.out ds.length (le_refl _)
  rw [compileBP_eq]
  refine wp_bind (wp_of_ok (r := ()) (w' := clr w) rfl ?_)
  refine wp_bind (wp_net ?_)
  refine wp_bind (wp_deref I.last ?_)
  refine wp_bind (wp_of_ok (r := w.layerNext + 1) (w' := clr w) rfl ?_)
  have hgd : LayerM.getDif (w.layerNext + 1) (b + ds.length) (clr w) = .ok (some (L ds.length).dif) (clr w) := by
    have hlay := I.dat.lay (ds.length - 1) (by have := I.ne; omega)
    rw [show b + 1 + (ds.length - 1) = b + ds.length by have := I.ne; omega,
      show ds.length - 1 + 1 = ds.length by have := I.ne; omega] at hlay
    have := delegated_ok (field := Layer.dif) (fuel := w.layerNext + 1) (p := b + ds.length) (w := clr w) (by omega)
      (Or.inr ⟨.dense 0 (acts 0), hlay.1⟩)
    rw [show (clr w).layers = w.layers from rfl, hlay.2.2.2.2.2.1] at this
    exact this
  refine wp_bind (wp_of_ok hgd ?_)
  refine wp_bind (wp_deref rfl ?_)
  -- the error tensor
  have e0 : Ext w (clr w) := ext_clr w
  have k0 : ((clr w).store.nodes (L ds.length).dif).kind = .leaf := rdw.2
  refine wp_bind (wp_setBuild k0 fun w1 y1 h1 => ?_)
  have k1 : (w1.store.nodes (L ds.length).dif).kind = .leaf := by rw [y1.grow.kind _ (rdw.1.ext e0).lt, k0]
  refine wp_bind (wp_buildMat k1 fun w2 na an y2 h2 => ?_)
  have y02 : Lay (fun _ => False) na (clr w) w2 := by simpa using y1.trans y2
  refine wp_bind (wp_deref I.out ?_)
  refine wp_bind (wp_mat ?_)
  rw [((row.ext e0).grow y02.grow).mat]
  have hp2 : 0 < w2.store.heap.next := by rw [h2, h1]; exact I.pos
  refine wp_bind (wp_zeros' (L := fun _ => False) hp2 fun w3 tM y3 _ _ rt3 tsh tnd treg _ => ?_)
  obtain ⟨tgt, htgt⟩ : ∃ t, t = w2.nodeNext := ⟨_, rfl⟩
  rw [← htgt] at rt3 ⊢
  refine wp_bind (wp_of_ok (r := ()) (w' := updN m (fun x => { x with target := some tgt }) w3) rfl ?_)
  obtain ⟨w4, hw4⟩ : ∃ x, x = updN m (fun x => { x with target := some tgt }) w3 := ⟨_, rfl⟩
  rw [← hw4]
  have y03 : Lay (fun _ => False) na (clr w) w3 := by simpa using y02.trans y3
  have e34 : Wide (fun l => b ≤ l ∧ l ≤ b + ds.length) w3 w4 := by rw [hw4]; exact wide_of_eq rfl rfl rfl rfl rfl rfl
  have c4 : w4.store.ctx = na := by
    rw [hw4, updN_store, y03.grow.ctx]; rfl
  have n4 : w4.nets = (updN m (fun x => { x with target := some tgt }) w).nets := by
    rw [hw4]; unfold updN
    rw [y03.grow.nets]; rfl
  have W04 : Wide (fun l => b ≤ l ∧ l ≤ b + ds.length) w w4 :=
    ((wide_of_eq rfl rfl rfl rfl rfl rfl : Wide _ w (clr w)).trans (y03.wide fun _ h => h.elim)).trans e34
  have rd4 := rdw.1.ext W04.ext
  have ro4 := row.ext W04.ext
  have rt4 := rt3.ext e34.ext
  have hlen : (L ds.length).dM.ops.length = n ∧ tM.ops.length = n ∧ (L ds.length).oM.ops.length = n := by
    refine ⟨by rw [rdw.1.good.len, shd, hn], by rw [rt3.good.len, tsh, hn], by rw [row.good.len, hn]⟩
  refine wp_bind (wp_calDif rd4 rt4 ro4 hlen fun w5 y5 h5 => ?_)
  -- the loss
  have em : NetM.matNode (L ds.length).dif w5 = .ok w5.nodeNext
      { w5 with store := w5.store.setNode w5.nodeNext ⟨.leaf, (w5.store.nodes (L ds.length).dif).mat, (w5.store.nodes (L ds.length).dif).built⟩, nodeNext := w5.nodeNext + 1 } := rfl
  refine wp_bind (wp_of_ok em ?_)
  obtain ⟨w6, hw6⟩ : ∃ x, x = ({ w5 with store := w5.store.setNode w5.nodeNext ⟨.leaf, (w5.store.nodes (L ds.length).dif).mat, (w5.store.nodes (L ds.length).dif).built⟩, nodeNext := w5.nodeNext + 1 } : World T) := ⟨_, rfl⟩
  rw [← hw6]
  have y6 : Lay (fun _ => False) [] w5 w6 := by
    rw [hw6]
    exact ⟨grow_newNode _ w5, fun q h1 h2 => by
      have : q < w5.store.heap.next := h2
      omega⟩
  have h6 : w6.store.heap = w5.store.heap := by rw [hw6]; rfl
  have rd5 := rd4.grow y5.grow
  have rm6 : Ready w6 w5.nodeNext (L ds.length).dM := by
    have en : w6.store.nodes w5.nodeNext = ⟨.leaf, (w5.store.nodes (L ds.length).dif).mat, (w5.store.nodes (L ds.length).dif).built⟩ := by
      rw [hw6]; simp [Store.setNode]
    refine ⟨by rw [hw6]; simp, by rw [en]; exact rd5.mat, ?_, by rw [h6]; exact rd5.good, ?_, ?_, ?_⟩
    · right
      rw [en]; trivial
    · rw [en]; simp [Kind.kids]
    · rw [en]; trivial
    · rw [en]; trivial
  obtain ⟨dmn, hdmn⟩ : ∃ x, x = w5.nodeNext := ⟨_, rfl⟩
  rw [← hdmn] at rm6 ⊢
  have y46 : Lay (fun _ => False) (subOps (L ds.length).dM tM (L ds.length).oM n) w4 w6 := by
    simpa using y5.trans y6
  refine bpMid_ok I hn (W04.trans (y46.wide fun _ h => h.elim)) an ?_ ?_ ?_ rm6 (rt4.grow y46.grow) tsh tnd ?_ hlen
  · rw [y46.grow.ctx, c4]
  · rw [y46.grow.nets, n4]
  · funext l
    rw [y46.grow.layers l (fun h => h), hw4, updN_layers, y03.grow.layers l (fun h => h)]
    rfl
  · intro q hq
    have h1 := treg q hq
    have h3 := y02.grow.next
    have h4 : (clr w).store.heap.next = w.store.heap.next := rfl
    have h5 := (e34.trans (y46.wide fun _ h => h.elim)).ext.next
    omega

end Godeep
