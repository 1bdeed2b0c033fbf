import Verif.Lemmas.GViews
/-
  What building the derivative of a layer has done, for every kind of layer.
-/
set_option linter.unusedSectionVars false

namespace Godeep
open Spec GoNum

variable {T : Type} [GoNum T]

/-- layer `l` with tensors `X`, after layer `p` with tensors `P`, is ready for building its derivative; `E h D`: in `h` the derivative of
layer `p` is `D`; `E'`: the same for layer `l` -/
structure DerIn (s : LSpec T) (w : World T) (fuel b l p : Nat) (P X : GLayer) (E E' : Heap T → STensor T → Prop) (safe safe' : Prop) : Prop where
  pos : 0 < w.store.heap.next
  lt : b ≤ p ∧ p < l
  pre : (w.layers l).pre = some p
  input : (w.layers l).input = some P.out
  output : (w.layers l).output = some X.out
  rin : Ready w P.out P.oM
  rout : Ready w X.out X.oM
  sout : X.oM.shape = s.outShape P.oM.shape
  fits : s.fits P.oM.shape
  before : ∀ w1, Grow (· = l) (fun _ => False) [] w w1 → wp True (LayerM.buildDer fuel p) (DerPost b p P.oM E safe w1) w1
  env : ∀ h D', E' h D' → s.safe P.oM.shape ∧ ∃ pv x D, E h D ∧ Holds h P.oM x ∧ Holds h X.oM (s.fn pv x) ∧ D' = s.der pv x D
  ok : safe' → safe ∧ s.safe P.oM.shape

/-! ### layers with weights -/

theorem act_cells {f : T → T} {c : Nat} {get : Nat → Mat} {s s' : FSt T}
    (h : Fin.run get (.act f c) s = .ok () s') : s'.mat.ops.Nodup ∧ ∀ q ∈ s'.mat.ops, s.heap.next ≤ q := by
  simp only [Fin.run, Fin.unary] at h
  have := emitLoop_fresh h
  exact this

theorem wp_baseDer {w : World T} {b l n : Nat} {nM oM : Mat} {E : Heap T → STensor T → Prop} {safe : Prop} (hpos : 0 < w.store.heap.next) (hb : b ≤ l)
    (hn : (w.layers l).neta = some n) (rn : Ready w n nM) (hs : nM.shape = oM.shape)
    (env : ∀ h D, E h D → ∃ z, Holds h nM z ∧ D = z.map (w.layers l).act.derive) :
    wp True (LayerM.baseDer l) (DerPost b l oM E safe w) w := by
  unfold LayerM.baseDer
  refine wp_bind (wp_layer (wp_bind (wp_deref hn ?_)))
  refine wp_bind (wp_lazy (L := fun j => b ≤ j ∧ j ≤ l) (C := fun _ => False) fun w1 g1 l1 h1 x1 nd1 _ => ?_)
  refine wp_bind (wp_modify ?_)
  have m2 := grow_modify (L := fun j => b ≤ j ∧ j ≤ l) (C := fun _ => False) (⟨hb, le_refl _⟩ : b ≤ l ∧ l ≤ l) (fun x => { x with der := some w.nodeNext }) w1
  obtain ⟨w2, hw2⟩ : ∃ v : World T, v = { w1 with layers := fun k => if k = l then { w1.layers k with der := some w.nodeNext } else w1.layers k } := ⟨_, rfl⟩
  rw [← hw2] at m2 ⊢
  have e2 : w2.store = w1.store := by rw [hw2]
  have n2 : w2.nodeNext = w1.nodeNext := by rw [hw2]
  have G2 := g1.trans m2
  have p1 := (rn.grow G2).pend safe
  have pa : Pend w2 w.nodeNext nM.shape (fun val => (ofMat val nM).map (w.layers l).act.derive) (· ∈ nM.ops) safe :=
    p1.one (k := .act (w.layers l).act.derive n) (own := []) (by rw [e2]; exact nd1) (by omega) rn.lt rfl trivial (by simp) trivial
        trivial (by simp [Kind.straddles]) (fun val => ⟨_, rfl, map_tab _ (tab_tab _)⟩) (fun h => ⟨trivial, trivial⟩)
  have e1 : w2.store.heap.next = w.store.heap.next := by rw [e2, h1]
  refine wp_bind (wp_build (L := fun j => b ≤ j ∧ j ≤ l) (C := fun _ => False) pa (by omega) fun w3 new rM A => ?_)
  refine wp_pure ?_
  have G3 := G2.trans A.grow
  simp only [List.append_nil, List.nil_append] at G3
  refine ⟨new, rM, G3, fun j => ?_, A.ready, by rw [A.shape, hs], fun q hq => ?_, fun q hq => ?_, A.fine, fun h h' D hn hk he hx => ?_⟩
  · rw [A.layers, hw2]
    by_cases hj : j = l
    · exact ⟨some w.nodeNext, by simp only [hj, if_true, l1]⟩
    · exact ⟨(w.layers j).der, by simp only [hj, if_false, l1]⟩
  · have hbt : (w2.store.nodes w.nodeNext).built = false := by rw [e2, nd1]; rfl
    obtain ⟨hh, c0, fs, hrun, hmat, hlo, _, _⟩ := A.built.ran _ (.refl _) hbt
    rw [e2, nd1] at hrun
    have := (act_cells hrun).2 q (by rw [hmat, A.ready.mat]; exact hq)
    simp only at this
    omega
  · rw [← e1]; exact A.dst q hq
  · obtain ⟨z, hz, rfl⟩ := env h D he
    refine (A.run h h' hn (fun q a b c => ?_) hx).of_tab (map_tab _ (ofMat_tab hz))
    rw [hk q (by omega) b c]; exact A.zero q a b

/-! ### layers without weights -/

theorem derIn_after {s : LSpec T} {w w1 : World T} {fuel b l p : Nat} {P X : GLayer} {E E' : Heap T → STensor T → Prop} {safe safe' : Prop}
    (D : DerIn s w fuel b l p P X E E' safe safe') {ops : List (Op T)} (g : Grow (fun j => b ≤ j ∧ j ≤ p) (fun _ => False) ops w w1) :
    Grow (fun j => b ≤ j ∧ j ≤ l) (fun _ => False) ops w w1 := g.weaken (fun j h => ⟨h.1, by have := D.lt; omega⟩) fun _ h => h

theorem wp_der_same {s : LSpec T} {w : World T} {fuel b l p : Nat} {P X : GLayer} {E E' : Heap T → STensor T → Prop} {safe safe' : Prop}
    (D : DerIn s w fuel b l p P X E E' safe safe') (hd : ∀ pv x d, s.der pv x d = d) (ho : ∀ sh, s.outShape sh = sh) :
    wp True (do
      let p ← Run.deref (w.layers l).pre
      let pd ← LayerM.buildDer fuel p
      Run.modify l fun x => { x with der := some pd }
      return pd) (DerPost b l X.oM E' safe' w) w := by
  refine wp_bind (wp_deref D.pre ?_)
  refine wp_bind (wp_mono (D.before w (Grow.refl _ _ w)) ?_)
  rintro pd w1 ⟨ops, M, g, hl, r, sm, hf, hds, hfi, hrun⟩
  refine wp_bind (wp_modify (wp_pure ?_))
  have m2 := grow_modify (L := fun j => b ≤ j ∧ j ≤ l) (C := fun _ => False) (⟨by have := D.lt; omega, le_refl _⟩ : b ≤ l ∧ l ≤ l) (fun x => { x with der := some pd }) w1
  have G := (derIn_after D g).trans m2
  rw [List.append_nil] at G
  refine ⟨ops, M, G, fun j => ?_, r.grow m2, by rw [sm, D.sout, ho], hf, hds, fun h => hfi (D.ok h).1, fun h h' D' hn hk he hx => ?_⟩
  · obtain ⟨y, hy⟩ := hl j
    by_cases hj : j = l
    · subst hj; exact ⟨some pd, by simp only [if_true, hy]⟩
    · exact ⟨y, by simp only [hj, if_false, hy]⟩
  · obtain ⟨_, pv, x, d, h1, _, _, rfl⟩ := D.env h D' he
    rw [hd]
    exact hrun h h' d hn hk h1 hx

theorem wp_der_flatten {w : World T} {fuel b l p : Nat} {P X : GLayer} {E E' : Heap T → STensor T → Prop} {safe safe' : Prop}
    (D : DerIn .flatten w fuel b l p P X E E' safe safe') :
    wp True (do
      let p ← Run.deref (w.layers l).pre
      let pd ← LayerM.buildDer fuel p
      let d ← Run.flatten pd
      Run.modify l fun x => { x with der := some d }
      Run.buildGraph d
      return d) (DerPost b l X.oM E' safe' w) w := by
  refine wp_bind (wp_deref D.pre ?_)
  refine wp_bind (wp_mono (D.before w (Grow.refl _ _ w)) ?_)
  rintro pd w1 ⟨ops, M, g, hl, r, sm, hf, hds, hfi, hrun⟩
  refine wp_bind ?_
  unfold Run.flatten
  refine wp_bind' (wp_mat ?_)
  have es : (w1.store.nodes pd).mat.getSize = size M.shape := by
    rw [r.mat]; simp [Mat.getSize, r.good.len]
  rw [es]
  refine wp_reshape (L := fun j => b ≤ j ∧ j ≤ l) (C := fun _ => False) fun w2 g2 l2 h2 x2 nd2 _ => ?_
  refine wp_bind (wp_modify ?_)
  have m3 := grow_modify (L := fun j => b ≤ j ∧ j ≤ l) (C := fun _ => False) (⟨by have := D.lt; omega, le_refl _⟩ : b ≤ l ∧ l ≤ l) (fun x => { x with der := some w1.nodeNext }) w2
  obtain ⟨w3, hw3⟩ : ∃ v : World T, v = { w2 with layers := fun k => if k = l then { w2.layers k with der := some w1.nodeNext } else w2.layers k } := ⟨_, rfl⟩
  rw [← hw3] at m3 ⊢
  have e3 : w3.store = w2.store := by rw [hw3]
  have n3 : w3.nodeNext = w2.nodeNext := by rw [hw3]
  have G3 := g2.trans m3
  have pa : Pend w3 w1.nodeNext [size M.shape] (fun val => (ofMat val M).reshape [size M.shape]) (· ∈ M.ops) True :=
    ((r.grow G3).pend True).one (k := .reshape pd) (own := [size M.shape]) (by rw [e3]; exact nd2) (by omega) r.lt rfl trivial (by simp) trivial
      trivial (by simp [Kind.straddles]) (fun val => ⟨_, rfl, reshape_tab _ (tab_tab _)⟩) (fun h => ⟨trivial, trivial⟩)
  have e1 : w3.store.heap.next = w1.store.heap.next := by rw [e3, h2]
  have g1 := g.next
  have q0 := D.pos
  refine wp_bind (wp_build (L := fun j => b ≤ j ∧ j ≤ l) (C := fun _ => False) pa (by omega) fun w4 new rM A => ?_)
  refine wp_pure ?_
  have G4 := ((derIn_after D g).trans G3).trans A.grow
  have n4 := A.grow.next
  simp only [List.append_nil, List.nil_append] at G4
  refine ⟨ops ++ new, rM, G4, fun j => ?_, A.ready, by rw [A.shape, D.sout, sm]; rfl, fun q hq => ?_, fun q hq => ?_, fun hs o ho => ?_, fun h h' D' hn hk he hx => ?_⟩
  · obtain ⟨y, hy⟩ := hl j
    rw [A.layers, hw3]
    by_cases hj : j = l
    · subst hj; exact ⟨some w1.nodeNext, by simp only [if_true, l2, hy]⟩
    · exact ⟨y, by simp only [hj, if_false, l2, hy]⟩
  · rcases A.cells q hq with h | h
    · omega
    · exact hf q h
  · rw [dsts_append, List.mem_append] at hq
    rcases hq with hq | hq
    · have := hds q hq; omega
    · have := A.dst q hq; omega
  · rcases List.mem_append.1 ho with ho | ho
    · exact hfi (D.ok hs).1 o ho
    · exact A.fine trivial o ho
  · obtain ⟨_, pv, x, d, h1, _, _, rfl⟩ := D.env h D' he
    obtain ⟨h2', hx1, hx2⟩ := exec_append_ok.1 hx
    have f1 := exec_frame hx1
    have Hd := hrun h h2' d (by omega) (fun q a c e => ?_) h1 hx1
    · refine (A.run h2' h' (by rw [f1.1]; exact hn) (fun q a b c => ?_) hx2).of_tab ?_
      · have nd : q ∉ dsts ops := fun hd => by have := hds q hd; omega
        rw [f1.2 q nd, hk q (by omega) b (by rw [dsts_append, List.mem_append]; rintro (h | h); exact nd h; exact c h)]
        exact A.zero q a b
      · show _ = (d.reshape [size d.shape]).tab
        rw [← Hd.shape]
        exact reshape_tab _ (ofMat_tab Hd)
    · rw [hk q a (by omega) ?_, A.grow.val q (by omega) id, e3, h2]
      rw [dsts_append, List.mem_append]
      rintro (hd | hd)
      · exact e hd
      · have := A.dst q hd; omega

theorem wp_der_sub {dim lo hi : Nat} {w : World T} {fuel b l p : Nat} {P X : GLayer} {E E' : Heap T → STensor T → Prop} {safe safe' : Prop}
    (D : DerIn (.sub dim lo hi) w fuel b l p P X E E' safe safe') :
    wp True (do
      let p ← Run.deref (w.layers l).pre
      let pd ← LayerM.buildDer fuel p
      let d ← Run.lazy (.sub dim lo hi false pd)
      Run.modify l fun x => { x with der := some d }
      Run.buildGraph d
      return d) (DerPost b l X.oM E' safe' w) w := by
  refine wp_bind (wp_deref D.pre ?_)
  refine wp_bind (wp_mono (D.before w (Grow.refl _ _ w)) ?_)
  rintro pd w1 ⟨ops, M, g, hl, r, sm, hf, hds, hfi, hrun⟩
  refine wp_bind ?_
  refine wp_lazy (L := fun j => b ≤ j ∧ j ≤ l) (C := fun _ => False) fun w2 g2 l2 h2 x2 nd2 _ => ?_
  refine wp_bind (wp_modify ?_)
  have m3 := grow_modify (L := fun j => b ≤ j ∧ j ≤ l) (C := fun _ => False) (⟨by have := D.lt; omega, le_refl _⟩ : b ≤ l ∧ l ≤ l) (fun x => { x with der := some w1.nodeNext }) w2
  obtain ⟨w3, hw3⟩ : ∃ v : World T, v = { w2 with layers := fun k => if k = l then { w2.layers k with der := some w1.nodeNext } else w2.layers k } := ⟨_, rfl⟩
  rw [← hw3] at m3 ⊢
  have e3 : w3.store = w2.store := by rw [hw3]
  have n3 : w3.nodeNext = w2.nodeNext := by rw [hw3]
  have G3 := g2.trans m3
  obtain ⟨hd, hlt, hle⟩ := D.fits
  rw [← sm] at hd hle
  have pa : Pend w3 w1.nodeNext (M.shape.set dim (hi - lo)) (fun val => (ofMat val M).slab dim lo hi) (· ∈ M.ops) True :=
    ((r.grow G3).pend True).subIn (fun _ => rfl) (by rw [e3]; exact nd2) (by omega) r.lt hd hlt hle
  have e1 : w3.store.heap.next = w1.store.heap.next := by rw [e3, h2]
  have g1 := g.next
  have q0 := D.pos
  refine wp_bind (wp_build (L := fun j => b ≤ j ∧ j ≤ l) (C := fun _ => False) pa (by omega) fun w4 new rM A => ?_)
  refine wp_pure ?_
  have G4 := ((derIn_after D g).trans G3).trans A.grow
  have n4 := A.grow.next
  simp only [List.append_nil, List.nil_append] at G4
  refine ⟨ops ++ new, rM, G4, fun j => ?_, A.ready, by rw [A.shape, D.sout, sm]; rfl, fun q hq => ?_, fun q hq => ?_, fun hs o ho => ?_, fun h h' D' hn hk he hx => ?_⟩
  · obtain ⟨y, hy⟩ := hl j
    rw [A.layers, hw3]
    by_cases hj : j = l
    · subst hj; exact ⟨some w1.nodeNext, by simp only [if_true, l2, hy]⟩
    · exact ⟨y, by simp only [hj, if_false, l2, hy]⟩
  · rcases A.cells q hq with h | h
    · omega
    · exact hf q h
  · rw [dsts_append, List.mem_append] at hq
    rcases hq with hq | hq
    · have := hds q hq; omega
    · have := A.dst q hq; omega
  · rcases List.mem_append.1 ho with ho | ho
    · exact hfi (D.ok hs).1 o ho
    · exact A.fine trivial o ho
  · obtain ⟨_, pv, x, d, h1, _, _, rfl⟩ := D.env h D' he
    obtain ⟨h2', hx1, hx2⟩ := exec_append_ok.1 hx
    have f1 := exec_frame hx1
    have Hd := hrun h h2' d (by omega) (fun q a c e => ?_) h1 hx1
    · refine (A.run h2' h' (by rw [f1.1]; exact hn) (fun q a b c => ?_) hx2).of_tab ?_
      · have nd : q ∉ dsts ops := fun hd => by have := hds q hd; omega
        rw [f1.2 q nd, hk q (by omega) b (by rw [dsts_append, List.mem_append]; rintro (h | h); exact nd h; exact c h)]
        exact A.zero q a b
      · exact slab_tab (ofMat_tab Hd) hd hle
    · rw [hk q a (by omega) ?_, A.grow.val q (by omega) id, e3, h2]
      rw [dsts_append, List.mem_append]
      rintro (hd | hd)
      · exact e hd
      · have := A.dst q hd; omega

/-! ### pooling and up-sampling -/

/-- a derivative that a loop writes into a new tensor -/
theorem wp_der_loop {s : LSpec T} {w : World T} {fuel b l p : Nat} {P X : GLayer} {E E' : Heap T → STensor T → Prop} {safe safe' : Prop}
    {body : Nat → Nat → Run T Unit} (D : DerIn s w fuel b l p P X E E' safe safe')
    (hb : ∀ (w3 : World T) (d pd : Nat) (M pM : Mat), Ready w3 d M → M.shape = X.oM.shape → M.ops.Nodup → Ready w3 pd pM → pM.shape = P.oM.shape →
      Ready w3 P.out P.oM → Ready w3 X.out X.oM → (∀ q ∈ M.ops, q ∉ pM.ops ∧ q ∉ P.oM.ops ∧ q ∉ X.oM.ops) → ∃ F hi o4,
        Em w3 (body d pd) w3.store.heap.next hi () o4 ∧ Effect w3.store.heap.next w3.store.heap.next hi (· ∈ M.ops) o4 F (s.safe P.oM.shape) ∧
        ∀ h1 h' pv x D, s.safe P.oM.shape → Holds h1 P.oM x → Holds h1 X.oM (s.fn pv x) → Holds h1 pM D → GoodMat h' M →
          (∀ q, q < w3.store.heap.next → h'.val q = F h1.val q) → Holds h' M (s.der pv x D)) :
    wp True (do
      let d ← Run.zeros X.oM.shape
      Run.modify l fun x => { x with der := some d }
      let p ← Run.deref (w.layers l).pre
      let pd ← LayerM.buildDer fuel p
      body d pd
      return d) (DerPost b l X.oM E' safe' w) w := by
  refine wp_bind (wp_zeros' (L := (· = l)) D.pos fun w1 M g1 l1 x1 rM sM nd fr _ => ?_)
  refine wp_bind (wp_modify ?_)
  have m2 := grow_modify (L := (· = l)) (C := fun _ => False) rfl (fun x => { x with der := some w.nodeNext }) w1
  obtain ⟨w2, hw2⟩ : ∃ v : World T, v = { w1 with layers := fun k => if k = l then { w1.layers k with der := some w.nodeNext } else w1.layers k } := ⟨_, rfl⟩
  rw [← hw2] at m2 ⊢
  have e2 : w2.store = w1.store := by rw [hw2]
  have G2 := g1.grow.trans m2
  rw [List.append_nil] at G2
  refine wp_bind (wp_deref D.pre ?_)
  refine wp_bind (wp_mono (D.before w2 G2) ?_)
  rintro pd w3 ⟨ops, pM, g3, hl3, rp, sp, hf, hds, hfi, hrun⟩
  have c1 := g1.grow.next
  have c2 : w2.store.heap.next = w1.store.heap.next := by rw [e2]
  have c3 := g3.next
  have oldP : ∀ q ∈ P.oM.ops, q < w.store.heap.next := fun q hq => (D.rin.good.valid q hq).2
  have oldX : ∀ q ∈ X.oM.ops, q < w.store.heap.next := fun q hq => (D.rout.good.valid q hq).2
  have rM3 := (rM.grow m2).grow g3
  obtain ⟨F, hi, o4, em, ef, run⟩ := hb w3 w.nodeNext pd M pM rM3 sM nd rp sp ((D.rin.grow G2).grow g3)
    ((D.rout.grow G2).grow g3) fun q hq => ⟨fun h => by have := fr q hq; have := hf q h; omega, fun h => by have := fr q hq; have := oldP q h; omega,
      fun h => by have := fr q hq; have := oldX q h; omega⟩
  refine wp_bind (wp_effect ⟨hi, o4, em, ef⟩ fun w4 o5 g4 l4 ef' => wp_pure ?_)
  have g4' := (g4 fun _ => False).grow
  have c4 := g4'.next
  have bl := D.lt
  have G4 := ((G2.weaken (L' := fun j => b ≤ j ∧ j ≤ l) (fun j h => ⟨by omega, by omega⟩) fun _ h => h).trans
    (g3.weaken (L' := fun j => b ≤ j ∧ j ≤ l) (C' := fun _ => False) (fun j h => ⟨h.1, by omega⟩) fun _ h => h)).trans
    (g4'.weaken (L' := fun j => b ≤ j ∧ j ≤ l) (fun j h => h.elim) fun _ h => h)
  simp only [List.nil_append] at G4
  refine ⟨ops ++ o5, M, G4, fun j => ?_, rM3.grow g4', sM, fun q hq => (fr q hq).1, fun q hq => ?_, fun hs o ho => ?_, fun h h' D' hn hk he hx => ?_⟩
  · obtain ⟨y, hy⟩ := hl3 j
    rw [l4]
    refine ⟨y, ?_⟩
    rw [hy, hw2]
    by_cases hj : j = l
    · simp only [hj, if_true, l1]
    · simp only [hj, if_false, l1]
  · rw [dsts_append, List.mem_append] at hq
    rcases hq with hq | hq
    · have := hds q hq; omega
    · rcases ef'.dst q hq with h | h
      · omega
      · have := fr q h; omega
  · rcases List.mem_append.1 ho with ho | ho
    · exact hfi (D.ok hs).1 o ho
    · exact ef'.fine (D.ok hs).2 o ho
  · obtain ⟨hsafe, pv, x, d, h1, hi1, ho1, rfl⟩ := D.env h D' he
    obtain ⟨h2', hx1, hx2⟩ := exec_append_ok.1 hx
    have f1 := exec_frame hx1
    have f2 := exec_frame hx2
    have kp : ∀ {m : Mat} {t : STensor T}, (∀ q ∈ m.ops, q < w.store.heap.next) → Holds h m t → Holds h2' m t := fun hm Hm =>
      Hm.kept (by rw [f1.1]) fun q hq => f1.2 q fun hd => by have := hds q hd; have := hm q hq; omega
    have Hd := hrun h h2' d (by omega) (fun q a c e => ?_) h1 hx1
    · exact run h2' h' pv x d hsafe (kp oldP hi1) (kp oldX ho1) Hd (rM3.good.mono (by omega)) fun q hq => ef'.run hx2 hq
    · rw [hk q (by omega) (by omega) ?_, g4'.val q (by omega) id]
      rw [dsts_append, List.mem_append]
      rintro (hd | hd)
      · exact e hd
      · rcases ef'.dst q hd with h | h
        · omega
        · have := fr q h; omega

theorem wp_der_upSampling {k : Nat} {w : World T} {fuel b l p : Nat} {P X : GLayer} {E E' : Heap T → STensor T → Prop} {safe safe' : Prop}
    (D : DerIn (.upSampling k) w fuel b l p P X E E' safe safe') :
    wp True (LayerM.upSamplingDer (LayerM.buildDer fuel) k k l) (DerPost b l X.oM E' safe' w) w := by
  unfold LayerM.upSamplingDer
  refine wp_bind (wp_layer (wp_bind (wp_deref D.output (wp_bind (wp_mat ?_)))))
  rw [D.rout.mat]
  obtain ⟨a, ha⟩ : ∃ a, a = P.oM.shape.getD 0 0 := ⟨_, rfl⟩
  obtain ⟨c, hc⟩ : ∃ a, a = P.oM.shape.getD 1 0 := ⟨_, rfl⟩
  obtain ⟨e, he⟩ : ∃ a, a = P.oM.shape.getD 2 0 := ⟨_, rfl⟩
  have hsh : P.oM.shape = [a, c, e] := by rw [ha, hc, he]; exact shape3 D.fits
  have so : X.oM.shape = [a, c * k, e * k] := by rw [D.sout, hsh]; rfl
  have hg : X.oM.shape.getD 0 0 = a ∧ X.oM.shape.getD 1 0 = c * k ∧ X.oM.shape.getD 2 0 = e * k := by rw [so]; exact ⟨rfl, rfl, rfl⟩
  dsimp only
  rw [hg.1, hg.2.1, hg.2.2]
  refine wp_der_loop D (body := fun d pd => Run.each (List.range a) fun f =>
    Run.each (List.range (c * k)) fun px =>
      Run.each (List.range (e * k)) fun py => do
        let o ← Run.operand d [f, px, py]
        let ix ← Run.lift (divU px k)
        let iy ← Run.lift (divU py k)
        let i ← Run.operand pd [f, ix, iy]
        Run.push (.asg o (.set i))) fun w3 d pd M pM rM sM nd rp sp ri ro sep => ?_
  rw [so] at sM
  rw [hsh] at sp
  have hin : ∀ i, InRange [a, c * k, e * k] i → 0 < k ∧ InRange pM.shape [i.getD 0 0, i.getD 1 0 / k, i.getD 2 0 / k] := by
    intro i hi
    obtain ⟨_, h0, h1, h2⟩ := inRange3 hi
    have hk : 0 < k := by
      rcases Nat.eq_zero_or_pos k with h | h
      · subst h; omega
      · exact h
    rw [sp]
    exact ⟨hk, mk3 h0 ((Nat.div_lt_iff_lt_mul hk).2 h1) ((Nat.div_lt_iff_lt_mul hk).2 h2)⟩
  obtain ⟨V, hV⟩ : ∃ V : List Nat → (Ptr → T) → T, V = fun i v => v (cell pM [i.getD 0 0, i.getD 1 0 / k, i.getD 2 0 / k]) := ⟨_, rfl⟩
  have body : ∀ f < a, ∀ x < c * k, ∀ y < e * k, ∀ lo, w3.store.heap.next ≤ lo → ∃ hi ops, Em w3 (do
        let o ← Run.operand d [f, x, y]
        let ix ← Run.lift (divU x k)
        let iy ← Run.lift (divU y k)
        let i ← Run.operand pd [f, ix, iy]
        Run.push (.asg o (.set i))) lo hi () ops ∧ Effect w3.store.heap.next lo hi (· ∈ M.ops) ops
          (fun v => (allIdx []).foldl (fun v i => Function.update v (cell M (f :: x :: y :: i)) (V (f :: x :: y :: i) v)) v)
          ((LSpec.upSampling k : LSpec T).safe P.oM.shape) := by
    intro f hf x hx y hy lo hlo
    have hi3 : InRange [a, c * k, e * k] [f, x, y] := mk3 hf hx hy
    obtain ⟨hk, hr⟩ := hin _ hi3
    refine ⟨lo, [] ++ [.asg (cell M [f, x, y]) (.set (cell pM [f, x / k, y / k]))], ?_, ?_⟩
    · have d1 : divU x k = .ok (x / k) := by unfold divU; rw [if_neg (by omega)]
      have d2 : divU y k = .ok (y / k) := by unfold divU; rw [if_neg (by omega)]
      exact Em.bind (o1 := []) (Em.operand rM.mat rM.good (by rw [sM]; exact hi3) _) (Em.bind (o1 := []) (Em.lift d1 _)
        (Em.bind (o1 := []) (Em.lift d2 _) (Em.bind (o1 := []) (Em.operand rp.mat rp.good hr _) (Em.push _ _))))
    · obtain ⟨p1, c1⟩ := rM.good.valid _ (cell_mem rM.good (by rw [sM]; exact hi3))
      obtain ⟨p2, c2⟩ := rp.good.valid _ (cell_mem rp.good hr)
      refine (Effect.asg (E := fun v => V [f, x, y] v) le_rfl hlo (by simp) (by simp) (fun hs => ?_) (cell_mem rM.good (by rw [sM]; exact hi3)) (fun v => ?_) fun v v' hv => ?_).one
        fun v => rfl
      · exact ⟨p1, by simpa [Rhs.reads] using p2, trivial, trivial⟩
      · rw [hV]; rfl
      · rw [hV]; exact hv _ c2
  obtain ⟨hi, ops, em, A⟩ := Effect.range (N := w3) (base := w3.store.heap.next) (W := (· ∈ M.ops)) (safe := (LSpec.upSampling k : LSpec T).safe P.oM.shape)
    (n := a) (s := [c * k, e * k]) (F := fun i v => Function.update v (cell M i) (V i v))
    (f := fun f => Run.each (List.range (c * k)) fun px =>
      Run.each (List.range (e * k)) fun py => do
        let o ← Run.operand d [f, px, py]
        let ix ← Run.lift (divU px k)
        let iy ← Run.lift (divU py k)
        let i ← Run.operand pd [f, ix, iy]
        Run.push (.asg o (.set i)))
    (fun f hf => Effect.range (fun x hx => Effect.range (fun y hy => body f hf x hx y hy))) _ le_rfl
  · refine ⟨_, hi, ops, em, A, fun h1 h' pv x D' _ _ _ Hd g' hv => ?_⟩
    refine holds_of_cell g' ?_ fun idx hi => ?_
    · show _ = [D'.shape.getD 0 0, D'.shape.getD 1 0 * k, D'.shape.getD 2 0 * k]
      rw [← Hd.shape, sp, sM]; rfl
    · rw [hv _ (rM.good.valid _ (cell_mem rM.good hi)).2]
      have key := (foldl_cells rM.good nd (E := V) (fun i hi v v' hvv => ?_) h1.val).2 idx hi
      · rw [sM] at key hi
        rw [key, hV]
        exact holds_cell Hd (hin idx hi).2
      · rw [hV]
        rw [sM] at hi
        refine hvv _ (Or.inl fun hq => (sep _ hq).1 (cell_mem rp.good (hin i hi).2))

/-- a list of new scalars -/
theorem collect_new {ι : Type} {N : World T} {base : Nat} {f : ι → Run T Ptr} {e : ι → (Ptr → T) → T} {safe : Prop}
    (l : List ι) (h : ∀ i ∈ l, ∀ lo, base ≤ lo → ∃ hi x ops, Em N (f i) lo hi x ops ∧ Vals base lo hi ops [x] (fun v => [e i v]) safe ∧ lo ≤ x) :
    ∀ lo, base ≤ lo → ∃ hi xs ops, Em N (Run.collect l f) lo hi xs ops ∧ Vals base lo hi ops xs (fun v => l.map fun i => e i v) safe ∧ ∀ q ∈ xs, lo ≤ q := by
  induction l with
  | nil => exact fun lo hb => ⟨lo, [], [], Em.pure [] lo, ⟨le_refl _, by simp, by simp, by simp, fun v => rfl, fun _ _ _ => rfl⟩, by simp⟩
  | cons i l ih =>
    intro lo hb
    obtain ⟨mid, x, o1, m1, V1, x1⟩ := h i (by simp) lo hb
    have l1 := V1.le
    obtain ⟨hi, xs, o2, m2, V2, x2⟩ := ih (fun j hj => h j (by simp [hj])) mid (by omega)
    have l2 := V2.le
    refine ⟨hi, x :: xs, o1 ++ o2, ?_, ⟨by omega, fun q hq => ?_, fun hs o ho => ?_, fun p hp => ?_, fun v => ?_, fun v v' hv => ?_⟩, fun q hq => ?_⟩
    · have := Em.bind (f := fun as => (Pure.pure (x :: as) : Run T (List Ptr))) m2 (Em.pure (x :: xs) hi)
      rw [List.append_nil] at this
      exact Em.bind m1 this
    · rw [dsts_append, List.mem_append] at hq
      rcases hq with hq | hq
      · have := V1.dst q hq; omega
      · have := V2.dst q hq; omega
    · rcases List.mem_append.1 ho with ho | ho
      · exact V1.fine hs o ho
      · exact V2.fine hs o ho
    · rcases List.mem_cons.1 hp with rfl | hp
      · have := V1.rng p (by simp); omega
      · exact V2.rng p hp
    · rw [List.map_cons, List.map_cons, execV_append, V2.val]
      congr 1
      · rw [← V1.get v]
        refine execV_frame fun hd => ?_
        have := V1.rng x (by simp)
        have := V2.dst x hd
        omega
      · exact V2.loc _ _ fun q hq => execV_frame fun hd => by have := V1.dst q hd; omega
    · have e1 := V1.loc v v' hv
      simp only [List.cons.injEq, and_true] at e1
      rw [List.map_cons, List.map_cons, e1]
      exact congrArg _ (V2.loc v v' hv)
    · rcases List.mem_cons.1 hq with rfl | hq
      · exact x1
      · have := x2 q hq; omega

/-- The sum over rows of new scalars, assigned again after every row. -/
theorem rows_sum {N : World T} {base my : Nat} {row : Nat → Run T (List Ptr)} {e : Nat → (Ptr → T) → List T} {safe : Prop} (hmy : 0 < my ∧ my < base)
    (rows : List Nat) (hrow : ∀ i ∈ rows, ∀ lo, base ≤ lo → ∃ hi xs ops, Em N (row i) lo hi xs ops ∧ Vals base lo hi ops xs (e i) safe ∧
      (∀ q ∈ xs, lo ≤ q) ∧ (safe → xs ≠ []))
    (loc : ∀ i ∈ rows, ∀ v v' : Ptr → T, (∀ q, q < base → q ≠ my → v q = v' q) → e i v = e i v') :
    ∀ (acc : List Ptr) lo, base ≤ lo → (∀ q ∈ acc, base ≤ q ∧ q < lo) → ∃ hi acc' ops,
      Em N (rows.foldlM (fun (acc : List Ptr) i => do
        let r ← row i
        Run.push (.asg my (.sum (acc ++ r)))
        return acc ++ r) acc) lo hi acc' ops ∧ lo ≤ hi ∧ (∀ q ∈ dsts ops, (lo ≤ q ∧ q < hi) ∨ q = my) ∧ (safe → ∀ o ∈ ops, Fine o) ∧
      ∀ v, execV ops v my = if rows = [] then v my else sum1 (acc.map v ++ rows.flatMap fun i => e i v) := by
  induction rows with
  | nil => exact fun acc lo _ _ => ⟨lo, acc, [], Em.pure _ _, le_refl _, by simp, by simp, fun v => by simp⟩
  | cons i rest ih =>
    intro acc lo hb hacc
    obtain ⟨mid, xs, o1, m1, V1, x1, x2⟩ := hrow i (by simp) lo hb
    have l1 := V1.le
    have hacc' : ∀ q ∈ acc ++ xs, base ≤ q ∧ q < mid := fun q hq => by
      rcases List.mem_append.1 hq with h | h
      · have := hacc q h; omega
      · have := x1 q h; have := V1.rng q h; omega
    obtain ⟨hi, acc', o2, m2, l2, d2, f2, v2⟩ := ih (fun j hj => hrow j (by simp [hj])) (fun j hj => loc j (by simp [hj])) (acc ++ xs) mid (by omega) hacc'
    refine ⟨hi, acc', (o1 ++ [.asg my (.sum (acc ++ xs))]) ++ o2, ?_, by omega, fun q hq => ?_, fun hs o ho => ?_, fun v => ?_⟩
    · rw [List.foldlM_cons]
      refine Em.bind (x := acc ++ xs) (mid := mid) ?_ m2
      have := Em.bind (f := fun _ => (Pure.pure (acc ++ xs) : Run T (List Ptr))) (Em.push (N := N) (.asg my (.sum (acc ++ xs))) mid) (Em.pure (acc ++ xs) mid)
      rw [List.append_nil] at this
      exact Em.bind m1 this
    · rw [dsts_append, dsts_append, List.mem_append, List.mem_append] at hq
      rcases hq with (hq | hq) | hq
      · have := V1.dst q hq; left; omega
      · simp only [dsts_asg, dsts_nil, List.mem_singleton] at hq; exact Or.inr hq
      · rcases d2 q hq with h | h
        · left; omega
        · exact Or.inr h
    · rcases List.mem_append.1 ho with ho | ho
      · rcases List.mem_append.1 ho with ho | ho
        · exact V1.fine hs o ho
        · rw [List.mem_singleton] at ho; subst ho
          refine ⟨hmy.1, fun q hq => ?_, ?_, trivial⟩
          · have := hacc' q hq; omega
          · show acc ++ xs ≠ []
            simp [x2 hs]
      · exact f2 hs o ho
    · obtain ⟨v1, hv1⟩ : ∃ v1, v1 = execV (o1 ++ [.asg my (.sum (acc ++ xs))]) v := ⟨_, rfl⟩
      have hv1' : v1 = Function.update (execV o1 v) my (sum1 ((acc ++ xs).map (execV o1 v))) := by rw [hv1, execV_append]; rfl
      have hA : acc.map (execV o1 v) = acc.map v := List.map_congr_left fun q hq => execV_frame fun hd => by
        have := V1.dst q hd; have := hacc q hq; omega
      rw [execV_append, ← hv1, v2 v1, if_neg (List.cons_ne_nil i rest), List.flatMap_cons]
      by_cases hr : rest = []
      · rw [if_pos hr, hv1', Function.update_self, hr, List.map_append, hA, V1.val]
        simp
      · rw [if_neg hr]
        have h1 : (acc ++ xs).map v1 = acc.map v ++ e i v := by
          rw [← hA, ← V1.val v, ← List.map_append, hv1']
          exact List.map_congr_left fun q hq => Function.update_of_ne (by have := hacc' q hq; omega) _ _
        have h2 : (rest.flatMap fun i => e i v1) = rest.flatMap fun i => e i v := by
          refine List.flatMap_congr fun j hj => loc j (by simp [hj]) _ _ fun q hq hne => ?_
          rw [hv1', Function.update_of_ne hne]
          exact execV_frame fun hd => by have := V1.dst q hd; omega
        rw [h1, h2, List.append_assoc]

theorem wp_der_maxPool {sx sy : Nat} {w : World T} {fuel b l p : Nat} {P X : GLayer} {E E' : Heap T → STensor T → Prop} {safe safe' : Prop}
    (D : DerIn (.maxPool sx sy) w fuel b l p P X E E' safe safe') :
    wp True (LayerM.maxPoolDer (LayerM.buildDer fuel) sx sy l) (DerPost b l X.oM E' safe' w) w := by
  unfold LayerM.maxPoolDer
  refine wp_bind (wp_layer (wp_bind (wp_deref D.input (wp_bind (wp_deref D.output (wp_bind (wp_mat ?_)))))))
  rw [D.rin.mat]
  dsimp only
  refine wp_bind (wp_mat ?_)
  rw [D.rout.mat]
  obtain ⟨hl3, hsx, hsy⟩ := D.fits
  obtain ⟨a, ha⟩ : ∃ a, a = P.oM.shape.getD 0 0 := ⟨_, rfl⟩
  obtain ⟨c, hc⟩ : ∃ a, a = P.oM.shape.getD 1 0 := ⟨_, rfl⟩
  obtain ⟨e, he⟩ : ∃ a, a = P.oM.shape.getD 2 0 := ⟨_, rfl⟩
  have hsh : P.oM.shape = [a, c, e] := by rw [ha, hc, he]; exact shape3 hl3
  obtain ⟨c', hc'⟩ : ∃ a, a = (c + 1) / sx := ⟨_, rfl⟩
  obtain ⟨e', he'⟩ : ∃ a, a = (e + 1) / sy := ⟨_, rfl⟩
  have so : X.oM.shape = [a, c', e'] := by rw [D.sout, hsh, hc', he']; rfl
  have hg : X.oM.shape.getD 0 0 = a ∧ X.oM.shape.getD 1 0 = c' ∧ X.oM.shape.getD 2 0 = e' := by rw [so]; exact ⟨rfl, rfl, rfl⟩
  rw [hg.1, hg.2.1, hg.2.2, ← hc, ← he]
  obtain ⟨B, hB⟩ : ∃ B : Nat → Nat → Nat → Nat → Nat → Run T Unit, B = fun d pd f px py => (do
        let my ← Run.operand d [f, px, py]
        let o ← Run.operand X.out [f, px, py]
        let rows := (List.range sx).filter fun i => px * sx + i < c
        let _ ← rows.foldlM (fun (acc : List Ptr) i => do
          let row ← Run.collect ((List.range sy).filter fun j => py * sy + j < e) fun j => do
            let pder ← Run.operand pd [f, px * sx + i, py * sy + j]
            let i' ← Run.operand P.out [f, px * sx + i, py * sy + j]
            let e ← Run.emit (.equals i' o)
            Run.emit (.mul pder e)
          Run.push (.asg my (.sum (acc ++ row)))
          return acc ++ row) ([] : List Ptr)) := ⟨_, rfl⟩
  suffices h : wp True (do
      let d ← Run.zeros X.oM.shape
      Run.modify l fun x => { x with der := some d }
      let p ← Run.deref (w.layers l).pre
      let pd ← LayerM.buildDer fuel p
      Run.each (List.range a) fun f =>
        Run.each (List.range c') fun px =>
          Run.each (List.range e') fun py => B d pd f px py
      return d) (DerPost b l X.oM E' safe' w) w by
    rw [hB] at h
    exact h
  refine wp_der_loop D (body := fun d pd => Run.each (List.range a) fun f =>
        Run.each (List.range c') fun px =>
          Run.each (List.range e') fun py => B d pd f px py) fun w3 d pd M pM rM sM nd rp sp ri ro sep => ?_
  rw [so] at sM
  rw [hsh] at sp
  obtain ⟨R, hR⟩ : ∃ R : List Nat → List Nat, R = fun k => (List.range sx).filter fun i => k.getD 1 0 * sx + i < c := ⟨_, rfl⟩
  obtain ⟨C, hC⟩ : ∃ C : List Nat → List Nat, C = fun k => (List.range sy).filter fun j => k.getD 2 0 * sy + j < e := ⟨_, rfl⟩
  obtain ⟨g, hgd⟩ : ∃ g : List Nat → Nat → Nat → (Ptr → T) → T, g = fun k i j v => GoNum.mul (v (cell pM [k.getD 0 0, k.getD 1 0 * sx + i, k.getD 2 0 * sy + j]))
    (same (v (cell P.oM [k.getD 0 0, k.getD 1 0 * sx + i, k.getD 2 0 * sy + j])) (v (cell X.oM k))) := ⟨_, rfl⟩
  obtain ⟨V, hV⟩ : ∃ V : List Nat → (Ptr → T) → T, V = fun k v => if R k = [] then v (cell M k) else
    sum1 ((R k).flatMap fun i => (C k).map fun j => g k i j v) := ⟨_, rfl⟩
  have hin : ∀ k, InRange [a, c', e'] k → ∀ i ∈ R k, ∀ j ∈ C k, InRange [a, c, e] [k.getD 0 0, k.getD 1 0 * sx + i, k.getD 2 0 * sy + j] := by
    intro k hk i hi j hj
    rw [hR] at hi
    rw [hC] at hj
    exact mk3 (inRange3 hk).2.1 (of_decide_eq_true (List.mem_filter.1 hi).2) (of_decide_eq_true (List.mem_filter.1 hj).2)
  have gloc : ∀ k, InRange [a, c', e'] k → ∀ i ∈ R k, ∀ j ∈ C k, ∀ v v' : Ptr → T,
      (∀ q, q < w3.store.heap.next → q ∉ M.ops → v q = v' q) → g k i j v = g k i j v' := by
    intro k hk i hi j hj v v' hv
    have hr := hin k hk i hi j hj
    have m1 := cell_mem rp.good (by rw [sp]; exact hr)
    have m2 := cell_mem ri.good (by rw [hsh]; exact hr)
    have m3 := cell_mem ro.good (by rw [so]; exact hk)
    rw [hgd]
    dsimp only
    rw [hv _ (rp.good.valid _ m1).2 fun h => (sep _ h).1 m1, hv _ (ri.good.valid _ m2).2 fun h => (sep _ h).2.1 m2,
      hv _ (ro.good.valid _ m3).2 fun h => (sep _ h).2.2 m3]
  have nonempty : (LSpec.maxPool sx sy : LSpec T).safe P.oM.shape → ∀ k, InRange [a, c', e'] k → R k ≠ [] ∧ C k ≠ [] := by
    intro hs k hk
    obtain ⟨_, k0, k1, k2⟩ := inRange3 hk
    have hs' : 1 < sx ∧ 1 < sy := by
      rcases hs with h | h
      · exact h
      · omega
    have aux : ∀ (x n s n' : Nat), n' = (n + 1) / s → 1 < s → x < n' → x * s < n := by
      intro x n s n' hn hs hx
      have h1 : (x + 1) * s ≤ n + 1 := by
        have : x + 1 ≤ (n + 1) / s := by omega
        exact le_trans (Nat.mul_le_mul_right s this) (Nat.div_mul_le_self _ _)
      rw [Nat.add_mul] at h1
      omega
    have r1 := aux _ _ _ _ hc' hs'.1 k1
    have r2 := aux _ _ _ _ he' hs'.2 k2
    constructor
    · have : 0 ∈ R k := by rw [hR]; exact List.mem_filter.2 ⟨List.mem_range.2 (by omega), decide_eq_true (by omega)⟩
      exact List.ne_nil_of_mem this
    · have : 0 ∈ C k := by rw [hC]; exact List.mem_filter.2 ⟨List.mem_range.2 (by omega), decide_eq_true (by omega)⟩
      exact List.ne_nil_of_mem this
  have body : ∀ f < a, ∀ x < c', ∀ y < e', ∀ lo, w3.store.heap.next ≤ lo → ∃ hi ops, Em w3 (B d pd f x y) lo hi () ops ∧
        Effect w3.store.heap.next lo hi (· ∈ M.ops) ops
          (fun v => (allIdx []).foldl (fun v i => Function.update v (cell M (f :: x :: y :: i)) (V (f :: x :: y :: i) v)) v)
          ((LSpec.maxPool sx sy : LSpec T).safe P.oM.shape) := by
    intro f hf x hx y hy lo hlo
    have hi3 : InRange [a, c', e'] [f, x, y] := mk3 hf hx hy
    have mM := cell_mem rM.good (by rw [sM]; exact hi3)
    obtain ⟨p1, c1⟩ := rM.good.valid _ mM
    obtain ⟨p4, c4⟩ := ro.good.valid _ (cell_mem ro.good (by rw [so]; exact hi3))
    obtain ⟨hi, acc', ops, em, le, dst, fine, val⟩ := rows_sum (N := w3) (base := w3.store.heap.next) (my := cell M [f, x, y])
      (row := fun i => Run.collect ((List.range sy).filter fun j => y * sy + j < e) fun j => do
            let pder ← Run.operand pd [f, x * sx + i, y * sy + j]
            let i' ← Run.operand P.out [f, x * sx + i, y * sy + j]
            let e ← Run.emit (.equals i' (cell X.oM [f, x, y]))
            Run.emit (.mul pder e))
      (e := fun i v => (C [f, x, y]).map fun j => g [f, x, y] i j v) (safe := (LSpec.maxPool sx sy : LSpec T).safe P.oM.shape) ⟨p1, c1⟩
      (R [f, x, y]) (fun i hi lo hlo => by
        obtain ⟨hi', xs, ops, m, Vs, hx⟩ := collect_new (N := w3) (base := w3.store.heap.next) (safe := (LSpec.maxPool sx sy : LSpec T).safe P.oM.shape)
          (e := fun j v => g [f, x, y] i j v) (f := fun j => do
            let pder ← Run.operand pd [f, x * sx + i, y * sy + j]
            let i' ← Run.operand P.out [f, x * sx + i, y * sy + j]
            let e ← Run.emit (.equals i' (cell X.oM [f, x, y]))
            Run.emit (.mul pder e)) (C [f, x, y]) (fun j hj lo hlo => by
          have hr := hin _ hi3 i hi j hj
          obtain ⟨p2, c2⟩ := rp.good.valid _ (cell_mem rp.good (by rw [sp]; exact hr))
          obtain ⟨p3, c3⟩ := ri.good.valid _ (cell_mem ri.good (by rw [hsh]; exact hr))
          refine ⟨lo + 2, lo + 1, [.asg lo (.equals (cell P.oM [f, x * sx + i, y * sy + j]) (cell X.oM [f, x, y])),
            .asg (lo + 1) (.mul (cell pM [f, x * sx + i, y * sy + j]) lo)], ?_, ⟨by omega, by simp, fun _ op hop => ?_, by simp, fun v => ?_, fun v v' hv => ?_⟩, by omega⟩
          · exact Em.bind (o1 := []) (Em.operand rp.mat rp.good (by rw [sp]; exact hr) _) (Em.bind (o1 := []) (Em.operand ri.mat ri.good (by rw [hsh]; exact hr) _)
              (Em.bind (o1 := [_]) (Em.emit _ _) (Em.emit _ _)))
          · simp only [List.mem_cons, List.not_mem_nil, or_false] at hop
            rcases hop with rfl | rfl
            · refine ⟨by omega, ?_, trivial, trivial⟩
              simp only [Rhs.reads, List.mem_cons, List.not_mem_nil, or_false, forall_eq_or_imp, forall_eq]
              exact ⟨p3, p4⟩
            · refine ⟨by omega, ?_, trivial, trivial⟩
              simp only [Rhs.reads, List.mem_cons, List.not_mem_nil, or_false, forall_eq_or_imp, forall_eq]
              exact ⟨p2, by omega⟩
          · rw [hgd]
            simp only [execV_asg, execV_nil, Rhs.ev, List.map_cons, List.map_nil]
            have x1 : cell pM [f, x * sx + i, y * sy + j] ≠ lo := by
              have : cell pM [f, x * sx + i, y * sy + j] < w3.store.heap.next := c2
              omega
            rw [Function.update_self, Function.update_of_ne x1, Function.update_self]
            rfl
          · exact congrArg (fun z => [z]) (gloc _ hi3 i hi j hj v v' fun q hq _ => hv q hq)) lo hlo
        refine ⟨hi', xs, ops, ?_, Vs, hx, fun hs h0 => ?_⟩
        · rw [hC] at m; exact m
        · have hl := congrArg List.length (Vs.val fun _ => zero)
          rw [h0] at hl
          simp only [List.map_nil, List.length_nil, List.length_map] at hl
          exact (nonempty hs _ hi3).2 (List.eq_nil_of_length_eq_zero hl.symm))
      (fun i hi v v' hv => List.map_congr_left fun j hj => gloc _ hi3 i hi j hj v v' fun q hq hm => hv q hq fun h => hm (h ▸ mM)) [] lo hlo (by simp)
    refine ⟨hi, ops, ?_, ?_⟩
    · rw [hB]
      rw [hR] at em
      refine Em.bind (o1 := []) (Em.operand rM.mat rM.good (by rw [sM]; exact hi3) _) (Em.bind (o1 := []) (Em.operand ro.mat ro.good (by rw [so]; exact hi3) _) ?_)
      have := Em.bind (f := fun _ => (Pure.pure () : Run T Unit)) em (Em.pure () hi)
      rw [List.append_nil] at this
      exact this
    · refine Effect.one (F := fun v => Function.update v (cell M [f, x, y]) (V [f, x, y] v)) (G := fun k v => Function.update v (cell M (f :: x :: y :: k)) (V (f :: x :: y :: k) v)) ⟨le, fun q hq => ?_, fine, fun v q hq => ?_, fun v v' hv q hq => ?_⟩ fun v => rfl
      · rcases dst q hq with h | h
        · exact Or.inl h
        · exact Or.inr (h ▸ mM)
      · by_cases hqm : q = cell M [f, x, y]
        · subst hqm
          rw [Function.update_self, val v, hV]
          simp only [List.map_nil, List.nil_append]
        · rw [Function.update_of_ne hqm]
          exact execV_frame fun hd => by
            rcases dst q hd with h | h
            · omega
            · exact hqm h
      · by_cases hqm : q = cell M [f, x, y]
        · subst hqm
          rw [Function.update_self, Function.update_self, hV]
          dsimp only
          rw [hv _ c1]
          split
          · rfl
          · exact congrArg sum1 (List.flatMap_congr fun i hi => List.map_congr_left fun j hj => gloc _ hi3 i hi j hj v v' fun q hq _ => hv q hq)
        · rw [Function.update_of_ne hqm, Function.update_of_ne hqm, hv q hq]
  obtain ⟨hi, ops, em, A⟩ := Effect.range (N := w3) (base := w3.store.heap.next) (W := (· ∈ M.ops)) (safe := (LSpec.maxPool sx sy : LSpec T).safe P.oM.shape)
    (n := a) (s := [c', e']) (F := fun i v => Function.update v (cell M i) (V i v))
    (f := fun f => Run.each (List.range c') fun px => Run.each (List.range e') fun py => B d pd f px py)
    (fun f hf => Effect.range (fun x hx => Effect.range (fun y hy => body f hf x hx y hy))) _ le_rfl
  refine ⟨_, hi, ops, em, A, fun h1 h' pv x D' hs Hi Ho Hd g' hv => ?_⟩
  have hx : x.shape = [a, c, e] := by rw [← Hi.shape, hsh]
  refine holds_of_cell g' ?_ fun idx hi => ?_
  · show _ = [x.shape.getD 0 0, (x.shape.getD 1 0 + 1) / sx, (x.shape.getD 2 0 + 1) / sy]
    rw [hx, sM, hc', he']; rfl
  · rw [hv _ (rM.good.valid _ (cell_mem rM.good hi)).2]
    have key := (foldl_cells rM.good nd (E := V) (fun i hi v v' hvv => ?_) h1.val).2 idx hi
    · rw [sM] at key hi
      rw [key, hV]
      dsimp only
      rw [if_neg (nonempty hs idx hi).1]
      show _ = sum1 ((window sx sy (x.shape.getD 1 0) (x.shape.getD 2 0) (idx.getD 1 0) (idx.getD 2 0)).map fun p =>
        GoNum.mul (D'.get [idx.getD 0 0, p.1, p.2]) (same (x.get [idx.getD 0 0, p.1, p.2]) ((maxPoolFn sx sy x).get idx)))
      have hw : window sx sy (x.shape.getD 1 0) (x.shape.getD 2 0) (idx.getD 1 0) (idx.getD 2 0) =
          (R idx).flatMap fun i => (C idx).map fun j => (idx.getD 1 0 * sx + i, idx.getD 2 0 * sy + j) := by rw [hR, hC, hx]; rfl
      rw [hw, List.map_flatMap]
      refine congrArg sum1 (List.flatMap_congr fun i hi' => ?_)
      rw [List.map_map]
      refine List.map_congr_left fun j hj => ?_
      have hr := hin idx hi i hi' j hj
      rw [hgd]
      dsimp only [Function.comp]
      rw [holds_cell Hd (by rw [sp]; exact hr), holds_cell Hi (by rw [hsh]; exact hr), holds_cell Ho (by rw [so]; exact hi)]
      rfl
    · rw [sM] at hi
      rw [hV]
      dsimp only
      rw [hvv _ (Or.inr rfl)]
      split
      · rfl
      · exact congrArg sum1 (List.flatMap_congr fun i' hi' => List.map_congr_left fun j hj => gloc _ hi i' hi' j hj v v' fun q _ hm => hvv q (Or.inl hm))

end Godeep
