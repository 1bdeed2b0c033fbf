import Verif.Lemmas.GBias
/-
  Back-propagation through convolutions and transposed convolutions: what they have in common.
-/
set_option linter.unusedSectionVars false

namespace Godeep
open Spec GoNum

variable {T : Type} [GoNum T]

open Run in
/-- `BuildBackpropagation` of `Conv2D` and `DeConv2D`, which differ in `pre` and `upd` -/
def convLike (pre : List Nat → List Nat → Nat → Nat → Nat → Nat → Run T Unit)
    (upd : List Nat → List Nat → Nat → Nat → Nat → Nat → Nat → Run T Unit) (fuel l : Nat) (alpha momentum : Ptr) : Run T Unit := do
  let x ← layer l
  let inp ← deref x.input
  let inShape := (← mat inp).shape
  let out ← deref x.output
  let outShape := (← mat out).shape
  let w ← deref x.weights
  let wShape := (← mat w).shape
  let nw ← zeros wShape
  modify l fun x => { x with nWeights := some nw }
  let mw ← zeros wShape
  modify l fun x => { x with mWeights := some mw }
  let b ← deref x.bias
  let mb ← zeros (← mat b).shape
  modify l fun x => { x with mBias := some mb }
  let dif ← LayerM.scaledDif x
  buildGraph dif
  match x.pre with
  | none => pure ()
  | some p =>
    let der ← LayerM.buildDer fuel p
    let pdif ← deref (← LayerM.getDif fuel p)
    pre inShape outShape dif w der pdif
  let (da, wm) ← LayerM.convBias l x b mb mw alpha momentum
  upd inShape outShape inp da w wm nw

theorem convBP_like (kw kh sx sy fuel l : Nat) (alpha momentum : Ptr) : (LayerM.convBP kw kh sx sy fuel l alpha momentum : Run T Unit) =
    convLike (LayerM.convPre kw sx sy) (LayerM.convUpdate kw kh sy) fuel l alpha momentum := rfl

theorem deconvBP_like (kw kh sx sy fuel l : Nat) (alpha momentum : Ptr) : (LayerM.deconvBP kw kh sx sy fuel l alpha momentum : Run T Unit) =
    convLike (LayerM.deconvPre kw kh sx sy) (LayerM.deconvUpdate kw kh sx sy) fuel l alpha momentum := rfl

/-- the loops that add to the errors of the layer before -/
def PreSpec (pre : Nat → Nat → Nat → Nat → Run T Unit) (back : STensor T → STensor T → STensor T → STensor T → STensor T) (si so sw : List Nat)
    (safe : Prop) : Prop :=
  ∀ (N : World T) (dif w der pdif : Nat) (rM wM dM pM : Mat), Ready N dif rM → Ready N w wM → Ready N der dM → Ready N pdif pM →
    rM.shape = so → wM.shape = sw → dM.shape = si → pM.shape = si → pM.ops.Nodup →
    (∀ q ∈ pM.ops, q ∉ rM.ops ∧ q ∉ wM.ops ∧ q ∉ dM.ops) →
    ∃ F hi ops, Em N (pre dif w der pdif) N.store.heap.next hi () ops ∧
      Effect N.store.heap.next N.store.heap.next hi (· ∈ pM.ops) ops F safe ∧ (∀ v q, q ∉ pM.ops → F v q = v q) ∧
      ∀ h r W D x, Holds h rM r → Holds h wM W → Holds h dM D → x.shape = si → (∀ q ∈ pM.ops, h.val q = zero) →
        ∀ idx, InRange si idx → F h.val (cell pM idx) = (back W r x D).get idx

/-- the loops that compute the new weights -/
def UpdSpec (upd : Nat → Nat → Nat → Nat → Nat → Run T Unit) (wts : T → T → STensor T → STensor T → STensor T → STensor T) (si so sw : List Nat)
    (safe : Prop) : Prop :=
  ∀ (N : World T) (inp da w wm nw : Nat) (iM aM wM mM nM : Mat), Ready N inp iM → Ready N da aM → Ready N w wM → Ready N wm mM → Ready N nw nM →
    iM.shape = si → aM.shape = so → wM.shape = sw → mM.shape = sw → nM.shape = sw → mM.ops.Nodup → nM.ops.Nodup →
    (∀ q, q ∈ mM.ops → q ∉ nM.ops) → (∀ q, q ∈ mM.ops ∨ q ∈ nM.ops → q ∉ iM.ops ∧ q ∉ aM.ops ∧ q ∉ wM.ops) →
    ∃ F hi ops, Em N (upd inp da w wm nw) N.store.heap.next hi () ops ∧
      Effect N.store.heap.next N.store.heap.next hi (fun q => q ∈ mM.ops ∨ q ∈ nM.ops) ops F safe ∧
      (∀ v q, q ∉ mM.ops → q ∉ nM.ops → F v q = v q) ∧
      ∀ h d x W al mu, Holds h aM (d.map fun v => GoNum.mul v al) → Holds h iM x → Holds h wM W → (∀ q ∈ mM.ops, h.val q = GoNum.mul zero mu) →
        ∀ idx, InRange sw idx → F h.val (cell nM idx) = (wts al mu d x W).get idx

theorem bpGood_convLike {s : LSpec T} {pre : List Nat → List Nat → Nat → Nat → Nat → Nat → Run T Unit}
    {upd : List Nat → List Nat → Nat → Nat → Nat → Nat → Nat → Run T Unit} {sw : List Nat → List Nat}
    {back : STensor T → STensor T → STensor T → STensor T → STensor T} {wts : T → T → STensor T → STensor T → STensor T → STensor T}
    (hk : ∀ alpha momentum fuel l, bpOwn alpha momentum fuel l s.kind = convLike pre upd fuel l alpha momentum)
    (hwt : s.weighted = true) (hsm : s ≠ .softMax) (hnn : ¬ (s = .norm ∨ s = .eNorm)) (hps : ∀ si, s.paramShapes si = [sw si, s.outShape si]) (hms : ∀ si, s.momShapes si = [s.outShape si])
    (hback : ∀ W B d r x D, s.back [W, B] d r x D = back W r x D) (hbs : ∀ W r x D, (back W r x D).shape = x.shape)
    (hlearn : ∀ al mu W B m d r x, s.learned al mu [W, B] [m] d r x = [wts al mu d x W, B.zip GoNum.add (biasStep al mu d m)])
    (hws : ∀ al mu d x W, (wts al mu d x W).shape = W.shape)
    (hchg : ∀ al mu m d, s.changed al mu [m] d = [biasStep al mu d m])
    (hpre : ∀ si, s.fits si → s.bpFits → PreSpec (pre si (s.outShape si)) back si (s.outShape si) (sw si) (s.bpSafe si))
    (hupd : ∀ si, s.fits si → s.bpFits → UpdSpec (upd si (s.outShape si)) wts si (s.outShape si) (sw si) True) : BPGood s := by
  intro w fuel b l p P X alpha momentum E dsafe H
  obtain ⟨wn, bn, wM, bM, hw, hb, hpe, rw0, rb0, sww, sb⟩ := H.params (hps _)
  rw [hk]
  unfold convLike
  refine wp_bind (wp_layer (wp_bind (wp_deref H.step.input (wp_bind (wp_mat ?_)))))
  rw [H.rin.mat]
  refine wp_bind (wp_deref H.output (wp_bind (wp_mat ?_)))
  rw [H.rout.mat, H.sout]
  refine wp_bind (wp_deref hw (wp_bind (wp_mat ?_)))
  rw [rw0.mat, sww]
  obtain ⟨si, hsi⟩ : ∃ si, si = P.oM.shape := ⟨_, rfl⟩
  have PS := hpre P.oM.shape H.fits H.bfits
  have US := hupd P.oM.shape H.fits H.bfits
  refine wp_zmod (f := fun n x => { x with nWeights := some n }) H.pos fun w1 nwM g1 l1 j1 r1 s1 nd1 f1 => ?_
  have b1 := g1.grow.next
  refine wp_zmod (f := fun n x => { x with mWeights := some n }) (by have := H.pos; omega) fun w2 mwM g2 l2 j2 r2 s2 nd2 f2 => ?_
  have b2 := g2.grow.next
  have G2 : Lay (· = l) [] w w2 := by simpa using g1.trans g2
  refine wp_bind (wp_deref hb (wp_bind (wp_mat ?_)))
  rw [(rb0.grow G2.grow).mat, sb]
  refine wp_zmod (f := fun n x => { x with mBias := some n }) (by have := H.pos; omega) fun w3 mbM g3 l3 j3 r3 s3 nd3 f3 => ?_
  have b3 := g3.grow.next
  have G13 : Lay (· = l) [] w1 w3 := by simpa using g2.trans g3
  have G3 : Lay (· = l) [] w w3 := by simpa using g1.trans G13
  have v3 : w3.store.heap.val (w.layers l).ref = w.store.heap.val (w.layers l).ref := G3.val H.ref.2.1
  refine wp_scaled (by have := H.pos; omega) H.dif (H.rdif.grow G3.grow) ⟨H.ref.1, by have := H.ref.2.1; omega⟩ fun w4 dn rM o4 S => ?_
  rw [v3] at S
  simp only [H.pre]
  refine wp_bind ?_
  refine wp_mono (H.der hwt w4 o4 (by simpa using G3.grow.trans (S.grow (· = l)))) fun d w5 D => ?_
  obtain ⟨of, derM, Fr⟩ := front_of H G3 S D
  have b5 := Fr.grow.next
  have lp : ∀ j, ∃ x, w5.layers j = { w3.layers j with der := x } := Fr.layers
  have j3' : ∀ j, j ≠ l → w3.layers j = w.layers j := fun j hj => by rw [j3 j hj, j2 j hj, j1 j hj]
  have pl : p ≠ l := by have := H.lt; omega
  have l5p : (w5.layers p).pre = (w.layers p).pre ∧ (w5.layers p).kind = (w.layers p).kind ∧ (w5.layers p).dif = (w.layers p).dif := by
    obtain ⟨x, hx⟩ := lp p
    rw [hx, j3' p pl]; exact ⟨rfl, rfl, rfl⟩
  refine wp_bind (wp_getDif H.fpos (by rw [l5p.1, l5p.2.1]; exact H.pnot) (by rw [l5p.2.2]; exact H.pdif) ?_)
  refine wp_bind (wp_deref rfl ?_)
  have wk : ∀ {u u' : World T} {o : List (Op T)}, Lay (· = l) o u u' → Grow (fun j => b ≤ j ∧ j ≤ l) (fun _ => False) o u u' := fun g =>
    g.grow.weaken (fun j (hj : j = l) => by have := H.lt; omega) fun _ h => h
  have G35 : Grow (fun j => b ≤ j ∧ j ≤ l) (fun _ => False) of w3 w5 := Fr.grow.weaken (fun j hj => by have := H.lt; omega) fun _ h => h
  have G5 := (wk G3).trans G35
  have rw5 := rw0.grow G5
  have rb5 := rb0.grow G5
  have rp5 := H.rpdif.grow G5
  have old : ∀ {m : Mat} {k : Nat}, Ready w k m → ∀ q ∈ m.ops, q < w.store.heap.next := fun r q hq => (r.good.valid q hq).2
  obtain ⟨F6, _, _, hE6, A6, N6, V6⟩ := PS w5 dn wn d P.dif rM wM derM P.dM Fr.rr rw5 Fr.rd rp5 (by rw [Fr.rshape, H.sdif, H.sout]) sww Fr.dshape H.spdif H.nd
    (fun q hq => ⟨fun hc => by
      rcases Fr.rcell q hc with h | h
      · have := old H.rpdif q hq; omega
      · exact H.sepd hsm q hq h, (H.sep q hq).2.2.1 wM (by rw [hpe]; simp), fun hc => by have := Fr.dcell q hc; have := old H.rpdif q hq; omega⟩)
  refine wp_bind (wp_effect ⟨_, _, hE6, A6⟩ fun w6 o6 g6 y6 A6 => ?_)
  have b6 := (g6 fun _ => False).grow.next
  have G56 := (g6 fun j => b ≤ j ∧ j ≤ l).grow
  have G6 := G5.trans G56
  have G36 := G35.trans G56
  obtain ⟨ha0, ha1, ha2, hm0, hm1, hm2⟩ := H.rates
  have rd6 := H.rdif.grow G6
  refine wp_convBias (l := l) (by have := H.pos; omega) H.dif rd6 (rb5.grow G56) (r3.grow G36)
    ((r2.grow (wk g3)).grow G36) (by have := H.rdif.lt; have := G2.grow.nodeNext; omega) (by rw [sb, H.sdif, H.sout]) (by rw [s3, H.sdif, H.sout]) nd3 ⟨ha0, by omega⟩
    ⟨hm0, by omega, fun hc => by have := f3 _ hc; omega⟩ (fun q h1 h2 => by have := f2 q h1; have := f3 q h2; omega) fun w7 rr nb aM mM nbM o7 B7 => ?_
  have b7 := B7.grow.grow.next
  have G67 := wk B7.grow
  have G7 := G6.trans G67
  have G37 := G36.trans G67
  have rnw7 := (r1.grow (wk G13)).grow G37
  have di : ∀ q, q ∈ mM.ops ∨ q ∈ nwM.ops → q ∉ P.oM.ops ∧ q ∉ aM.ops ∧ q ∉ wM.ops := by
    rintro q (hq | hq)
    · have := B7.fm q hq
      exact ⟨fun h => by have := old H.rin q h; omega, this.2.2.1, fun h => by have := old rw0 q h; omega⟩
    · have := f1 q hq
      exact ⟨fun h => by have := old H.rin q h; omega, fun h => by have := B7.fa q h; omega, fun h => by have := old rw0 q h; omega⟩
  have dn' : ∀ q, q ∈ mM.ops → q ∉ nwM.ops := fun q h1 h2 => by have := B7.fm q h1; have := f1 q h2; omega
  obtain ⟨F8, _, _, hE8, A8, N8, V8⟩ := US w7 P.out rr.1 wn rr.2 w.nodeNext P.oM aM wM mM nwM (H.rin.grow G7) B7.ra ((rw5.grow G56).grow G67) B7.rm rnw7 rfl
    (by rw [B7.sa, H.sdif, H.sout]) sww (by rw [B7.sm, s2]) s1 B7.nd nd1 dn' di
  refine wp_effect ⟨_, _, hE8, A8⟩ fun w8 o8 g8 y8 A8 => ?_
  have b8 := (g8 fun _ => False).grow.next
  have G78 := (g8 fun j => b ≤ j ∧ j ≤ l).grow
  have G8 := G7.trans G78
  rw [List.nil_append] at G8
  have G38 := G37.trans G78
  -- the layers
  have lay : ∀ j, j ≠ l → ∃ x, w8.layers j = { w.layers j with der := x } := fun j hj => by
    rw [y8, B7.layers j hj, y6, ← j3' j hj]; exact Fr.layers j
  have L8 : w8.layers l = { w.layers l with nWeights := some w.nodeNext, mWeights := some w1.nodeNext, mBias := some w2.nodeNext, nBias := some nb } := by
    rw [y8, B7.own, y6, Fr.grow.layers l (by have := H.lt; omega), l3, l2, l1]
  have derk : ∀ j, l ≤ j → (w8.layers j).der = (w.layers j).der := fun j hj => by
    by_cases hjl : j = l
    · subst hjl; rw [L8]
    · rw [y8, B7.layers j hjl, y6, Fr.grow.layers j (by have := H.lt; omega), j3' j hjl]
  refine ⟨of ++ o6 ++ o7 ++ o8, [nwM, nbM], [mbM], ⟨G8, fun j => ?_, fun j => ?_, fun j hj => ?_, fun j hj => ?_, fun _ => ?_, ?_, fun m hm => ?_, fun m hm => ?_, ?_, fun q hq => ?_,
    fun hs hd hr o ho => ?_, ?_⟩⟩
  · by_cases hj : j = l
    · subst hj; rw [L8]; rfl
    · obtain ⟨x, hx⟩ := lay j hj
      rw [hx]; rfl
  · by_cases hj : j = l
    · subst hj; rw [L8]; exact ⟨rfl, rfl⟩
    · obtain ⟨x, hx⟩ := lay j hj
      rw [hx]; exact ⟨rfl, rfl⟩
  · rcases hj with hj | hj
    · rw [hwt] at hj; cases hj
    · exact derk j hj
  · rcases hj with hj | hj
    · rw [hwt] at hj; cases hj
    · obtain ⟨x, hx⟩ := lay j hj
      rw [hx]; exact ⟨rfl, rfl⟩
  · exact ⟨_, _, nwM, nbM, rfl, by rw [L8], by rw [L8], rnw7.grow G78, B7.rb.grow G78⟩
  · show [nwM.shape, nbM.shape] = _
    rw [s1, B7.sb, sb, hps]
  · intro q hq
    simp only [List.mem_cons, List.not_mem_nil, or_false] at hm
    rcases hm with rfl | rfl
    · have := f1 q hq; omega
    · have := B7.fb q hq; omega
  · simp only [List.mem_cons, List.not_mem_nil, or_false] at hm
    subst hm
    refine ⟨r3.good.mono G38.next, fun q hq => ⟨by have := f3 q hq; omega, ?_⟩⟩
    rw [G38.val q (f3 q hq).2 fun h => h]
    exact g3.zero q (f3 q hq).1 (f3 q hq).2
  · show [mbM.shape] = _
    rw [s3, hms]
  · rw [dsts_append, List.mem_append, dsts_append, List.mem_append, dsts_append, List.mem_append] at hq
    rcases hq with ((hq | hq) | hq) | hq
    · have := Fr.dst q hq; left; omega
    · rcases A6.dst q hq with h | h
      · left; omega
      · exact Or.inr h
    · rcases B7.dst q hq with h | h
      · left; omega
      · have := f3 q h; left; omega
    · rcases A8.dst q hq with h | h | h
      · left; omega
      · have := B7.fm q h; left; omega
      · have := f1 q h; left; omega
  · rw [List.mem_append, List.mem_append, List.mem_append] at ho
    rcases ho with ((ho | ho) | ho) | ho
    · exact Fr.fine hd hr o ho
    · exact A6.fine hs o ho
    · exact B7.fine o ho
    · exact A8.fine trivial o ho
  · intro h h' pv mv x dd D al mu hnx hk V he
    obtain ⟨m, rfl⟩ : ∃ m, mv = [m] := by
      have hl := V.mom.length_eq
      match mv, hl with
      | [m], _ => exact ⟨m, rfl⟩
    have hpar := V.par
    rw [hpe] at hpar
    obtain ⟨W, B, rfl⟩ : ∃ W B, pv = [W, B] := by
      have hl := hpar.length_eq
      match pv, hl with
      | [W, B], _ => exact ⟨W, B, rfl⟩
    simp only [List.forall₂_cons, List.forall₂_nil_left_iff, and_true] at hpar
    obtain ⟨HW, HB⟩ := hpar
    have Hm := V.mom
    simp only [List.forall₂_cons, List.forall₂_nil_left_iff, and_true] at Hm
    rw [List.append_assoc, List.append_assoc] at he
    obtain ⟨h1, he1, he⟩ := exec_append_ok.1 he
    obtain ⟨h2, he2, he⟩ := exec_append_ok.1 he
    obtain ⟨h3, he3, he4⟩ := exec_append_ok.1 he
    have x1 := exec_frame he1
    have x2 := exec_frame he2
    have x3 := exec_frame he3
    have x4 := exec_frame he4
    have hk' : Kept w w8 (of ++ (o6 ++ (o7 ++ o8))) h := by simpa using hk
    have k1 : Kept w3 w5 of h := Kept.seg (oa := []) (ob := o6 ++ (o7 ++ o8)) (fun q h1 h2 h3 => hk' q (by omega) h2 (by simpa using h3)) rfl
      (G56.trans (G67.trans G78)) le_rfl fun q a c _ => ⟨by simp, fun hd => by
        rw [dsts_append, List.mem_append, dsts_append, List.mem_append] at hd
        rcases hd with hd | hd | hd
        · rcases A6.dst q hd with h | h
          · omega
          · have := old H.rpdif q h; omega
        · rcases B7.dst q hd with h | h
          · omega
          · have := f3 q h; omega
        · rcases A8.dst q hd with h | h | h
          · omega
          · have := B7.fm q h; omega
          · have := f1 q h; omega⟩
    have k3 : Kept w6 w7 o7 h2 := Kept.seg (oa := of ++ o6) (ob := o8) (by simpa using hk') (exec_append_ok.2 ⟨_, he1, he2⟩)
      G78 (by omega) fun q a c hd' => ⟨fun hd => by
        rw [dsts_append, List.mem_append] at hd
        rcases hd with hd | hd
        · have := Fr.dst q hd; omega
        · rcases A6.dst q hd with h | h
          · omega
          · have := old H.rpdif q h; omega, fun hd => by
        rcases A8.dst q hd with h | h | h
        · omega
        · exact hd' (B7.asg q h)
        · have := f1 q h; omega⟩
    obtain ⟨Hr, HD⟩ := Fr.run h h1 dd D (by omega) k1 V.rates.2.2 V.dif V.env he1
    obtain ⟨r, hr⟩ : ∃ r, r = shared (w.store.heap.val (w.layers l).ref) dd := ⟨_, rfl⟩
    rw [← hr] at Hr ⊢
    have fz1 : ∀ q, q < w3.store.heap.next → h1.val q = h.val q := fun q hq => x1.2 q fun hd => by have := Fr.dst q hd; omega
    have fz2 : ∀ q, q < w5.store.heap.next → q ∉ P.dM.ops → h2.val q = h1.val q := fun q hq hd => by rw [A6.run he2 hq, N6 _ q hd]
    have fz3 : ∀ q, q < w6.store.heap.next → q ∉ mbM.ops → h3.val q = h2.val q := fun q hq hd => x3.2 q fun h => by
      rcases B7.dst q h with h | h
      · omega
      · exact hd h
    have fz4 : ∀ q, q < w7.store.heap.next → q ∉ mM.ops → q ∉ nwM.ops → h'.val q = h3.val q := fun q hq h1 h2 => by rw [A8.run he4 hq, N8 _ q h1 h2]
    have nmb : ∀ q, q < w.store.heap.next → q ∉ mbM.ops := fun q h1 h2 => by have := f3 q h2; omega
    -- to the state before the biases
    have kp2 : ∀ {mt : Mat} {t : STensor T}, (∀ q ∈ mt.ops, q < w3.store.heap.next ∧ q ∉ P.dM.ops) → Holds h mt t → Holds h2 mt t := fun rm Hm =>
      Hm.kept (by rw [x2.1, x1.1]) fun q hq => by rw [fz2 q (by have := (rm q hq).1; omega) (rm q hq).2, fz1 q (rm q hq).1]
    have pd3 : ∀ q ∈ P.dM.ops, ∀ m : Mat, (∀ q ∈ m.ops, w.store.heap.next ≤ q) → q ∉ m.ops := fun q hq m hm h => by have := old H.rpdif q hq; have := hm q h; omega
    have Hd2 := kp2 (fun q hq => ⟨by have := old H.rdif q hq; omega, fun h => H.sepd hsm q h hq⟩) V.dif
    have HB2 := kp2 (fun q hq => ⟨by have := old rb0 q hq; omega, fun h => (H.sep q h).2.2.1 bM (by rw [hpe]; simp) hq⟩) HB
    have HW2 := kp2 (fun q hq => ⟨by have := old rw0 q hq; omega, fun h => (H.sep q h).2.2.1 wM (by rw [hpe]; simp) hq⟩) HW
    have Hi2 := kp2 (fun q hq => ⟨by have := old H.rin q hq; omega, fun h => (H.sep q h).1 hq⟩) V.inp
    have Hm2 := kp2 (fun q hq => ⟨(f3 q hq).2, fun h => by have := old H.rpdif q h; have := f3 q hq; omega⟩) Hm
    have zw : ∀ q ∈ mwM.ops, h2.val q = zero := fun q hq => by
      have fq := f2 q hq
      rw [fz2 q (by omega) (fun h => by have := old H.rpdif q h; omega), fz1 q (by omega), hk' q (by omega) (by omega) ?_, G38.val q (by omega) (fun h => h),
        G3.zero q (by omega) (by omega)]
      rw [dsts_append, List.mem_append, dsts_append, List.mem_append, dsts_append, List.mem_append]
      rintro (hd | hd | hd | hd)
      · have := Fr.dst q hd; omega
      · rcases A6.dst q hd with h | h
        · omega
        · have := old H.rpdif q h; omega
      · rcases B7.dst q hd with h | h
        · omega
        · have := f3 q h; omega
      · rcases A8.dst q hd with h | h | h
        · omega
        · have := B7.fm q h; omega
        · have := f1 q h; omega
    have al2 : h2.val alpha = al := by rw [fz2 _ (by omega) ha2, fz1 _ (by omega)]; exact V.rates.1
    have mu2 : h2.val momentum = mu := by rw [fz2 _ (by omega) hm2, fz1 _ (by omega)]; exact V.rates.2.1
    obtain ⟨Ha, Hn, Hmb, zm⟩ := B7.run h2 h3 dd B m al mu (by rw [x2.1, x1.1]; omega) k3 Hd2 HB2 Hm2 zw al2 mu2 he3
    have HW3 : Holds h3 wM W := HW2.kept (by rw [x3.1]) fun q hq => fz3 q (by have := old rw0 q hq; omega) (nmb q (old rw0 q hq))
    have Hi3 : Holds h3 P.oM x := Hi2.kept (by rw [x3.1]) fun q hq => fz3 q (by have := old H.rin q hq; omega) (nmb q (old H.rin q hq))
    have HW1 : Holds h1 wM W := HW.kept (by rw [x1.1]) fun q hq => fz1 q (by have := old rw0 q hq; omega)
    refine ⟨?_, fun _ => ?_, ?_⟩
    · rw [hback]
      refine holds_of_cell (H.rpdif.good.mono (by omega)) (by rw [H.spdif, V.inp.shape, hbs]) fun idx hi => ?_
      have hc := cell_mem H.rpdif.good hi
      have hlt := old H.rpdif _ hc
      rw [fz4 _ (by omega) (fun h => by have := B7.fm _ h; omega) (fun h => by have := f1 _ h; omega), fz3 _ (by omega) (nmb _ hlt), A6.run he2 (by omega)]
      exact V6 h1 r W D x Hr HW1 HD V.inp.shape.symm (fun q hq => by rw [fz1 q (by have := old H.rpdif q hq; omega)]; exact V.zero hsm q hq) idx (by rw [← H.spdif]; exact hi)
    · rw [hlearn]
      refine .cons ?_ (.cons ?_ .nil)
      · refine holds_of_cell (rnw7.good.mono (by omega)) (by rw [s1, ← sww, HW.shape, hws]) fun idx hi => ?_
        rw [A8.run he4 (by have := f1 _ (cell_mem rnw7.good hi); omega)]
        exact V8 h3 dd x W al mu Ha Hi3 HW3 zm idx (by rw [← s1]; exact hi)
      · exact Hn.kept (by rw [x4.1]) fun q hq => fz4 q (B7.fb q hq).2 (fun h => (B7.fm q h).2.2.2 hq) fun h => by have := f1 q h; have := B7.fb q hq; omega
    · rw [hchg]
      refine .cons (Hmb.kept (by rw [x4.1]) fun q hq => fz4 q (by have := f3 q hq; omega) (fun h => by have := B7.fm q h; have := f3 q hq; omega) fun h => by
        have := f1 q h; have := f3 q hq; omega) .nil

end Godeep
