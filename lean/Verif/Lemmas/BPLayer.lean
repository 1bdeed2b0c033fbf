import Verif.Lemmas.BPOps
/-
  `BuildBackpropagation` of a dense layer.
-/
set_option linter.unusedSectionVars false

namespace Godeep
open Spec GoNum

variable {T : Type} [GoNum T]

/-- a dense layer `l` after layer `p` that is ready for back-propagation -/
structure BPIn (w : World T) (l p n inputs inp out wn bn dif pdif pneta : Nat) (inM outM wM bM dM pM pnM : Mat) : Prop where
  ne : p ≠ l
  pos : 0 < n
  pre : (w.layers l).pre = some p
  input : (w.layers l).input = some inp
  output : (w.layers l).output = some out
  weights : (w.layers l).weights = some wn
  bias : (w.layers l).bias = some bn
  hdif : (w.layers l).dif = some dif
  ref : 0 < (w.layers l).ref ∧ (w.layers l).ref < w.store.heap.next
  refv : lt one (w.store.heap.val (w.layers l).ref) = false
  pkind : (w.layers p).kind = .dense ∨ ((w.layers p).kind = .input ∧ (w.layers p).pre = none)
  pder : (w.layers p).der = none
  hpneta : (w.layers p).neta = some pneta
  hpdif : (w.layers p).dif = some pdif
  rin : Ready w inp inM
  rout : Ready w out outM
  rw : Ready w wn wM
  rb : Ready w bn bM
  rd : Ready w dif dM
  rp : Ready w pdif pM
  rpn : Ready w pneta pnM
  sout : outM.shape = [n]
  sw : wM.shape = [n, inputs]
  sb : bM.shape = [n]
  sd : dM.shape = [n]
  sin : size inM.shape = inputs
  sp : size pM.shape = inputs
  spn : size pnM.shape = inputs
  ndp : pM.ops.Nodup
  sep : ∀ q ∈ pM.ops, q ∉ dM.ops ∧ q ∉ wM.ops ∧ q ∉ bM.ops ∧ q ∉ inM.ops ∧ q ∉ pnM.ops

theorem denseBP_ok {w : World T} {l p n inputs inp out wn bn dif pdif pneta : Nat} {inM outM wM bM dM pM pnM : Mat}
    (I : BPIn w l p n inputs inp out wn bn dif pdif pneta inM outM wM bM dM pM pnM) {alpha momentum : Ptr} {fuel : Nat}
    (ha : 0 < alpha ∧ alpha < w.store.heap.next ∧ alpha ∉ pM.ops)
    (hm : 0 < momentum ∧ momentum < w.store.heap.next ∧ momentum ∉ pM.ops) :
    wp True (LayerM.denseBP (fuel + 1) l alpha momentum) (fun _ w' => ∃ new nw mw nb mb der nwM nbM,
      Lay (fun k => k = l ∨ k = p) new w w' ∧
      w'.layers l = { w.layers l with nWeights := some nw, mWeights := some mw, nBias := some nb, mBias := some mb } ∧
      w'.layers p = { w.layers p with der := some der } ∧
      Ready w' nw nwM ∧ Ready w' nb nbM ∧ nwM.shape = [n, inputs] ∧ nbM.shape = [n] ∧ nwM.ops.Nodup ∧ nbM.ops.Nodup ∧
      BPNew n inputs dM wM bM inM pnM pM (w.layers p).act.derive alpha momentum w.store.heap.next w'.store.heap.next new nwM nbM) w := by
  have hpos : 0 < w.store.heap.next := by have := (I.rb.good.valid); omega
  have npl := I.ne
  unfold LayerM.denseBP
  refine wp_bind (wp_layer ?_)
  refine wp_bind (wp_deref I.input ?_)
  refine wp_bind (wp_mat ?_)
  have e1 : (w.store.nodes inp).mat.getSize = inputs := by
    rw [I.rin.mat]; simp [Mat.getSize, I.rin.good.len, I.sin]
  rw [e1]
  refine wp_bind (wp_deref I.output ?_)
  refine wp_bind (wp_mat ?_)
  have e2 : (w.store.nodes out).mat.getSize = n := by
    rw [I.rout.mat]; simp [Mat.getSize, I.rout.good.len, I.sout, size]
  rw [e2]
  refine wp_bind (wp_deref I.weights ?_)
  refine wp_bind (wp_mat ?_)
  rw [I.rw.mat, I.sw]
  let L : Nat → Prop := fun k => k = l ∨ k = p
  have Ll : L l := Or.inl rfl
  have Lp : L p := Or.inr rfl
  refine wp_bind (wp_zeros' (L := L) hpos fun w1 nwM g1 l1 x1 r1 s1 nd1 f1 _ => ?_)
  have q1 : 0 < w1.store.heap.next := lt_of_lt_of_le hpos g1.grow.next
  refine wp_bind (wp_modify ?_)
  have m1 := lay_modify (L := L) Ll (fun x => { x with nWeights := some w.nodeNext }) w1
  refine wp_bind (wp_zeros' (L := L) q1 fun w2 mwM g2 l2 x2 r2 s2 nd2 f2 _ => ?_)
  have q2 : 0 < w2.store.heap.next := lt_of_lt_of_le q1 g2.grow.next
  refine wp_bind (wp_modify ?_)
  have m2 := lay_modify (L := L) Ll (fun x => { x with mWeights := some w1.nodeNext }) w2
  set w2' : World T := { w2 with layers := fun k => if k = l then { w2.layers k with mWeights := some w1.nodeNext } else w2.layers k } with hw2'
  have G2 : Lay L [] w w2' := by simpa using g1.trans (m1.trans (g2.trans m2))
  refine wp_bind (wp_deref I.bias ?_)
  refine wp_bind (wp_mat ?_)
  rw [(I.rb.grow G2.grow).mat, I.sb]
  refine wp_bind (wp_zeros' (L := L) (w := w2') q2 fun w3 nbM g3 l3 x3 r3 s3 nd3 f3 _ => ?_)
  have q3 : 0 < w3.store.heap.next := lt_of_lt_of_le q2 g3.grow.next
  refine wp_bind (wp_modify ?_)
  have m3 := lay_modify (L := L) Ll (fun x => { x with nBias := some w2.nodeNext }) w3
  refine wp_bind (wp_zeros' (L := L) q3 fun w4 mbM g4 l4 x4 r4 s4 nd4 f4 _ => ?_)
  have q4 : 0 < w4.store.heap.next := lt_of_lt_of_le q3 g4.grow.next
  refine wp_bind (wp_modify ?_)
  have m4 := lay_modify (L := L) Ll (fun x => { x with mBias := some w3.nodeNext }) w4
  set w5 : World T := { w4 with layers := fun k => if k = l then { w4.layers k with mBias := some w3.nodeNext } else w4.layers k } with hw5
  have G5 : Lay L [] w w5 := by simpa using G2.trans (g3.trans (m3.trans (g4.trans m4)))
  have Gnw : Lay L [] w1 w5 := by simpa using m1.trans (g2.trans (m2.trans (g3.trans (m3.trans (g4.trans m4)))))
  have Gmw : Lay L [] w2 w5 := by simpa using m2.trans (g3.trans (m3.trans (g4.trans m4)))
  have Gnb : Lay L [] w3 w5 := by simpa using m3.trans (g4.trans m4)
  have rnw := r1.grow Gnw.grow
  have rmw := r2.grow Gmw.grow
  have rnb := r3.grow Gnb.grow
  have rmb := r4.grow m4.grow
  have L5 : w5.layers l = { w.layers l with nWeights := some w.nodeNext, mWeights := some w1.nodeNext, nBias := some w2.nodeNext, mBias := some w3.nodeNext } := by
    simp [hw5, l4, l3, hw2', l2, l1]
  have L5p : w5.layers p = w.layers p := by
    simp [hw5, l4, l3, hw2', l2, l1, npl]
  have b1 : w.store.heap.next ≤ w1.store.heap.next := g1.grow.next
  have b2 : w1.store.heap.next ≤ w2.store.heap.next := g2.grow.next
  have b3 : w2.store.heap.next ≤ w3.store.heap.next := g3.grow.next
  have b4 : w3.store.heap.next ≤ w4.store.heap.next := g4.grow.next
  -- the scaled error
  have hsc : ∀ Q : Nat → World T → Prop, Q dif w5 → wp True (LayerM.scaledDif (w.layers l)) Q w5 := by
    intro Q hQ
    unfold LayerM.scaledDif
    refine wp_bind (wp_deref I.hdif ?_)
    refine wp_bind (wp_of_ok (value_ok I.ref.1) ?_)
    rw [G5.val I.ref.2, I.refv]
    exact hQ
  refine wp_bind (hsc _ ?_)
  have rd5 := I.rd.grow G5.grow
  refine wp_bind (wp_buildReady (L := L) rd5 fun w6 nopA hA gA lA nA eA => ?_)
  have G6 : Lay L nopA w w6 := by simpa using G5.trans gA
  simp only [I.pre]
  -- the derivative of the previous layer
  have rpn6 := I.rpn.grow G6.grow
  have L6p : w6.layers p = w.layers p := by rw [lA, L5p]
  have hder : ∀ Q : Nat → World T → Prop,
      (∀ w7 d derM nopB, AllNop nopB → Lay L (nopB ++ asgs w6.store.heap.next ((List.range inputs).map fun i => .func (w.layers p).act.derive (pnM.ops.getD i 0))) w6 w7 →
        w7.layers p = { w.layers p with der := some d } → (∀ k, k ≠ p → w7.layers k = w6.layers k) → Ready w7 d derM → size derM.shape = inputs →
        derM.ops = List.range' w6.store.heap.next inputs → w7.store.heap.next = w6.store.heap.next + inputs → Q d w7) →
      wp True (LayerM.buildDer (fuel + 1) p) Q w6 := by
    intro Q hQ
    have hbase : wp True (LayerM.baseDer p) Q w6 := by
      unfold LayerM.baseDer
      refine wp_bind (wp_layer ?_)
      rw [L6p]
      refine wp_bind (wp_deref I.hpneta ?_)
      refine wp_bind (wp_lazy (L := L) (C := fun _ => False) fun wa ga la ha na xa oa => ?_)
      have ga' : Lay L [] w6 wa := ⟨ga, fun q h1 h2 => by rw [ha] at h2; omega⟩
      refine wp_bind (wp_modify ?_)
      have gb := lay_modify (L := L) Lp (fun x => { x with der := some w6.nodeNext }) wa
      set wb : World T := { wa with layers := fun k => if k = p then { wa.layers k with der := some w6.nodeNext } else wa.layers k } with hwb
      have gab : Lay L [] w6 wb := by simpa using ga'.trans gb
      have eb : wb.store.heap = w6.store.heap := ha
      refine wp_bind (wp_build1 (L := L) (w := wb) (k := .act (w.layers p).act.derive pneta) (t := pneta) (m := pnM)
        (a := size pnM.shape)
        (o := asgs w6.store.heap.next ((List.range inputs).map fun i => .func (w.layers p).act.derive (pnM.ops.getD i 0)))
        (M := ⟨pnM.shape, pnM.mul, List.range' w6.store.heap.next (size pnM.shape)⟩) xa rfl (rpn6.grow gab.grow) rpn6.lt
        (by show _ < wa.nodeNext; omega) ?_ ?_)
      · intro get hget ctx
        simp only [Fin.run, hget]
        rw [unary_run rpn6.good, I.spn, eb]
      · intro w7 nops hn hl hly hnn hnx hr
        refine wp_pure (hQ w7 w6.nodeNext _ nops hn (by simpa using gab.trans hl) ?_ ?_ (hr trivial trivial ?_) I.spn (by rw [I.spn]) ?_)
        · rw [hly]; simp [hwb, la, L6p]
        · intro k hk
          rw [hly]; simp [hwb, la, hk]
        · have := good_range' (T := T) (h := w6.store.heap) (sh := pnM.shape) (lt_of_lt_of_le hpos G6.grow.next)
          rw [eb, rpn6.good.mul]
          exact this
        · rw [hnx, eb, I.spn]
    unfold LayerM.buildDer
    refine wp_bind (wp_layer ?_)
    rw [L6p]
    rcases I.pkind with hk | ⟨hk, hp⟩
    · simp only [hk, I.pder]
      exact hbase
    · simp only [hk, hp, I.pder]
      exact hbase
  refine wp_bind ?_
  refine wp_bind (hder _ ?_)
  intro w7 der derM nopB hB gB L7p L7k rder sder oder n7
  have G7 := G6.trans gB
  refine wp_bind ?_
  have hdel : wp True (LayerM.getDif (fuel + 1) p) (fun o w' => o = some pdif ∧ w' = w7) w7 := by
    unfold LayerM.getDif LayerM.delegated
    refine wp_bind (wp_layer ?_)
    rw [L7p]
    rcases I.pkind with hk | ⟨hk, hp⟩
    · simp only [hk]
      exact wp_pure ⟨I.hpdif, rfl⟩
    · simp only [hk, hp]
      exact wp_pure ⟨I.hpdif, rfl⟩
  refine wp_mono hdel ?_
  rintro _ _ ⟨rfl, rfl⟩
  refine wp_bind (wp_deref rfl ?_)
  refine wp_bind (wp_buildReady (L := L) (I.rp.grow G7.grow) fun w8 nopC hC gC lC nC eC => ?_)
  have G8 := G7.trans gC
  have G58 := (gA.trans gB).trans gC
  have h57 : w5.store.heap.next = w4.store.heap.next := rfl
  have h67 : w6.store.heap.next = w4.store.heap.next := by rw [eA]
  have h87 : w8.store.heap.next = w4.store.heap.next + inputs := by rw [eC, n7, h67]
  -- where everything is
  have old : ∀ {m : Mat} {k : Nat}, Ready w k m → ∀ q ∈ m.ops, q < w.store.heap.next := fun r q hq => r.good.lt hq
  have newW : ∀ q ∈ nwM.ops, w.store.heap.next ≤ q ∧ q < w1.store.heap.next := f1
  have newMW : ∀ q ∈ mwM.ops, w1.store.heap.next ≤ q ∧ q < w2.store.heap.next := f2
  have newB : ∀ q ∈ nbM.ops, w2.store.heap.next ≤ q ∧ q < w3.store.heap.next := f3
  have newMB : ∀ q ∈ mbM.ops, w3.store.heap.next ≤ q ∧ q < w4.store.heap.next := f4
  have newD : ∀ q ∈ derM.ops, w4.store.heap.next ≤ q ∧ q < w4.store.heap.next + inputs := by
    intro q hq; rw [oder, List.mem_range'_1, h67] at hq; omega
  have rnw8 := rnw.grow G58.grow
  have rmw8 := rmw.grow G58.grow
  have rnb8 := rnb.grow G58.grow
  have rmb8 := rmb.grow G58.grow
  have D : BPMats w8.store.heap inputs n dM wM bM nwM mwM nbM mbM inM derM pM := by
    refine ⟨(I.rd.grow G8.grow).good, (I.rw.grow G8.grow).good, (I.rb.grow G8.grow).good, rnw8.good, rmw8.good, rnb8.good, rmb8.good,
      (I.rin.grow G8.grow).good, (rder.grow gC.grow).good, (I.rp.grow G8.grow).good, I.sd, I.sw, I.sb, s1, s2, s3, s4, I.sin, sder, I.sp,
      I.ndp, nd1, nd3, fun q hq => ?_, fun q hq => ?_, fun q hq => ?_⟩
    · obtain ⟨z1, z2, z3, z4, z5⟩ := I.sep q hq
      have := old I.rp q hq
      refine ⟨z1, z2, fun h => ?_, fun h => ?_, fun h => ?_⟩
      · have := newD q h; omega
      · have := newW q h; omega
      · have := newB q h; omega
    · have := newW q hq
      refine ⟨fun h => ?_, fun h => ?_, fun h => ?_, fun h => ?_, fun h => ?_, fun h => ?_, fun h => ?_, fun h => ?_⟩
      · have := old I.rd q h; omega
      · have := old I.rw q h; omega
      · have := old I.rb q h; omega
      · have := newMW q h; omega
      · have := newMB q h; omega
      · have := old I.rin q h; omega
      · have := newD q h; omega
      · have := newB q h; omega
    · have := newB q hq
      refine ⟨fun h => ?_, fun h => ?_, fun h => ?_, fun h => ?_, fun h => ?_, fun h => ?_, fun h => ?_⟩
      · have := old I.rd q h; omega
      · have := old I.rw q h; omega
      · have := old I.rb q h; omega
      · have := newMW q h; omega
      · have := newMB q h; omega
      · have := old I.rin q h; omega
      · have := newD q h; omega
  -- the loops
  have em1 := Emits.each (N := w8.store.nodes) (n := inputs) (k := n + 2) (f := fun i => LayerM.densePre dif wn der pdif n i)
    (o := fun i p => preOps dM wM derM pM n p i) fun i hi =>
      preOps_emits D (I.rd.grow G8.grow).mat (I.rw.grow G8.grow).mat (rder.grow gC.grow).mat (I.rp.grow G8.grow).mat hi
  refine wp_bind (wp_of_ok (em1 w8 rfl) ?_)
  obtain ⟨w9, hw9⟩ : ∃ v, v = emitted (inputs * (n + 2)) ((List.range inputs).flatMap fun i => preOps dM wM derM pM n (w8.store.heap.next + i * (n + 2)) i) w8 := ⟨_, rfl⟩
  have g9 := lay_emitted (L := L) (inputs * (n + 2)) ((List.range inputs).flatMap fun i => preOps dM wM derM pM n (w8.store.heap.next + i * (n + 2)) i) w8
  rw [← hw9]
  rw [← hw9] at g9
  have n9 : w9.store.heap.next = w8.store.heap.next + inputs * (n + 2) := by rw [hw9]; rfl
  have l9 : w9.layers = w8.layers := by rw [hw9]; rfl
  have G9 := G8.trans g9
  have G59 := G58.trans g9
  have D9 : (w9.store.nodes = w8.store.nodes) := by rw [hw9]; rfl
  have em2 := Emits.each (N := w9.store.nodes) (n := n) (k := 2 + inputs * 2)
    (f := fun i => LayerM.denseUpdate dif wn bn w.nodeNext w1.nodeNext w2.nodeNext w3.nodeNext inp alpha momentum inputs i)
    (o := fun i p => updOps dM wM bM nwM mwM nbM mbM inM alpha momentum inputs p i) fun i hi =>
      updOps_emits D (I.rd.grow G9.grow).mat (I.rw.grow G9.grow).mat (I.rb.grow G9.grow).mat (rnw.grow G59.grow).mat (rmw.grow G59.grow).mat
        (rnb.grow G59.grow).mat (rmb.grow G59.grow).mat (I.rin.grow G9.grow).mat hi
  refine wp_of_ok (em2 w9 rfl) ?_
  obtain ⟨w10, hw10⟩ : ∃ v, v = emitted (n * (2 + inputs * 2)) ((List.range n).flatMap fun i =>
    updOps dM wM bM nwM mwM nbM mbM inM alpha momentum inputs (w9.store.heap.next + i * (2 + inputs * 2)) i) w9 := ⟨_, rfl⟩
  have g10 := lay_emitted (L := L) (n * (2 + inputs * 2)) ((List.range n).flatMap fun i =>
    updOps dM wM bM nwM mwM nbM mbM inM alpha momentum inputs (w9.store.heap.next + i * (2 + inputs * 2)) i) w9
  rw [← hw10]
  rw [← hw10] at g10
  have n10 : w10.store.heap.next = w9.store.heap.next + n * (2 + inputs * 2) := by rw [hw10]; rfl
  have l10 : w10.layers = w9.layers := by rw [hw10]; rfl
  have G10 := G9.trans g10
  have G510 := G59.trans g10
  refine ⟨_, w.nodeNext, w1.nodeNext, w2.nodeNext, w3.nodeNext, der, nwM, nbM, G10, ?_, ?_, rnw.grow G510.grow,
    rnb.grow G510.grow, s1, s3, nd1, nd3, ?_⟩
  · rw [l10, l9, lC, L7k l (Ne.symm npl), lA, L5]
    simp only [I.pre]
  · rw [l10, l9, lC, L7p]
  · rw [h67] at oder
    rw [h67]
    exact bpOps_new D (a := w4.store.heap.next) hpos I.pos ha.1 hm.1 ha.2.1 hm.2.1 (by omega) h87 ha.2.2 hm.2.2 (I.rpn.grow G8.grow).good I.spn
      (old I.rd) (old I.rw) (old I.rb) (old I.rin) (old I.rpn) (old I.rp)
      (fun q hq => by have := newW q hq; omega) (fun q hq => by have := newMW q hq; omega)
      (fun q hq => by have := newB q hq; omega) (fun q hq => by have := newMB q hq; omega)
      (fun q hq => ⟨fun h => (D.nwd q h).2.2.2.1 hq, fun h => (D.nbd q h).2.2.2.1 hq⟩)
      (fun q hq => ⟨fun h => (D.nwd q h).2.2.2.2.1 hq, fun h => (D.nbd q h).2.2.2.2.1 hq⟩)
      oder (fun q hq => (I.sep q hq).2.2) hA hB hC h87 n9 n10

end Godeep
