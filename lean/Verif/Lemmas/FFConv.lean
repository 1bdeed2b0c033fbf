import Verif.Lemmas.FFPool
/-
  Building the feed-forward part of `Conv2D` and `Deconv2D` layers.
-/
set_option linter.unusedSectionVars false

namespace Godeep
open Spec GoNum

variable {T : Type} [GoNum T]

/-! ### `Transfer` -/

/-- operations that do nothing -/
def AllNop (ops : List (Op T)) : Prop := ∀ o ∈ ops, ∃ p, o = .nop p

theorem AllNop.dsts {ops : List (Op T)} (h : AllNop ops) : dsts ops = [] := by
  induction ops with
  | nil => rfl
  | cons o ops ih =>
    obtain ⟨p, rfl⟩ := h o (by simp)
    rw [dsts_nop]
    exact ih fun o ho => h o (by simp [ho])

theorem AllNop.exec {ops : List (Op T)} (h : AllNop ops) (hp : Heap T) : Godeep.exec ops hp = .ok () hp := by
  induction ops with
  | nil => rfl
  | cons o ops ih =>
    obtain ⟨p, rfl⟩ := h o (by simp)
    simpa [Godeep.exec, Op.cal] using ih fun o ho => h o (by simp [ho])

/-- the same tensors, some of them now marked as built -/
def SameNodes (s s' : Store T) : Prop :=
  ∀ m, (s'.nodes m).kind = (s.nodes m).kind ∧ (s'.nodes m).mat = (s.nodes m).mat ∧
    ((s.nodes m).built = true → (s'.nodes m).built = true)

/-- `BuildGraph` of a plain tensor or one already built -/
theorem build_frozen {s : Store T} {n fuel : Nat} (hf : frozen s n) :
    ∃ s' nops, Store.build (fuel + 1) n s = .ok () s' ∧ AllNop nops ∧ s'.ctx = s.ctx ++ nops ∧ s'.heap = s.heap ∧
      SameNodes s s' := by
  by_cases hb : (s.nodes n).built = true
  · refine ⟨s, [], ?_, (fun _ h => by cases h), by simp, rfl, fun m => ⟨rfl, rfl, id⟩⟩
    simp only [Store.build]; rw [if_pos hb]
  · have hl : (s.nodes n).kind = .leaf := (frozen_cases hf).resolve_left hb
    simp only [Store.build]
    rw [if_neg hb]
    simp only [hl, Kind.kids, Store.each, Out.bind_ok, Store.finish, Store.setNode, if_pos, Fin.run, Fin.leaf]
    refine ⟨_, _, rfl, ?_, rfl, rfl, fun m => ?_⟩
    · intro o ho
      obtain ⟨p, _, rfl⟩ := List.mem_map.1 ho
      exact ⟨p, rfl⟩
    · by_cases h : m = n
      · subst h; simp [hl]
      · simp [h]

theorem SameNodes.frozen {s s' : Store T} (h : SameNodes s s') {m : Nat} (hf : Spec.frozen s m) : Spec.frozen s' m := by
  rcases frozen_cases hf with hb | hl
  · exact Or.inl ((h m).2.2 hb)
  · exact frozen_leaf (by rw [(h m).1, hl])

theorem copyLoop_dsts : ∀ (ts fs : List Ptr) (q : Ptr), q ∈ dsts (Fin.copyLoop ts fs : List (Op T)) → q ∈ ts := by
  intro ts
  induction ts with
  | nil => intro fs q h; simp [Fin.copyLoop] at h
  | cons t ts ih =>
    intro fs q h
    cases fs with
    | nil => simp [Fin.copyLoop] at h
    | cons f fs =>
      simp only [Fin.copyLoop, dsts_asg, List.mem_cons] at h ⊢
      exact h.imp id (ih fs q)

theorem copyLoop_fine : ∀ (ts fs : List Ptr), (∀ p ∈ ts, 0 < p) → (∀ p ∈ fs, 0 < p) →
    ∀ o ∈ (Fin.copyLoop ts fs : List (Op T)), Fine o := by
  intro ts
  induction ts with
  | nil => intro fs _ _ o h; simp [Fin.copyLoop] at h
  | cons t ts ih =>
    intro fs h1 h2 o h
    cases fs with
    | nil => simp [Fin.copyLoop] at h
    | cons f fs =>
      simp only [Fin.copyLoop, List.mem_cons] at h
      rcases h with rfl | h
      · exact ⟨h1 t (by simp), by simpa [Rhs.reads] using h2 f (by simp), trivial, trivial⟩
      · exact ih fs (fun p hp => h1 p (by simp [hp])) (fun p hp => h2 p (by simp [hp])) o h

/-- `Transfer` of one tensor to another of the same size -/
theorem wp_transfer {tot : Prop} {f t : Nat} {fM tM : Mat} {L : Nat → Prop} {C : Ptr → Prop} {w : World T}
    {Q : Unit → World T → Prop} (rf : Ready w f fM) (rt : Ready w t tM) (hs : fM.ops.length = tM.ops.length)
    (hnd : tM.ops.Nodup) (hdis : ∀ q ∈ tM.ops, q ∉ fM.ops)
    (h : ∀ w' ops, Grow L C ops w w' → w'.layers = w.layers → w'.store.heap = w.store.heap →
      (∀ q ∈ dsts ops, q ∈ tM.ops) → (∀ o ∈ ops, Fine o) →
      (∀ h h', exec ops h = .ok () h' → tM.ops.map h'.val = fM.ops.map h.val) → Q () w') :
    wp tot (Run.transfer f t) Q w := by
  unfold Run.transfer
  refine wp_bind' (wp_lazy (L := L) (C := C) fun w1 g1 l1 h1 x1 n1 o1 => ?_)
  have rf1 := rf.grow g1
  have rt1 := rt.grow g1
  set n := w.nodeNext with hn
  have hlt : f < n ∧ t < n := ⟨rf.lt, rt.lt⟩
  set s0 : Store T := w1.store.setNode n { w1.store.nodes n with built := true } with hs0
  have f0 : ∀ m, m < n → s0.nodes m = w1.store.nodes m := fun m hm => by
    simp only [hs0, Store.setNode]; rw [if_neg (by omega)]
  have ff0 : frozen s0 f := by have := rf1.frozen; unfold frozen at this ⊢; rwa [f0 f hlt.1]
  have ft0 : frozen s0 t := by have := rt1.frozen; unfold frozen at this ⊢; rwa [f0 t hlt.2]
  obtain ⟨k, hk⟩ : ∃ k, n = k + 1 := ⟨n - 1, by omega⟩
  obtain ⟨s1, nop1, b1, a1, c1, e1, m1⟩ := build_frozen (fuel := k) ff0
  obtain ⟨s2, nop2, b2, a2, c2, e2, m2⟩ := build_frozen (fuel := k) (m1.frozen ft0)
  have kn : (w1.store.nodes n).kind = .copy f t := by rw [n1]; rfl
  have bn : (w1.store.nodes n).built = false := by rw [n1]; rfl
  have kn2 : (s2.nodes n).kind = .copy f t := by
    rw [(m2 n).1, (m1 n).1, hs0]; simp [Store.setNode, kn]
  have mf : (s2.nodes f).mat = fM := by rw [(m2 f).2.1, (m1 f).2.1, f0 f hlt.1, rf1.mat]
  have mt : (s2.nodes t).mat = tM := by rw [(m2 t).2.1, (m1 t).2.1, f0 t hlt.2, rt1.mat]
  have e : Run.buildGraph n w1 = .ok () { w1 with store :=
      { (s2.setNode n { s2.nodes n with mat := tM }) with ctx := s2.ctx ++ Fin.copyLoop tM.ops fM.ops } } := by
    have : Store.build (n + 1) n w1.store = .ok () { (s2.setNode n { s2.nodes n with mat := tM }) with ctx := s2.ctx ++ Fin.copyLoop tM.ops fM.ops } := by
      simp only [Store.build]
      rw [if_neg (by simp [bn])]
      show ((Store.each (fun c s => Store.build n c s) (w1.store.nodes n).kind.kids s0).bind fun _ s => Store.finish n s) = _
      rw [kn]
      simp only [Kind.kids, Store.each]
      rw [show Store.build n f s0 = Store.build (k + 1) f s0 by rw [← hk], b1, Out.bind_ok,
        show Store.build n t s1 = Store.build (k + 1) t s1 by rw [← hk], b2]
      simp only [Out.bind_ok, Store.finish]
      rw [kn2]
      simp only [Fin.run, Fin.copy, mf, mt, Mat.getSize]
      rw [if_neg (by omega)]
      rfl
    simp only [Run.buildGraph, Run.store, this]
  refine wp_of_ok e (h _ (nop1 ++ nop2 ++ Fin.copyLoop tM.ops fM.ops) ?_ l1 ?_ ?_ ?_ ?_)
  · have hnode : ∀ m, m < n → (({ (s2.setNode n { s2.nodes n with mat := tM }) with ctx := s2.ctx ++ Fin.copyLoop tM.ops fM.ops } : Store T).nodes m) = s2.nodes m := by
      intro m hm
      simp only [Store.setNode]; rw [if_neg (by omega)]
    have g2 : Grow L C (nop1 ++ nop2 ++ Fin.copyLoop tM.ops fM.ops) w { w1 with store :=
        { (s2.setNode n { s2.nodes n with mat := tM }) with ctx := s2.ctx ++ Fin.copyLoop tM.ops fM.ops } } := by
      have ehp : s2.heap = w.store.heap := by rw [e2, e1]; exact h1
      have hsm : ∀ m, m < n → w1.store.nodes m = w.store.nodes m := fun m hm => o1 m (by omega)
      refine ⟨by show _ ≤ s2.heap.next; rw [ehp], fun q _ _ => by show s2.heap.val q = _; rw [ehp], g1.nodeNext, fun m hm => ?_, fun m hm hf => ⟨?_, ?_⟩,
        fun k hk => g1.layers k hk, g1.layerNext, g1.nets, g1.netNext, ?_⟩
      · rw [hnode m hm, (m2 m).1, (m1 m).1, f0 m hm, hsm m hm]
      · have h3 : frozen s2 m := m2.frozen (m1.frozen (by unfold frozen at hf ⊢; rw [f0 m hm, hsm m hm]; exact hf))
        unfold frozen at h3 ⊢
        rw [hnode m hm]; exact h3
      · rw [hnode m hm, (m2 m).2.1, (m1 m).2.1, f0 m hm, hsm m hm]
      · show s2.ctx ++ _ = _
        rw [c2, c1]
        show w1.store.ctx ++ nop1 ++ nop2 ++ _ = _
        rw [g1.ctx]; simp
    exact g2
  · show s2.heap = _
    rw [e2, e1]; exact h1
  · intro q hq
    rw [dsts_append, dsts_append, a1.dsts, a2.dsts] at hq
    exact copyLoop_dsts _ _ q (by simpa using hq)
  · intro o ho
    simp only [List.mem_append] at ho
    rcases ho with (ho | ho) | ho
    · obtain ⟨p, rfl⟩ := a1 o ho; trivial
    · obtain ⟨p, rfl⟩ := a2 o ho; trivial
    · exact copyLoop_fine _ _ (fun p hp => (rt.good.valid p hp).1) (fun p hp => (rf.good.valid p hp).1) o ho
  · intro h h' he
    obtain ⟨x1, y1, he⟩ := exec_append_ok.1 he
    obtain ⟨x2, y2, y3⟩ := exec_append_ok.1 y1
    rw [a1.exec] at y2
    simp only [Out.ok.injEq, true_and] at y2
    subst y2
    rw [a2.exec] at y3
    simp only [Out.ok.injEq, true_and] at y3
    subst y3
    exact (exec_copy _ _ _ _ hs.symm hnd hdis he).1

/-! ### code that adds to the elements of a tensor -/

/-- Operations that change the elements of `netaM` from `v` to `G x w v` when `inM` holds `x` and `wM`
holds `w`.  Their other scalars were allocated from `lo` to `hi`. -/
structure Acc (lo hi : Nat) (ops : List (Op T)) (inM wM netaM : Mat)
    (G : STensor T → STensor T → (List Nat → T) → List Nat → T) (safe : Prop) : Prop where
  dst : ∀ q ∈ dsts ops, (lo ≤ q ∧ q < hi) ∨ q ∈ netaM.ops
  run : ∀ (h h' : Heap T) x w v, hi ≤ h.next → (∀ q, lo ≤ q → q < hi → q ∉ dsts ops → h.val q = zero) → Holds h inM x →
    Holds h wM w → (∀ idx, InRange netaM.shape idx → h.val (cell netaM idx) = v idx) → exec ops h = .ok () h' →
    ∀ idx, InRange netaM.shape idx → h'.val (cell netaM idx) = G x w v idx
  fine : safe → ∀ o ∈ ops, Fine o

/-- the tensors read are not among the new scalars or the elements changed -/
structure AccSep (base : Nat) (inM wM netaM : Mat) : Prop where
  inp : ∀ q ∈ inM.ops, q < base ∧ q ∉ netaM.ops
  wts : ∀ q ∈ wM.ops, q < base ∧ q ∉ netaM.ops
  neta : ∀ q ∈ netaM.ops, q < base

theorem Acc.nil (lo : Nat) (inM wM netaM : Mat) (safe : Prop) :
    Acc lo lo ([] : List (Op T)) inM wM netaM (fun _ _ v => v) safe := by
  refine ⟨by simp, fun h h' x w v _ _ _ _ hv he => ?_, by simp⟩
  simp only [exec, Out.ok.injEq, true_and] at he
  subst he; exact hv

theorem Acc.comp {base lo mid hi : Nat} {o1 o2 : List (Op T)} {inM wM netaM : Mat}
    {G1 G2 : STensor T → STensor T → (List Nat → T) → List Nat → T} {safe : Prop} (S : AccSep base inM wM netaM)
    (hb : base ≤ lo) (h1 : lo ≤ mid) (h2 : mid ≤ hi) (A1 : Acc lo mid o1 inM wM netaM G1 safe)
    (A2 : Acc mid hi o2 inM wM netaM G2 safe) :
    Acc lo hi (o1 ++ o2) inM wM netaM (fun x w v => G2 x w (G1 x w v)) safe := by
  have nd1 : ∀ q, q < lo → q ∉ netaM.ops → q ∉ dsts o1 := fun q hq hn hd => by
    rcases A1.dst q hd with h | h
    · omega
    · exact hn h
  refine ⟨fun q hq => ?_, fun h h' x w v hn hz hx hw hv he => ?_, fun hs o ho => ?_⟩
  · rw [dsts_append, List.mem_append] at hq
    rcases hq with hq | hq
    · rcases A1.dst q hq with h | h
      · left; omega
      · exact Or.inr h
    · rcases A2.dst q hq with h | h
      · left; omega
      · exact Or.inr h
  · obtain ⟨hm, e1, e2⟩ := exec_append_ok.1 he
    obtain ⟨f1, f2⟩ := exec_frame e1
    have r1 := A1.run h hm x w v (by omega) (fun q q1 q2 q3 => hz q q1 (by omega) fun hd => by
      rw [dsts_append, List.mem_append] at hd
      rcases hd with hd | hd
      · exact q3 hd
      · rcases A2.dst q hd with h | h
        · omega
        · have := S.neta q h; omega) hx hw hv e1
    refine A2.run hm h' x w _ (by omega) (fun q q1 q2 q3 => ?_) (hx.kept (by omega) fun q hq => ?_)
      (hw.kept (by omega) fun q hq => ?_) r1 e2
    · have hnd : q ∉ dsts o1 := fun hd => by
        rcases A1.dst q hd with h | h
        · omega
        · have := S.neta q h; omega
      rw [f2 q hnd]
      refine hz q (by omega) q2 fun hd => ?_
      rw [dsts_append, List.mem_append] at hd
      rcases hd with hd | hd
      · exact hnd hd
      · exact q3 hd
    · have := S.inp q hq
      exact f2 q (nd1 q (by omega) this.2)
    · have := S.wts q hq
      exact f2 q (nd1 q (by omega) this.2)
  · rcases List.mem_append.1 ho with ho | ho
    · exact A1.fine hs o ho
    · exact A2.fine hs o ho

/-- a program that pushed such operations -/
def AccStep (l : Nat) (inM wM netaM : Mat) (G : STensor T → STensor T → (List Nat → T) → List Nat → T) (safe : Prop)
    (w w' : World T) : Prop :=
  ∃ ops, Grow (· = l) (fun _ => False) ops w w' ∧ w'.layers = w.layers ∧
    (∀ q, w.store.heap.next ≤ q → q < w'.store.heap.next → w'.store.heap.val q = zero) ∧
    Acc w.store.heap.next w'.store.heap.next ops inM wM netaM G safe

/-- a loop of such programs -/
theorem wp_accLoop {base l n : Nat} {inM wM netaM : Mat} {f : Nat → Run T Unit} {safe : Prop}
    {g : Nat → STensor T → STensor T → (List Nat → T) → List Nat → T} (S : AccSep base inM wM netaM)
    (I : World T → Prop) {w : World T} (hb : base ≤ w.store.heap.next) (hI : I w)
    (hs : ∀ i, i < n → ∀ w, base ≤ w.store.heap.next → I w →
      wp True (f i) (fun _ w' => I w' ∧ AccStep l inM wM netaM (g i) safe w w') w) :
    wp True (Run.each (List.range n) f) (fun _ w' => I w' ∧
      AccStep l inM wM netaM (fun x y v => (List.range n).foldl (fun v i => g i x y v) v) safe w w') w := by
  refine wp_range (fun i w' => I w' ∧
      AccStep l inM wM netaM (fun x y v => (List.range i).foldl (fun v i => g i x y v) v) safe w w') ⟨hI, [], Grow.refl _ _ _, rfl, ?_, ?_⟩ ?_
  · intro q h1 h2; omega
  · exact Acc.nil _ _ _ _ _
  · rintro i hi w1 ⟨hI1, o1, g1, l1, z1, A1⟩
    have n1 := g1.next
    refine wp_mono (hs i hi w1 (by omega) hI1) ?_
    rintro _ w2 ⟨hI2, o2, g2, l2, z2, A2⟩
    refine ⟨hI2, o1 ++ o2, g1.trans g2, by rw [l2, l1], fun q q1 q2 => ?_, ?_⟩
    · by_cases h : q < w1.store.heap.next
      · rw [g2.val q h id]; exact z1 q q1 h
      · exact z2 q (by omega) q2
    · have := A1.comp S hb n1 g2.next A2
      simpa [List.range_succ] using this

/-! ### the common parts of the two layers -/

/-- the tensors a layer has made -/
structure ConvMem (l : Nat) (wsh osh : List Nat) (neta bias wn : Nat) (netaM bM wM : Mat) (w w5 : World T) : Prop where
  grow : Grow (· = l) (fun _ => False) [] w w5
  rneta : Ready w5 neta netaM
  rb : Ready w5 bias bM
  rw : Ready w5 wn wM
  sneta : netaM.shape = osh
  sb : bM.shape = osh
  sw : wM.shape = wsh
  ndneta : netaM.ops.Nodup
  ndb : bM.ops.Nodup
  ndw : wM.ops.Nodup
  fneta : ∀ q ∈ netaM.ops, w.store.heap.next ≤ q ∧ q ∉ bM.ops ∧ q ∉ wM.ops
  fb : ∀ q ∈ bM.ops, w.store.heap.next ≤ q
  fw : ∀ q ∈ wM.ops, w.store.heap.next ≤ q
  wb : ∀ q ∈ wM.ops, q ∉ bM.ops
  layer : ∃ out0 dif dM, w5.layers l = { w.layers l with
    neta := some neta, output := out0, dif := some dif, bias := some bias, weights := some wn } ∧
    Ready w5 dif dM ∧ (w5.store.nodes dif).kind = .leaf ∧ dM.shape = osh ∧ dM.ops.Nodup ∧
    ∀ q ∈ dM.ops, w.store.heap.next ≤ q ∧ q ∉ netaM.ops ∧ q ∉ bM.ops ∧ q ∉ wM.ops

theorem wp_convAlloc {l : Nat} {wsh osh : List Nat} {w : World T} {Q : Unit → World T → Prop}
    {k : Nat → Nat → Nat → Run T Unit} (hpos : 0 < w.store.heap.next)
    (h : ∀ neta bias wn netaM bM wM w5, ConvMem l wsh osh neta bias wn netaM bM wM w w5 → wp True (k neta bias wn) Q w5) :
    wp True (do
      let neta ← Run.zeros osh
      let out0 ← Run.zeros osh
      let dif ← Run.zeros osh
      let bias ← Run.normRand osh
      let wn ← Run.normRand wsh
      Run.modify l fun x => { x with
        neta := some neta, output := some out0, dif := some dif, bias := some bias, weights := some wn }
      k neta bias wn) Q w := by
  refine wp_bind (wp_zeros (L := (· = l)) (C := fun _ => False) hpos fun w1 netaM g1 l1 x1 r1 s1 nd1 f1 => ?_)
  have q1 : 0 < w1.store.heap.next := lt_of_lt_of_le hpos g1.next
  refine wp_bind (wp_zeros (L := (· = l)) (C := fun _ => False) q1 fun w2 oM g2 l2 x2 r2 s2 nd2 f2 => ?_)
  have q2 : 0 < w2.store.heap.next := lt_of_lt_of_le q1 g2.next
  refine wp_bind (wp_zerosLeaf (L := (· = l)) (C := fun _ => False) q2 fun w3 dM g3 l3 x3 r3 s3 nd3 f3 k3 => ?_)
  have q3 : 0 < w3.store.heap.next := lt_of_lt_of_le q2 g3.next
  refine wp_bind (wp_normRand (L := (· = l)) (C := fun _ => False) q3 fun w4 bM g4 l4 x4 r4 s4 nd4 f4 => ?_)
  have q4 : 0 < w4.store.heap.next := lt_of_lt_of_le q3 g4.next
  refine wp_bind (wp_normRand (L := (· = l)) (C := fun _ => False) q4 fun w5 wM g5 l5 x5 r5 s5 nd5 f5 => ?_)
  refine wp_bind (wp_modify ?_)
  have m6 := grow_modify (L := (· = l)) (C := fun _ => False) rfl (fun x => { x with
        neta := some w.nodeNext, output := some w1.nodeNext, dif := some w2.nodeNext, bias := some w3.nodeNext, weights := some w4.nodeNext }) w5
  have G1 := g2.trans (g3.trans (g4.trans (g5.trans m6)))
  have G := g1.trans G1
  have n1 := g1.next
  have n2 := g2.next
  have n3 := g3.next
  have n4 := g4.next
  have n5 := g5.next
  refine h _ _ _ netaM bM wM _ ⟨by simpa using G, r1.grow G1, r4.grow (g5.trans m6), r5.grow m6, s1, s4, s5, nd1, nd4, nd5,
    fun q hq => ⟨f1 q hq, fun h => ?_, fun h => ?_⟩, fun q hq => by have := f4 q hq; omega, fun q hq => by have := f5 q hq; omega,
    fun q hq h => by have := f5 q hq; have := (r4.good.valid q h).2; omega, some w1.nodeNext, w2.nodeNext, dM, ?_,
    r3.grow (g4.trans (g5.trans m6)), by rw [(g4.trans (g5.trans m6)).kind _ r3.lt, k3], s3, nd3, fun q hq => ?_⟩
  · have := (r1.good.valid q hq).2; have := f4 q h; omega
  · have := (r1.good.valid q hq).2; have := f5 q h; omega
  · simp [l5, l4, l3, l2, l1]
  · have a1 := f3 q hq
    have a2 := (r3.good.valid q hq).2
    refine ⟨by omega, fun h => ?_, fun h => ?_, fun h => ?_⟩
    · have := (r1.good.valid q h).2; omega
    · have := f4 q h; omega
    · have := f5 q h; omega

/-- operations that set the elements of `tM` to those of `fM` -/
structure Copies (fM tM : Mat) (ops : List (Op T)) : Prop where
  dst : ∀ q ∈ dsts ops, q ∈ tM.ops
  fine : ∀ o ∈ ops, Fine o
  run : ∀ h h' : Heap T, exec ops h = .ok () h' → tM.ops.map h'.val = fM.ops.map h.val

theorem Copies.append {fM tM : Mat} {o1 o2 : List (Op T)} (a : Copies fM tM o1) (b : Copies fM tM o2)
    (hd : ∀ q ∈ tM.ops, q ∉ fM.ops) : Copies fM tM (o1 ++ o2) := by
  refine ⟨fun q hq => ?_, fun o ho => ?_, fun h h' he => ?_⟩
  · rw [dsts_append, List.mem_append] at hq
    exact hq.elim (a.dst q) (b.dst q)
  · exact (List.mem_append.1 ho).elim (a.fine o) (b.fine o)
  · obtain ⟨hm, e1, e2⟩ := exec_append_ok.1 he
    rw [b.run hm h' e2]
    exact List.map_congr_left fun q hq => (exec_frame e1).2 q fun h => hd q (a.dst q h) hq

theorem Copies.cell {fM tM : Mat} {ops : List (Op T)} (a : Copies fM tM ops) {h h' h0 : Heap T} (hs : fM.shape = tM.shape)
    (gf : GoodMat h0 fM) (gt : GoodMat h0 tM) (he : exec ops h = .ok () h') {idx : List Nat} (hi : InRange tM.shape idx) :
    h'.val (cell tM idx) = h.val (Godeep.cell fM idx) := by
  have h1 := cell_at gt hi
  have h2 := cell_at gf (by rw [hs]; exact hi)
  have := congrArg (fun l => l[offset tM.shape idx]?) (a.run h h' he)
  simp only [List.getElem?_map, h1] at this
  rw [← hs, h2] at this
  simpa using this

/-- the activation, and the layer is done -/
theorem wp_convDone {s : LSpec T} {l p neta bias wn : Nat} {own R : Ptr → Prop} {inM netaM bM wM : Mat} {wsh osh : List Nat}
    {opsT : List (Op T)} {act : T → T} {G : STensor T → STensor T → (List Nat → T) → List Nat → T}
    {w w5 w6 w7 : World T} (hpos : 0 < w.store.heap.next) (hin : ∀ q ∈ inM.ops, q < w.store.heap.next)
    (M : ConvMem l wsh osh neta bias wn netaM bM wM w w5)
    (gT : Grow (· = l) (fun _ => False) opsT w5 w6) (lT : w6.layers = w5.layers) (hT : w6.store.heap = w5.store.heap)
    (CT : Copies bM netaM opsT) (A : AccStep l inM wM netaM G (s.safe inM.shape) w6 w7)
    (so : osh = s.outShape inM.shape) (hps : s.paramShapes inM.shape = [wsh, osh])
    (hfn : ∀ x wv bv : STensor T, x.shape = inM.shape → wv.shape = wsh → bv.shape = osh → (s.fn [wv, bv] x).shape = osh ∧
      ∀ idx, InRange osh idx → (s.fn [wv, bv] x).get idx = act (G x wv bv.get idx))
    (hneta : ∀ x wv bv : STensor T, x.shape = inM.shape → wv.shape = wsh → bv.shape = osh → (s.neta [wv, bv] x).shape = osh ∧
      ∀ idx, InRange osh idx → (s.neta [wv, bv] x).get idx = G x wv bv.get idx)
    (hs : s ≠ .softMax ∧ s ≠ .flatten ∧ s ≠ .norm ∧ s ≠ .eNorm) (hrp : (w.layers p).ref < w.store.heap.next) :
    wp True (do
      let o ← Run.lazy (.act act neta)
      Run.modify l fun x => { x with output := some o }
      Run.buildGraph o : Run T Unit) (fun _ w' => ∃ ops out outM K, FFDone s l own R inM ops out outM K w w' ∧
        FFMore s l p inM ops outM K w w') w7 := by
  obtain ⟨opsA, gA, lA, zA, AA⟩ := A
  have rn7 := (M.rneta.grow gT).grow gA
  refine wp_bind (wp_lazy (L := (· = l)) (C := fun _ => False) fun w8 g8 l8 h8 x8 nd8 _ => ?_)
  refine wp_bind (wp_modify ?_)
  have m8 := grow_modify (L := (· = l)) (C := fun _ => False) rfl (fun x => { x with output := some w7.nodeNext }) w8
  set w9 : World T := { w8 with layers := fun k => if k = l then { w8.layers k with output := some w7.nodeNext } else w8.layers k } with hw9
  have G9 := g8.trans m8
  simp only [List.append_nil] at G9
  have n5 := M.grow.next
  have n6 : w6.store.heap.next = w5.store.heap.next := by rw [hT]
  have n7 := gA.next
  have n9 : w9.store.heap.next = w7.store.heap.next := by show w8.store.heap.next = _; rw [h8]
  have pin := (rn7.grow G9).pend (s.safe inM.shape)
  have p9 : Pend w9 w7.nodeNext netaM.shape (fun val => (ofMat val netaM).map act) (· ∈ netaM.ops) (s.safe inM.shape) := by
    refine pin.one (k := .act act neta) (own := []) nd8 (by show w7.nodeNext < w8.nodeNext; omega) rn7.lt rfl trivial (by simp) trivial
      trivial (by simp [Kind.straddles]) (fun val => ?_) (fun _ => ⟨trivial, trivial⟩)
    exact ⟨_, rfl, map_tab _ (tab_tab _)⟩
  refine wp_mono (wp_build (L := (· = l)) (C := fun _ => False) p9 (by omega) (Q := fun _ w' => ∃ new m,
    BuiltP (· = l) (fun _ => False) w7.nodeNext netaM.shape (fun val => (ofMat val netaM).map act) (· ∈ netaM.ops) (s.safe inM.shape) new m w9 w')
    fun w' new m B => ⟨new, m, B⟩) ?_
  rintro _ w' ⟨new, outM, B⟩
  have n10 := B.grow.next
  have Gp := ((gT.trans gA).trans G9).trans B.grow
  have Gall := M.grow.trans Gp
  simp only [List.append_nil, List.nil_append] at Gall Gp
  obtain ⟨out0, dif, dM, hl5, rd5, kd5, sd5, ndd, fd⟩ := M.layer
  have hl : w'.layers l = { w.layers l with neta := some neta, output := some w7.nodeNext, dif := some dif, bias := some bias, weights := some wn } := by
    rw [B.layers, hw9]
    simp only [if_true]
    rw [l8, lA, lT, hl5]
  have rw' := M.rw.grow Gp
  have rb' := M.rb.grow Gp
  have hpar : layerParams w' l = [wM, bM] := by
    unfold layerParams; rw [hl]; simp only [rw'.mat, rb'.mat]
  have hwn : ∀ q ∈ wM.ops, w.store.heap.next ≤ q ∧ q < w5.store.heap.next := fun q hq => ⟨M.fw q hq, (M.rw.good.valid q hq).2⟩
  have hbn : ∀ q ∈ bM.ops, w.store.heap.next ≤ q ∧ q < w5.store.heap.next := fun q hq => ⟨M.fb q hq, (M.rb.good.valid q hq).2⟩
  have hnn : ∀ q ∈ netaM.ops, w.store.heap.next ≤ q ∧ q < w5.store.heap.next := fun q hq => ⟨(M.fneta q hq).1, (M.rneta.good.valid q hq).2⟩
  have hdst : ∀ q ∈ dsts (opsT ++ opsA ++ new), q ∈ netaM.ops ∨ (w5.store.heap.next ≤ q ∧ q < w'.store.heap.next) := by
    intro q hq
    rw [dsts_append, dsts_append, List.mem_append, List.mem_append] at hq
    rcases hq with (hq | hq) | hq
    · exact Or.inl (CT.dst q hq)
    · rcases AA.dst q hq with h | h
      · right; omega
      · exact Or.inl h
    · have := B.dst q hq; right; omega
  have hpd : ∀ q, q ∈ wM.ops ∨ q ∈ bM.ops → w.store.heap.next ≤ q ∧ q < w'.store.heap.next ∧ q ∉ dsts (opsT ++ opsA ++ new) := by
    intro q hq
    have h1 : w.store.heap.next ≤ q ∧ q < w5.store.heap.next := hq.elim (hwn q) (hbn q)
    refine ⟨h1.1, by omega, fun hd => ?_⟩
    rcases hdst q hd with h | h
    · have := M.fneta q h
      exact hq.elim this.2.2 this.2.1
    · omega
  have hK : ∀ q, w5.store.heap.next ≤ q → q < w'.store.heap.next → ∀ p ∈ [layerParams w' l], ∀ m ∈ p, q ∉ m.ops := by
    intro q h1 h2 p hp m hm hq
    rw [List.mem_singleton.1 hp, hpar] at hm
    simp only [List.mem_cons, List.not_mem_nil, or_false] at hm
    rcases hm with rfl | rfl
    · have := hwn q hq; omega
    · have := hbn q hq; omega
  have hmid : ∀ q, q < w7.store.heap.next → w5.store.heap.next ≤ q → q ∉ dsts opsA → q ∉ dsts (opsT ++ opsA ++ new) := by
    intro q h1 h2 h3 hd
    rw [dsts_append, dsts_append, List.mem_append, List.mem_append] at hd
    rcases hd with (hd | hd) | hd
    · have := hnn q (CT.dst q hd); omega
    · exact h3 hd
    · have := B.dst q hd; omega
  have hend : ∀ q, w7.store.heap.next ≤ q → q ∉ dsts new → q ∉ dsts (opsT ++ opsA ++ new) := by
    intro q h1 h3 hd
    rw [dsts_append, dsts_append, List.mem_append, List.mem_append] at hd
    rcases hd with (hd | hd) | hd
    · have := hnn q (CT.dst q hd); omega
    · rcases AA.dst q hd with h | h
      · omega
      · have := hnn q h; omega
    · exact h3 hd
  refine ⟨opsT ++ opsA ++ new, w7.nodeNext, outM,
    fun q c => Zeros w6.store.heap.next w7.store.heap.next opsA q c ∨ Zeros w9.store.heap.next w'.store.heap.next new q c,
    ⟨Gall.weaken (fun _ h => h) (fun _ h => h.elim), by rw [hl], by rw [hl], by rw [hl], by rw [hl],
    ⟨by rw [hl], by rw [hl], by rw [hl], by rw [hl], by rw [hl]⟩, Or.inl (by rw [hl]), by rw [hl], B.ready, by rw [B.shape, M.sneta, so],
    by rw [hpar, hps]; simp [M.sw, M.sb], ⟨?_, ?_, ?_, ?_, ?_, ?_, ?_⟩, ?_, ?_, by rw [hl]; simp, by
      rw [hpar]
      simp only [List.flatMap_cons, List.flatMap_nil, List.append_nil]
      exact List.nodup_append.2 ⟨M.ndw, M.ndb, fun a ha b hb e => M.wb a ha (e ▸ hb)⟩⟩,
    by rw [hl], by rw [hl], by rw [hl], fun h => absurd h hs.1, fun _ => ⟨dif, dM, by rw [hl], rd5.grow Gp, by rw [Gp.kind _ rd5.lt, kd5],
      by rw [sd5, B.shape, M.sneta], ndd, ?_⟩, fun _ => ⟨neta, netaM, by rw [hl], M.rneta.grow Gp, by rw [B.shape], ?_, ?_⟩,
    fun _ => ⟨by rw [hl], Gall.val _ hrp id⟩, fun h => absurd h hs.2.1, fun h => absurd h (by simp [hs])⟩
  · intro q hq
    left
    rcases hdst q hq with h | h
    · have := hnn q h; omega
    · omega
  · intro q hq
    right; left
    rcases B.cells q hq with h | h
    · omega
    · have := hnn q h; omega
  · rw [hpar]
    intro ps hp m hm q hq
    rw [List.mem_singleton.1 hp] at hm
    simp only [List.mem_cons, List.not_mem_nil, or_false] at hm
    rcases hm with rfl | rfl
    · exact hpd q (Or.inl hq)
    · exact hpd q (Or.inr hq)
  · rw [hpar]
    intro ps hp m hm q hq ho
    rw [List.mem_singleton.1 hp] at hm
    simp only [List.mem_cons, List.not_mem_nil, or_false] at hm
    rcases hm with rfl | rfl
    · have h1 := hwn q hq
      rcases B.cells q ho with h | h
      · omega
      · exact (M.fneta q h).2.2 hq
    · have h1 := hbn q hq
      rcases B.cells q ho with h | h
      · omega
      · exact (M.fneta q h).2.1 hq
  · rintro q c (⟨h1, h2, h3, _⟩ | ⟨h1, h2, h3, _⟩)
    · exact ⟨by omega, by omega, hmid q (by omega) (by omega) h3, hK q (by omega) (by omega)⟩
    · exact ⟨by omega, by omega, hend q (by omega) h3, hK q (by omega) (by omega)⟩
  · rw [hpar]
    intro h h' x pv hn hk H hps' he
    cases hps' with
    | cons h1 h2 =>
      cases h2
      cases h1 with
      | @cons _ wv _ _ a1 a2 =>
        cases a2 with
        | @cons _ bv _ _ b1 b2 =>
          cases b2
          obtain ⟨h2, e12, e3⟩ := exec_append_ok.1 he
          obtain ⟨h1, e1, e2⟩ := exec_append_ok.1 e12
          obtain ⟨fr1, fv1⟩ := exec_frame e1
          obtain ⟨fr2, fv2⟩ := exec_frame e2
          have hbv : ∀ idx, InRange netaM.shape idx → h1.val (cell netaM idx) = bv.get idx := fun idx hi => by
            rw [CT.cell (by rw [M.sb, M.sneta]) M.rb.good M.rneta.good e1 hi]
            exact holds_cell b1 (by rw [M.sb, ← M.sneta]; exact hi)
          have H1 : Holds h1 inM x := H.kept (by omega) fun q hq => fv1 q fun hd => by
            have := hin q hq; have := hnn q (CT.dst q hd); omega
          have W1 : Holds h1 wM wv := a1.kept (by omega) fun q hq => fv1 q fun hd => (M.fneta q (CT.dst q hd)).2.2 hq
          have hacc := AA.run h1 h2 x wv bv.get (by omega) (fun q k1 k2 k3 => by
            rw [fv1 q fun hd => by have := hnn q (CT.dst q hd); omega]
            exact hk q zero (Or.inl ⟨k1, k2, k3, rfl⟩)) H1 W1 hbv e2
          have Hn : Holds h2 netaM ⟨osh, G x wv bv.get⟩ :=
            holds_of_cell (M.rneta.good.mono (by omega)) M.sneta hacc
          have hB := B.run h2 h' (by omega) (fun q k1 k2 k3 => by
            rw [fv2 q fun hd => by
                rcases AA.dst q hd with h | h
                · omega
                · have := hnn q h; omega,
              fv1 q fun hd => by have := hnn q (CT.dst q hd); omega]
            exact hk q zero (Or.inr ⟨k1, k2, k3, rfl⟩)) e3
          refine hB.of_tab ((map_tab act (ofMat_tab Hn)).trans ?_)
          obtain ⟨f1, f2⟩ := hfn x wv bv H.shape.symm (by rw [← a1.shape, M.sw]) (by rw [← b1.shape, M.sb])
          exact tab_iff.2 ⟨f1.symm, fun idx hi => (f2 idx hi).symm⟩
  · intro hs o ho
    simp only [List.mem_append] at ho
    rcases ho with (ho | ho) | ho
    · exact CT.fine o ho
    · exact AA.fine hs o ho
    · exact B.fine hs o ho
  · rintro q c (⟨h1, h2, h3, rfl⟩ | ⟨h1, h2, h3, rfl⟩)
    · rw [(G9.trans B.grow).val q h2 id]; exact zA q h1 h2
    · exact B.zero q h1 h2
  · intro k hk
    rw [hl] at hk
    rcases hk with hk | hk
    · injection hk with hk; subst hk; exact ⟨wM, rw', M.ndw⟩
    · injection hk with hk; subst hk; exact ⟨bM, rb', M.ndb⟩
  · intro q hq
    obtain ⟨d1, d2, d3, d4⟩ := fd q hq
    have d5 := (rd5.good.valid q hq).2
    refine ⟨d1, fun h => ?_, fun h => ?_, ?_, ?_⟩
    · rcases hdst q h with h | h
      · exact d2 h
      · omega
    · rcases B.cells q h with h | h
      · omega
      · exact d2 h
    · rintro c (⟨h1, _⟩ | ⟨h1, _⟩) <;> omega
    · rw [hpar]
      intro m hm
      simp only [List.mem_cons, List.not_mem_nil, or_false] at hm
      rcases hm with rfl | rfl
      · exact d4
      · exact d3
  · intro q hq
    refine ⟨(hnn q hq).1, fun d dM' h1 h2 h3 => ?_⟩
    rw [hl] at h1
    injection h1 with h1; subst h1
    rw [← h2.mat, (rd5.grow Gp).mat] at h3
    exact (fd q h3).2.1 hq
  · rw [hpar]
    intro h h' x pv hn hk H hps' he
    cases hps' with
      | @cons _ wv _ _ a1 a2 =>
        cases a2 with
        | @cons _ bv _ _ b1 b2 =>
          cases b2
          obtain ⟨h2, e12, e3⟩ := exec_append_ok.1 he
          obtain ⟨h1, e1, e2⟩ := exec_append_ok.1 e12
          obtain ⟨fr1, fv1⟩ := exec_frame e1
          obtain ⟨fr2, fv2⟩ := exec_frame e2
          obtain ⟨fr3, fv3⟩ := exec_frame e3
          have hbv : ∀ idx, InRange netaM.shape idx → h1.val (cell netaM idx) = bv.get idx := fun idx hi => by
            rw [CT.cell (by rw [M.sb, M.sneta]) M.rb.good M.rneta.good e1 hi]
            exact holds_cell b1 (by rw [M.sb, ← M.sneta]; exact hi)
          have H1 : Holds h1 inM x := H.kept (by omega) fun q hq => fv1 q fun hd => by
            have := hin q hq; have := hnn q (CT.dst q hd); omega
          have W1 : Holds h1 wM wv := a1.kept (by omega) fun q hq => fv1 q fun hd => (M.fneta q (CT.dst q hd)).2.2 hq
          have hacc := AA.run h1 h2 x wv bv.get (by omega) (fun q k1 k2 k3 => by
            rw [fv1 q fun hd => by have := hnn q (CT.dst q hd); omega]
            exact hk q zero (Or.inl ⟨k1, k2, k3, rfl⟩)) H1 W1 hbv e2
          have Hn : Holds h2 netaM ⟨osh, G x wv bv.get⟩ :=
            holds_of_cell (M.rneta.good.mono (by omega)) M.sneta hacc
          obtain ⟨f1, f2⟩ := hneta x wv bv H.shape.symm (by rw [← a1.shape, M.sw]) (by rw [← b1.shape, M.sb])
          have Hn' : Holds h2 netaM (s.neta [wv, bv] x) :=
            Hn.of_tab (tab_iff.2 ⟨f1.symm, fun idx hi => (f2 idx hi).symm⟩)
          refine Hn'.kept (by omega) fun q hq => fv3 q fun hd => ?_
          have := B.dst q hd; have := hnn q hq; omega

end Godeep
