import Verif.Lemmas.GDense
import Verif.Lemmas.FFConv2D
/-
  The new biases of convolutions and what they remember for the next step.
-/
set_option linter.unusedSectionVars false

namespace Godeep
open Spec GoNum

variable {T : Type} [GoNum T]

/-- every element by a scalar -/
theorem Pend.scal {w : World T} {n c : Nat} {o : Arith} {p : Ptr} {sh : List Nat} {f : (Ptr → T) → STensor T} {S : Ptr → Prop} {safe : Prop}
    (P : Pend w c sh f S safe) (hnd : w.store.nodes n = Store.lazyNode (.opScalar o c p) []) (hlt : n < w.nodeNext) (hc : c < n)
    (hp : 0 < p ∧ p < w.store.heap.next) (hd : safe → o = .div → ∀ x y : T, divPanics x y = false) :
    Pend w n sh (fun val => (f val).map fun x => o.fn x (val p)) S safe := by
  refine P.one (k := .opScalar o c p) (own := []) hnd hlt hc rfl trivial (by simp) hp trivial (by simp [Kind.straddles])
    (fun val => ⟨_, rfl, map_tab _ (tab_tab _)⟩) fun hs => ⟨trivial, ?_⟩
  cases o <;> first | trivial | exact hd hs rfl

/-- two tensors of the same shape, element by element -/
theorem Pend.zip2 {w : World T} {n a b : Nat} {o : Arith} {sh : List Nat} {f g : (Ptr → T) → STensor T} {S : Ptr → Prop} {safe : Prop}
    (A : Pend w a sh f S safe) (B : Pend w b sh g S safe) (hf : ∀ v, (f v).shape = sh) (hg : ∀ v, (g v).shape = sh)
    (hnd : w.store.nodes n = Store.lazyNode (.op2 o a b) []) (hlt : n < w.nodeNext) (ha : a < n) (hb : b < n) (hab : a ≠ b)
    (hd : safe → o = .div → ∀ x y : T, divPanics x y = false) :
    Pend w n sh (fun val => (f val).zip o.fn (g val)) S safe := by
  have := Pend.node (k := .op2 o a b) (own := []) (sh := fun _ => sh) (F := fun c => if c = a then f else g)
    (G := fun val => (f val).zip o.fn (g val)) (S := S) (safe := safe) hnd hlt (by simp [Kind.kids]; omega)
    (by
      intro c hc
      simp only [Kind.kids, List.mem_cons, List.not_mem_nil, or_false] at hc
      rcases hc with rfl | rfl
      · simpa using A
      · simpa [hab.symm] using B) trivial (by simp) trivial (by simp [Kind.fits]) (by simp [Kind.straddles])
    (fun val => by
      simp only [if_true, hab.symm, if_false, Kind.den]
      rw [if_pos (by rw [tab_shape, tab_shape, hf, hg])]
      exact ⟨_, rfl, zip_tab _ (tab_tab _) (tab_tab _) (by rw [tab_shape, tab_shape, hf, hg])⟩)
    fun hs => ⟨trivial, by cases o <;> first | trivial | exact hd hs rfl⟩
  simpa [Kind.outShape] using this

/-- what `BuildGraph` did to a tensor that the built one needs -/
theorem BuiltP.inner {L : Nat → Prop} {C : Ptr → Prop} {n : Nat} {sh : List Nat} {f : (Ptr → T) → STensor T} {S : Ptr → Prop} {safe : Prop}
    {new : List (Op T)} {m : Mat} {w w' : World T} (B : BuiltP L C n sh f S safe new m w w') (hE : Expr w.store n) {k : Nat} (hr : Reach w.store n k)
    {sh' : List Nat} {f' : (Ptr → T) → STensor T} {S' : Ptr → Prop} {safe' : Prop} (P : Pend w k sh' f' S' safe') :
    Ready w' k (w'.store.nodes k).mat ∧ (w'.store.nodes k).mat.shape = sh' ∧
    (∀ q ∈ (w'.store.nodes k).mat.ops, (w.store.heap.next ≤ q ∧ q < w'.store.heap.next) ∨ S' q) ∧
    ∀ h h', w'.store.heap.next ≤ h.next → (∀ q, w.store.heap.next ≤ q → q < w'.store.heap.next → q ∉ dsts new → h.val q = GoNum.zero) →
      exec new h = .ok () h' → Holds h' (w'.store.nodes k).mat (f' h.val) := by
  have bl := B.built
  have hgood := (bl.done k hr).2
  obtain ⟨x1, x2, x3, x4⟩ := P.expr k (.refl k)
  refine ⟨⟨by rw [B.nodeNext]; exact P.lt, rfl, Or.inl (bl.done k hr).1, hgood, ?_, ?_, ?_⟩, built_shape bl _ _ _ hr P.shape, ?_, ?_⟩
  · rw [bl.kind]; exact x1
  · rw [bl.kind]; exact scalarOK_mono x3 bl.ext.next
  · rw [bl.kind]; exact x4
  · intro q hq
    have key : ∀ (j i : Nat), i < j → Reach w.store k i → ∀ q ∈ (w'.store.nodes i).mat.ops, w.store.heap.next ≤ q ∨
        ∃ m', Reach w.store k m' ∧ frozen w.store m' ∧ q ∈ (w.store.nodes m').mat.ops := by
      intro j
      induction j with
      | zero => intro i h; omega
      | succ j ih =>
        intro i hi hri q hq
        by_cases hf : frozen w.store i
        · rw [built_mat bl hf] at hq
          exact Or.inr ⟨i, hri, hf, hq⟩
        · obtain ⟨hb, hl⟩ := not_frozen hf
          obtain ⟨h0, c0, f, hrun, hmat, hlo, _, _⟩ := bl.ran i (reach_trans hr hri) hb
          rw [← hmat] at hq
          rcases run_cells hrun (P.expr i hri).2.2.2 hl q hq with h | ⟨c, hc, hq'⟩
          · left; simp only at h; omega
          · have := (P.expr i hri).1 c hc
            exact ih c (by omega) (reach_trans hri (.step hb hc (.refl c))) q hq'
    rcases key (k + 1) k (by omega) (.refl k) q hq with h | ⟨m, h1, h2, h3⟩
    · exact Or.inl ⟨h, (hgood.valid q hq).2⟩
    · exact Or.inr (P.src m h1 h2 q h3)
  · intro h h' hn hz he
    obtain ⟨t, ht1, ht2⟩ := P.val h.val
    refine (built_exec bl (fun m hm => expr_reach hE hm) B.grow.ctx (h := h) ⟨hn, fun q h1 h2 h3 => ?_⟩ he hr ht1).of_tab ht2
    rw [bl.zero q h1 h2]
    refine hz q h1 h2 fun hd => ?_
    obtain ⟨r, hr⟩ := mem_dsts.1 hd
    exact h3 r hr

theorem emitLoop_nodup {f : Nat → Res (Rhs T)} :
    ∀ (l : List Nat) (acc : List Ptr) (s s' : FSt T), acc.Nodup → (∀ q ∈ acc, q < s.heap.next) →
      FSt.emitLoop f l acc s = .ok () s' → s'.mat.ops.Nodup := by
  intro l
  induction l with
  | nil =>
    intro acc s s' hn _ h
    simp only [FSt.emitLoop, Out.ok.injEq, true_and] at h
    subst h; exact hn
  | cons i l ih =>
    intro acc s s' hn hl h
    simp only [FSt.emitLoop] at h
    cases hi : f i with
    | ok r =>
      rw [hi] at h
      refine ih _ _ _ ?_ (fun q hq => ?_) h
      · refine List.nodup_append.2 ⟨hn, by simp, fun a ha b hb => ?_⟩
        simp only [List.mem_singleton] at hb
        have := hl a ha
        omega
      · simp only [List.mem_append, List.mem_singleton] at hq
        simp only [FSt.emit, Heap.alloc]
        rcases hq with hq | rfl
        · have := hl q hq; omega
        · omega
    | err e => rw [hi] at h; cases h
    | panic => rw [hi] at h; cases h

/-- what building the new biases has done; `mM` is the change of the weights that is remembered, `aM` the errors times `alpha` -/
structure BiasDone (l : Nat) (dM bM mbM mwM : Mat) (alpha momentum : Ptr) (r : Nat × Nat) (nb : Nat) (aM mM nbM : Mat) (ops : List (Op T))
    (w w' : World T) : Prop where
  grow : Lay (· = l) ops w w'
  own : w'.layers l = { w.layers l with nBias := some nb }
  layers : ∀ j, j ≠ l → w'.layers j = w.layers j
  ra : Ready w' r.1 aM
  rm : Ready w' r.2 mM
  rb : Ready w' nb nbM
  sa : aM.shape = dM.shape
  sm : mM.shape = mwM.shape
  sb : nbM.shape = bM.shape
  nd : mM.ops.Nodup
  fa : ∀ q ∈ aM.ops, w.store.heap.next ≤ q ∧ q < w'.store.heap.next
  fm : ∀ q ∈ mM.ops, w.store.heap.next ≤ q ∧ q < w'.store.heap.next ∧ q ∉ aM.ops ∧ q ∉ nbM.ops
  fb : ∀ q ∈ nbM.ops, w.store.heap.next ≤ q ∧ q < w'.store.heap.next
  dst : ∀ q ∈ dsts ops, (w.store.heap.next ≤ q ∧ q < w'.store.heap.next) ∨ q ∈ mbM.ops
  asg : ∀ q ∈ mM.ops, q ∈ dsts ops
  fine : ∀ o ∈ ops, Fine o
  run : ∀ h h' d B m al mu, w'.store.heap.next ≤ h.next → Kept w w' ops h → Holds h dM d → Holds h bM B → Holds h mbM m →
    (∀ q ∈ mwM.ops, h.val q = GoNum.zero) → h.val alpha = al → h.val momentum = mu → exec ops h = .ok () h' →
    Holds h' aM (d.map fun v => GoNum.mul v al) ∧ Holds h' nbM (B.zip GoNum.add (biasStep al mu d m)) ∧ Holds h' mbM (biasStep al mu d m) ∧
    ∀ q ∈ mM.ops, h'.val q = GoNum.mul GoNum.zero mu

theorem emitLoop_fresh {f : Nat → Res (Rhs T)} {l : List Nat} {s s' : FSt T} (h : FSt.emitLoop f l [] s = .ok () s') :
    s'.mat.ops.Nodup ∧ ∀ q ∈ s'.mat.ops, s.heap.next ≤ q :=
  ⟨emitLoop_nodup _ _ _ _ List.nodup_nil (by simp) h, emitLoop_cells _ _ _ _ (le_refl _) (by simp) h⟩

theorem opScalar_cells {o : Arith} {c : Nat} {p : Ptr} {get : Nat → Mat} {s s' : FSt T}
    (h : Fin.run get (.opScalar o c p) s = .ok () s') : s'.mat.ops.Nodup ∧ ∀ q ∈ s'.mat.ops, s.heap.next ≤ q := by
  simp only [Fin.run, Fin.unary] at h
  have := emitLoop_fresh h
  exact this

theorem op2_cells {o : Arith} {a b : Nat} {get : Nat → Mat} {s s' : FSt T}
    (h : Fin.run get (.op2 o a b) s = .ok () s') : s'.mat.ops.Nodup ∧ ∀ q ∈ s'.mat.ops, s.heap.next ≤ q := by
  simp only [Fin.run, Fin.op2] at h
  split at h
  · cases h
  · have := emitLoop_fresh h
    exact this

theorem mem_cell {m : Mat} {h : Heap T} (g : GoodMat h m) {q : Ptr} (hq : q ∈ m.ops) : ∃ idx, InRange m.shape idx ∧ cell m idx = q := by
  obtain ⟨i, hi, rfl⟩ := List.mem_iff_getElem.1 hq
  have hi' : i < size m.shape := by rw [← g.len]; exact hi
  exact ⟨unflat m.shape i, unflat_inRange hi', by rw [cell_unflat hi', List.getD_eq_getElem _ _ hi]⟩

theorem wp_convBias {β : Type} {l : Nat} {x : Layer T} {d b mb mw : Nat} {dM bM mbM mwM : Mat} {alpha momentum : Ptr} {w : World T}
    {k : Nat × Nat → Run T β} {Q : β → World T → Prop} (hpos : 0 < w.store.heap.next) (hx : x.dif = some d)
    (rd : Ready w d dM) (rb : Ready w b bM) (rmb : Ready w mb mbM) (rmw : Ready w mw mwM) (hmd : mb ≠ d) (hs1 : bM.shape = dM.shape)
    (hs2 : mbM.shape = dM.shape) (nd : mbM.ops.Nodup) (ha : 0 < alpha ∧ alpha < w.store.heap.next)
    (hm : 0 < momentum ∧ momentum < w.store.heap.next ∧ momentum ∉ mbM.ops) (hmw : ∀ q ∈ mwM.ops, q ∉ mbM.ops)
    (h : ∀ w' r nb aM mM nbM ops, BiasDone l dM bM mbM mwM alpha momentum r nb aM mM nbM ops w w' → wp True (k r) Q w') :
    wp True (LayerM.convBias l x b mb mw alpha momentum >>= k) Q w := by
  refine wp_bind ?_
  unfold LayerM.convBias
  refine wp_bind (wp_deref hx (wp_bind (wp_lazy (L := fun _ => False) (C := fun _ => False) fun w1 g1 l1 e1 x1 k1 o1 => ?_)))
  have rd1 := rd.grow g1
  have p1 :=
    ((rd1.pend True).mono (S' := fun q => q ∈ dM.ops ∨ q ∈ bM.ops ∨ q ∈ mbM.ops) (fun q hq => Or.inl hq) id).scal k1 (by omega) rd.lt (by rw [e1]; exact ha) (by simp)
  refine wp_bind (wp_lazy (L := fun _ => False) (C := fun _ => False) fun w2 g2 l2 e2 x2 k2 o2 => ?_)
  have rmb2 := (rmb.grow g1).grow g2
  have p2 := ((rmb2.pend True).mono (S' := fun q => q ∈ dM.ops ∨ q ∈ bM.ops ∨ q ∈ mbM.ops) (fun q hq => Or.inr (Or.inr hq)) id).scal k2 (by omega)
      (by have := rmb.lt; omega) (by rw [e2, e1]; exact ⟨hm.1, hm.2.1⟩) (by simp)
  rw [hs2] at p2
  have p1' := p1.same (w' := w2) (fun x hx => o2 x (by omega)) (by omega) (by rw [e2])
  refine wp_bind (wp_lazy (L := fun _ => False) (C := fun _ => False) fun w3 g3 l3 e3 x3 k3 o3 => ?_)
  have p3 :=
    (p1'.same (w' := w3) (fun x hx => o3 x (by omega)) (by omega) (by rw [e3])).zip2 (p2.same (w' := w3) (fun x hx => o3 x (by omega)) (by omega) (by rw [e3]))
      (fun v => rfl) (fun v => by show mbM.shape = _; exact hs2) k3 (by omega) (by omega) (by omega) (by omega) (by simp)
  refine wp_bind (wp_lazy (L := fun _ => False) (C := fun _ => False) fun w4 g4 l4 e4 x4 k4 o4 => ?_)
  have G4 : Grow (fun _ => False) (fun _ => False) [] w w4 := by simpa using ((g1.trans g2).trans g3).trans g4
  have rb4 := rb.grow G4
  have E4 : w4.store.heap = w.store.heap := by rw [e4, e3, e2, e1]
  have pb4 := (rb4.pend True).mono (S' := fun q => q ∈ dM.ops ∨ q ∈ bM.ops ∨ q ∈ mbM.ops) (fun q hq => Or.inr (Or.inl hq)) id
  rw [hs1] at pb4
  have p4 :=
    pb4.zip2 (p3.same (w' := w4) (fun x hx => o4 x (by omega)) (by omega) (by rw [e4]))
      (fun v => by show bM.shape = _; exact hs1) (fun v => rfl) k4 (by omega) (by have := rb.lt; omega) (by omega) (by have := rb.lt; omega) (by simp)
  refine wp_bind (wp_modify ?_)
  have m5 := lay_modify (L := (· = l)) rfl (fun x => { x with nBias := some w3.nodeNext }) w4
  obtain ⟨w5, hw5⟩ : ∃ w5, w5 = ({ w4 with layers := fun k => if k = l then { w4.layers k with nBias := some w3.nodeNext } else w4.layers k } : World T) := ⟨_, rfl⟩
  rw [← hw5] at m5 ⊢
  have st5 : w5.store = w4.store := by rw [hw5]
  have nn5 : w5.nodeNext = w4.nodeNext := by rw [hw5]
  have up : ∀ {n : Nat} {sh : List Nat} {f : (Ptr → T) → STensor T} {S : Ptr → Prop} {s : Prop}, Pend w4 n sh f S s → Pend w5 n sh f S s := fun P =>
    P.same (fun x _ => by rw [st5]) (by omega) (by rw [st5])
  have p5 := up p4
  refine wp_bind (wp_build (L := (· = l)) (C := fun _ => False) p5 (by rw [st5, E4]; exact hpos) fun w6 o6 nbM B => ?_)
  have kd4 : ∀ n, (w5.store.nodes n) = w4.store.nodes n := fun n => by rw [st5]
  have r3 : Reach w5.store w3.nodeNext w2.nodeNext := .step (by rw [kd4, k4]; rfl) (by rw [kd4, k4]; simp [Store.lazyNode, Kind.kids]) (.refl _)
  have n3 : w5.store.nodes w2.nodeNext = Store.lazyNode (.op2 .add w.nodeNext w1.nodeNext) [] := by rw [kd4, o4 _ (by omega), k3]
  have n1 : w5.store.nodes w.nodeNext = Store.lazyNode (.opScalar .mul d alpha) [] := by rw [kd4, o4 _ (by omega), o3 _ (by omega), o2 _ (by omega), k1]
  have r1 : Reach w5.store w3.nodeNext w.nodeNext := reach_trans r3 (.step (by rw [n3]; rfl) (by rw [n3]; simp [Store.lazyNode, Kind.kids]) (.refl _))
  have q3 := up (p3.same (w' := w4) (fun x hx => o4 x (by omega)) (by omega) (by rw [e4]))
  have q1 := up ((p1'.same (w' := w3) (fun x hx => o3 x (by omega)) (by omega) (by rw [e3])).same (w' := w4) (fun x hx => o4 x (by omega)) (by omega) (by rw [e4]))
  obtain ⟨rdl, sdl, cdl, vdl⟩ := B.inner p5.expr r3 q3
  obtain ⟨rda, sda, cda, vda⟩ := B.inner p5.expr r1 q1
  obtain ⟨dlM, hdl⟩ : ∃ M, M = (w6.store.nodes w2.nodeNext).mat := ⟨_, rfl⟩
  obtain ⟨daM, hda⟩ : ∃ M, M = (w6.store.nodes w.nodeNext).mat := ⟨_, rfl⟩
  rw [← hdl] at rdl sdl cdl vdl
  rw [← hda] at rda sda cda vda
  have E5 : w5.store.heap.next = w.store.heap.next := by rw [st5, E4]
  have fresh : ∀ n, Reach w5.store w3.nodeNext n → (w5.store.nodes n).built = false →
      (∃ o a b, (w5.store.nodes n).kind = .op2 o a b) ∨ (∃ o a b, (w5.store.nodes n).kind = .opScalar o a b) →
      ∀ q ∈ (w6.store.nodes n).mat.ops, w.store.heap.next ≤ q := by
    intro n hr hb hk q hq
    obtain ⟨h0, c0, f, hrun, hmat, hlo, _, _⟩ := B.built.ran n hr hb
    rw [← hmat] at hq
    rcases hk with ⟨o, a, b, hk⟩ | ⟨o, a, b, hk⟩
    · rw [hk] at hrun
      have := (op2_cells hrun).2 q hq
      simp only at this; omega
    · rw [hk] at hrun
      have := (opScalar_cells hrun).2 q hq
      simp only at this; omega
  have fnb : ∀ q ∈ nbM.ops, w.store.heap.next ≤ q := by
    rw [← B.ready.mat]
    exact fresh _ (.refl _) (by rw [kd4, k4]; rfl) (Or.inl ⟨_, _, _, by rw [kd4, k4]; rfl⟩)
  have fdl : ∀ q ∈ dlM.ops, w.store.heap.next ≤ q := by
    rw [hdl]; exact fresh _ r3 (by rw [n3]; rfl) (Or.inl ⟨_, _, _, by rw [n3]; rfl⟩)
  have fda : ∀ q ∈ daM.ops, w.store.heap.next ≤ q := by
    rw [hda]; exact fresh _ r1 (by rw [n1]; rfl) (Or.inr ⟨_, _, _, by rw [n1]; rfl⟩)
  have G5 : Grow (· = l) (fun _ => False) [] w w5 := by
    simpa using (G4.weaken (L' := (· = l)) (C' := fun _ => False) (fun _ h => h.elim) fun _ h => h).trans m5.grow
  have rmb6 := (rmb.grow G5).grow B.grow
  have omb : ∀ q ∈ mbM.ops, q < w.store.heap.next := fun q hq => (rmb.good.valid q hq).2
  refine wp_bind (wp_transfer (L := (· = l)) (C := fun _ => False) rdl rmb6 (by rw [rdl.good.len, rmb6.good.len, sdl, hs2]) nd
    (fun q hq hd => by have := fdl q hd; have := omb q hq; omega) fun w7 o7 g7 l7 e7 d7 f7 v7 => ?_)
  refine wp_bind (wp_lazy (L := (· = l)) (C := fun _ => False) fun w8 g8 l8 e8 x8 k8 o8 => ?_)
  have G8 : Grow (· = l) (fun _ => False) (o6 ++ o7) w w8 := by simpa using ((G5.trans B.grow).trans g7).trans g8
  have rmw8 := rmw.grow G8
  have N6 := B.grow.next
  have E8 : w8.store.heap.next = w6.store.heap.next := by rw [e8, e7]
  have b8 := G8.next
  obtain ⟨N, hN⟩ : ∃ N, N = size mwM.shape := ⟨_, rfl⟩
  obtain ⟨lo, hlo⟩ : ∃ lo, lo = w8.store.heap.next := ⟨_, rfl⟩
  obtain ⟨o9, ho9⟩ : ∃ o9 : List (Op T), o9 = asgs lo ((List.range N).map fun i => Rhs.mul (mwM.ops.getD i 0) momentum) := ⟨_, rfl⟩
  obtain ⟨mM, hmM⟩ : ∃ mM : Mat, mM = ⟨mwM.shape, indexMul mwM.shape, List.range' lo N⟩ := ⟨_, rfl⟩
  refine wp_bind (wp_build1 (L := (· = l)) (a := N) (o := o9) (M := mM) k8 rfl rmw8
    (by have := rmw.lt; have := G8.nodeNext; have := g7.nodeNext; have := B.nodeNext; omega) (by omega)
    (fun get hg ctx => by
      simp only [Fin.run]
      rw [hg, unary_run rmw8.good, ← hN, ← hlo, rmw8.good.mul, ← hmM, ho9]; rfl) fun w9 n9 hn9 y9 l9 x9 z9 r9 => ?_)
  have rm9 : Ready w9 w7.nodeNext mM := r9 ⟨hm.1, by omega⟩ trivial (by rw [hmM, hN, hlo]; exact good_range' (by omega))
  have N9 := y9.grow.next
  have nd9 : mM.ops.Nodup := by rw [hmM]; exact List.nodup_range'
  have c9 : ∀ q, q ∈ mM.ops ↔ lo ≤ q ∧ q < lo + N := fun q => by rw [hmM]; simp [List.mem_range'_1]
  have fr9 : ∀ q ∈ mM.ops, w8.store.heap.next ≤ q := fun q hq => by have := (c9 q).1 hq; omega
  have d9 : ∀ q, q ∈ dsts o9 ↔ lo ≤ q ∧ q < lo + N := fun q => by rw [ho9, mem_dsts_asgs]; simp
  have G9 : Grow (· = l) (fun _ => False) (o6 ++ o7 ++ (n9 ++ o9)) w w9 := G8.trans y9.grow
  have G69 : Grow (· = l) (fun _ => False) (o7 ++ [] ++ (n9 ++ o9)) w6 w9 := (g7.trans g8).trans y9.grow
  have z : ∀ q, w.store.heap.next ≤ q → q < w9.store.heap.next → w9.store.heap.val q = GoNum.zero := fun q a c => by
    by_cases hq : q < w8.store.heap.next
    · rw [y9.grow.val q hq fun h => h, e8, e7]; exact B.zero q (by omega) (by omega)
    · exact y9.zero q (by omega) c
  refine wp_pure (h w9 _ w3.nodeNext daM mM nbM (o6 ++ o7 ++ (n9 ++ o9)) ⟨⟨G9, z⟩, ?_, fun j hj => ?_, rda.grow G69, rm9, B.ready.grow G69, sda, by rw [hmM],
    by rw [B.shape, hs1], nd9, fun q hq => ⟨fda q hq, ?_⟩, fun q hq => ⟨?_, (rm9.good.valid q hq).2, fun hc => ?_, fun hc => ?_⟩, fun q hq => ⟨fnb q hq, ?_⟩,
    fun q hq => ?_, fun q hq => ?_, fun o ho => ?_, fun h h' dd Bv m al mu hn hk Hd Hb Hm hz hal hmu he => ?_⟩)
  · rw [l9, l8, l7, B.layers, hw5]; simp [l4, l3, l2, l1]
  · rw [l9, l8, l7, B.layers, hw5]; simp [hj, l4, l3, l2, l1]
  · have := (rda.good.valid q hq).2; omega
  · have := fr9 q hq; omega
  · have := fr9 q hq; have := (rda.good.valid q hc).2; omega
  · have := fr9 q hq; have := (B.ready.good.valid q hc).2; omega
  · have := (B.ready.good.valid q hq).2; omega
  · rw [dsts_append, List.mem_append, dsts_append, List.mem_append, dsts_append, hn9.dsts, List.nil_append, d9] at hq
    rcases hq with (hq | hq) | hq
    · have := B.dst q hq; left; omega
    · exact Or.inr (d7 q hq)
    · left; omega
  · rw [dsts_append, List.mem_append, dsts_append n9, hn9.dsts, List.nil_append, d9]
    exact Or.inr ((c9 q).1 hq)
  · rw [List.mem_append, List.mem_append, List.mem_append] at ho
    rcases ho with (ho | ho) | (ho | ho)
    · exact B.fine trivial o ho
    · exact f7 o ho
    · exact hn9.fine o ho
    · rw [ho9] at ho
      obtain ⟨i, r, hr, rfl⟩ := of_mem_asgs ho
      have hm' := List.mem_of_getElem? hr
      obtain ⟨j, hj, rfl⟩ := List.mem_map.1 hm'
      have hv := getD_valid rmw.good (by rw [← hN]; exact List.mem_range.1 hj)
      refine ⟨by omega, ?_, trivial, trivial⟩
      simp only [Rhs.reads, List.mem_cons, List.not_mem_nil, or_false, forall_eq_or_imp, forall_eq]
      exact ⟨hv.2.1, hm.1⟩
  · rw [List.append_assoc] at he
    obtain ⟨h1, he1, he⟩ := exec_append_ok.1 he
    obtain ⟨h2, he2, he3⟩ := exec_append_ok.1 he
    have x1 := exec_frame he1
    have x2 := exec_frame he2
    have x3 := exec_frame he3
    have nd7 : ∀ q, w.store.heap.next ≤ q → q ∉ dsts o7 := fun q hq hd => by have := omb q (d7 q hd); omega
    have K1 : ∀ q, w5.store.heap.next ≤ q → q < w6.store.heap.next → q ∉ dsts o6 → h.val q = GoNum.zero := fun q a c hd => by
      rw [hk q (by omega) (by omega) ?_]
      · exact z q (by omega) (by omega)
      · rw [dsts_append, List.mem_append, dsts_append, List.mem_append]
        rw [dsts_append, hn9.dsts, List.nil_append, d9]
        rintro ((h | h) | h)
        · exact hd h
        · exact nd7 q (by omega) h
        · omega
    have A1 := (vda h h1 (by omega) K1 he1).of_tab (b := dd.map fun v => GoNum.mul v al) (by
      simp only [hal]; exact map_tab _ (ofMat_tab Hd))
    have tdl : STensor.tab (((ofMat h.val dM).map fun x => Arith.mul.fn x (h.val alpha)).zip Arith.add.fn ((ofMat h.val mbM).map fun x => Arith.mul.fn x (h.val momentum))) = (biasStep al mu dd m).tab := by
      simp only [hal, hmu]
      exact zip_tab _ (map_tab _ (ofMat_tab Hd)) (map_tab _ (ofMat_tab Hm)) (by show dM.shape = mbM.shape; rw [hs2])
    have A2 := (vdl h h1 (by omega) K1 he1).of_tab (b := biasStep al mu dd m) tdl
    have A3 := (B.run h h1 (by omega) K1 he1).of_tab (b := Bv.zip GoNum.add (biasStep al mu dd m)) (zip_tab _ (ofMat_tab Hb) tdl (by show bM.shape = dM.shape; rw [hs1]))
    have k12 : ∀ {M : Mat} {t : STensor T}, (∀ q ∈ M.ops, w.store.heap.next ≤ q ∧ q < w6.store.heap.next) → Holds h1 M t → Holds h' M t := fun hM HM =>
      (HM.kept (h' := h2) (by rw [x2.1]) fun q hq => x2.2 q (nd7 q (hM q hq).1)).kept (by rw [x3.1]) fun q hq => x3.2 q fun hd => by
        rw [dsts_append, hn9.dsts, List.nil_append, d9] at hd; have := hM q hq; omega
    refine ⟨k12 (fun q hq => ⟨fda q hq, (rda.good.valid q hq).2⟩) A1, k12 (fun q hq => ⟨fnb q hq, (B.ready.good.valid q hq).2⟩) A3, ?_, fun q hq => ?_⟩
    · have : Holds h2 mbM (biasStep al mu dd m) := by
        refine holds_of_flat (by rw [hs2, ← sdl, A2.shape]) rmb.good.mul (rmb.good.mono (h' := h2) (by omega)).valid ?_
        rw [v7 h1 h2 he2]; exact holds_flat A2
      exact this.kept (by rw [x3.1]) fun q hq => x3.2 q fun hd => by rw [dsts_append, hn9.dsts, List.nil_append, d9] at hd; have := omb q hq; omega
    · obtain ⟨h3, e3, he3⟩ := exec_append_ok.1 he3
      rw [hn9.exec] at e3
      simp only [Out.ok.injEq, true_and] at e3
      subst e3
      obtain ⟨a1, a2⟩ := (c9 q).1 hq
      obtain ⟨i, rfl⟩ : ∃ i, q = lo + i := ⟨q - lo, by omega⟩
      rw [ho9] at he3
      have hi : i < size mwM.shape := by omega
      have hv := getD_valid rmw.good hi
      have hc := hv.1
      have key := exec_asgs (lo0 := lo) (le_refl _) (fun r hr q hq => by
        obtain ⟨j, hj, rfl⟩ := List.mem_map.1 hr
        have hv := getD_valid rmw.good (by rw [← hN]; exact List.mem_range.1 hj)
        simp only [Rhs.reads, List.mem_cons, List.not_mem_nil, or_false] at hq
        have := hv.2.2
        rcases hq with rfl | rfl <;> omega) he3 i (.mul (mwM.ops.getD i 0) momentum) (by
          rw [List.getElem?_map, List.getElem?_range (by omega)]; rfl)
      have ev := ev_eval key
      rw [ev]
      show GoNum.mul (h'.val (mwM.ops.getD i 0)) (h'.val momentum) = _
      have fz : ∀ q, q < w.store.heap.next → q ∉ mbM.ops → h'.val q = h.val q := fun q hq hd => by
        rw [(exec_frame he3).2 q (fun h => by have := (mem_dsts_asgs.1 h).1; omega), x2.2 q (fun h => hd (d7 q h)), x1.2 q fun h => by have := B.dst q h; omega]
      rw [fz _ hv.2.2 (hmw _ hc), hz _ hc, fz _ hm.2.1 hm.2.2, hmu]

end Godeep
