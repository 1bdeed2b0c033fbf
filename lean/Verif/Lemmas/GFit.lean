import Verif.Lemmas.GExec
/-
  `Fit` on a sequential network of any layers.
-/
set_option linter.unusedSectionVars false

namespace Godeep
open Spec GoNum

variable {T : Type} [GoNum T]

/-- the new weights and biases of one layer, where it has some -/
structure GPar (x : Layer T) (ps nps : List Mat) (w : World T) : Prop where
  has : (x.weights = none ∧ x.bias = none ∧ x.nBias = none ∧ ps = [] ∧ nps = []) ∨
    ∃ wn bn nw nb wM bM nwM nbM, x.weights = some wn ∧ x.bias = some bn ∧ x.nWeights = some nw ∧ x.nBias = some nb ∧ ps = [wM, bM] ∧ nps = [nwM, nbM] ∧
      Ready w wn wM ∧ Ready w bn bM ∧ Ready w nw nwM ∧ Ready w nb nbM ∧ wM.ops.Nodup ∧ bM.ops.Nodup ∧ nwM.shape = wM.shape ∧ nbM.shape = bM.shape ∧
      ∀ q ∈ wM.ops, q ∉ bM.ops

/-- the layers of a network that can be trained -/
structure GLay (n b : Nat) (ps nps : Nat → List Mat) (w : World T) : Prop where
  pre0 : (w.layers b).pre = none
  par0 : (w.layers b).weights = none ∧ (w.layers b).bias = none ∧ (w.layers b).nBias = none
  pre : ∀ j < n, (w.layers (b + 1 + j)).pre = some (b + j)
  par : ∀ j < n, GPar (w.layers (b + 1 + j)) (ps j) (nps j) w
  apart : ∀ i j, i < n → j < n → i ≠ j → ∀ x ∈ ps i, ∀ y ∈ ps j, ∀ q ∈ x.ops, q ∉ y.ops
  new : ∀ i j, i < n → j < n → ∀ x ∈ nps i, ∀ y ∈ ps j, ∀ q ∈ x.ops, q ∉ y.ops

/-- what `Fit` does -/
structure GFitDone (b : Nat) (ps nps : Nat → List Mat) (k : Nat) (w : World T) (h' : Heap T) : Prop where
  next : h'.next = w.store.heap.next
  frame : ∀ q, (∀ j < k, ∀ x ∈ ps j, q ∉ x.ops) → h'.val q = w.store.heap.val q
  on : ∀ j < k, (w.layers (b + 1 + j)).trainable = true → ∀ X, List.Forall₂ (Holds w.store.heap) (nps j) X → List.Forall₂ (Holds h') (ps j) X
  off : ∀ j < k, (w.layers (b + 1 + j)).trainable = false → ∀ x ∈ ps j, ∀ q ∈ x.ops, h'.val q = w.store.heap.val q

theorem holds_of_copy {hh h : Heap T} {A B : Mat} {Z : STensor T} (HA : Holds hh A (ofMat h.val B)) (HB : Holds h B Z) : Holds hh A Z := by
  refine ⟨HA.shape.trans HB.shape, HA.mul, HA.len, HA.valid, fun idx hi => ?_⟩
  have hi' : InRange B.shape idx := by rw [HB.shape]; exact hi
  rw [HA.get idx hi']
  have gB : GoodMat h B := ⟨HB.mul, HB.len, HB.valid⟩
  have := holds_cell (good_holds gB) hi'
  rw [← this, holds_cell HB hi']

/-- `Fit` on one layer -/
theorem gfitOwn {l : Nat} {ps nps : List Mat} {w : World T} (P : GPar (w.layers l) ps nps w) (hn : ∀ x ∈ nps, ∀ y ∈ ps, ∀ q ∈ x.ops, q ∉ y.ops) :
    ∃ h', LayerM.fitOwn l w = .ok () { w with store := { w.store with heap := h' } } ∧ h'.next = w.store.heap.next ∧
      (∀ q, (∀ x ∈ ps, q ∉ x.ops) → h'.val q = w.store.heap.val q) ∧
      ((w.layers l).trainable = true → ∀ X, List.Forall₂ (Holds w.store.heap) nps X → List.Forall₂ (Holds h') ps X) ∧
      ((w.layers l).trainable = false → h' = w.store.heap) := by
  by_cases ht : (w.layers l).trainable = true
  · rcases P.has with ⟨h1, h2, h3, rfl, rfl⟩ | ⟨wn, bn, nw, nb, wM, bM, nwM, nbM, p1, p2, p3, p4, rfl, rfl, rw1, rb1, rnw, rnb, nd1, nd2, s1, s2, wb⟩
    · refine ⟨w.store.heap, ?_, rfl, fun _ _ => rfl, fun _ X HX => HX.imp fun _ _ h => h, fun _ => rfl⟩
      show (if !(w.layers l).trainable then pure () else _ : Run T Unit) w = _
      rw [if_neg (by rw [ht]; decide), h1, h2, h3]
      rfl
    · have hw : ∀ q, q ∈ nwM.ops ∨ q ∈ nbM.ops → q ∉ wM.ops ∧ q ∉ bM.ops := fun q hq => by
        rcases hq with hq | hq
        · exact ⟨hn _ (by simp) wM (by simp) q hq, hn _ (by simp) bM (by simp) q hq⟩
        · exact ⟨hn nbM (by simp) wM (by simp) q hq, hn nbM (by simp) bM (by simp) q hq⟩
      obtain ⟨h2, e2, H2, nx2, v2⟩ := loadFrom_ok (t := nw) rw1 nd1 (good_holds (h := w.store.heap) (by rw [rnw.mat]; exact rnw.good))
        (by rw [rnw.mat]; exact s1) (fun q hq => by rw [rnw.mat] at hq; exact (hw q (Or.inl hq)).1)
      obtain ⟨w2, hw2⟩ : ∃ x : World T, x = { w with store := { w.store with heap := h2 } } := ⟨_, rfl⟩
      rw [← hw2] at e2
      have x2 : Ext w w2 := by rw [hw2]; exact ext_of_eq (le_of_eq nx2.symm) rfl rfl
      have rb2 := rb1.ext x2
      have rnb2 := rnb.ext x2
      obtain ⟨h3, e3, H3, nx3, v3⟩ := loadFrom_ok (t := nb) rb2 nd2 (good_holds (h := w2.store.heap) (by rw [rnb2.mat]; exact rnb2.good))
        (by rw [rnb2.mat]; exact s2) (fun q hq => by rw [rnb2.mat] at hq; exact (hw q (Or.inr hq)).2)
      have hh2 : w2.store.heap = h2 := by rw [hw2]
      rw [hh2] at v3 nx3
      refine ⟨h3, ?_, by rw [nx3, nx2], fun q hq => ?_, fun _ X HX => ?_, fun h => by rw [ht] at h; cases h⟩
      · have : LayerM.fitOwn l w = (LayerM.loadFrom wn nw w).bind fun _ => LayerM.loadFrom bn nb := by
          show (if !(w.layers l).trainable then pure () else _ : Run T Unit) w = _
          rw [if_neg (by rw [ht]; decide), p1, p2, p3, p4]
          rfl
        rw [this, e2]
        show LayerM.loadFrom bn nb w2 = _
        rw [e3, hw2]
      · rw [v3 q (hq bM (by simp)), v2 q (hq wM (by simp))]
      · cases HX with
        | cons HX HX' =>
          cases HX' with
          | cons HY HY' =>
            cases HY'
            rw [rnw.mat] at H2
            rw [rnb2.mat, hh2] at H3
            refine .cons ((holds_of_copy H2 HX).kept (le_of_eq nx3.symm) fun q hq => v3 q (wb q hq)) (.cons (holds_of_copy H3 ?_) .nil)
            exact HY.kept (le_of_eq nx2.symm) fun q hq => v2 q (hw q (Or.inr hq)).1
  · refine ⟨w.store.heap, ?_, rfl, fun _ _ => rfl, fun h => (ht h).elim, fun _ => rfl⟩
    show (if !(w.layers l).trainable then pure () else _ : Run T Unit) w = _
    rw [if_pos (by simpa using ht)]
    rfl

theorem GPar.ext {x : Layer T} {ps nps : List Mat} {w w' : World T} (P : GPar x ps nps w) (g : Ext w w') : GPar x ps nps w' := by
  rcases P.has with h | ⟨wn, bn, nw, nb, wM, bM, nwM, nbM, p1, p2, p3, p4, p5, p6, rw1, rb1, rnw, rnb, h⟩
  · exact ⟨Or.inl h⟩
  · exact ⟨Or.inr ⟨wn, bn, nw, nb, wM, bM, nwM, nbM, p1, p2, p3, p4, p5, p6, rw1.ext g, rb1.ext g, rnw.ext g, rnb.ext g, h⟩⟩

theorem GLay.fit {n b : Nat} {ps nps : Nat → List Mat} {w : World T} (TL : GLay n b ps nps w) :
    ∀ k fuel, k ≤ n → k < fuel → ∃ h', LayerM.fit fuel (b + k) w = .ok () { w with store := { w.store with heap := h' } } ∧
      GFitDone b ps nps k w h' := by
  intro k
  induction k with
  | zero =>
    intro fuel _ hf
    obtain ⟨f, rfl⟩ : ∃ f, fuel = f + 1 := ⟨fuel - 1, by omega⟩
    refine ⟨w.store.heap, ?_, rfl, fun _ _ => rfl, fun j hj => absurd hj (by omega), fun j hj => absurd hj (by omega)⟩
    show (match (w.layers b).pre with | some p => _ | none => _ : Run T Unit) w = _
    rw [TL.pre0]
    show LayerM.fitOwn b w = .ok () w
    show (if !(w.layers b).trainable then pure () else _ : Run T Unit) w = _
    split_ifs
    · rfl
    · rw [TL.par0.1, TL.par0.2.1, TL.par0.2.2]
      rfl
  | succ k ih =>
    intro fuel hk hf
    obtain ⟨f, rfl⟩ : ∃ f, fuel = f + 1 := ⟨fuel - 1, by omega⟩
    obtain ⟨h1, e1, F⟩ := ih f (by omega) (by omega)
    have hpre := TL.pre k hk
    obtain ⟨w1, hw1⟩ : ∃ x : World T, x = { w with store := { w.store with heap := h1 } } := ⟨_, rfl⟩
    have x1 : Ext w w1 := by rw [hw1]; exact ext_of_eq (le_of_eq F.next.symm) rfl rfl
    have hl1 : w1.layers = w.layers := by rw [hw1]
    have hh1 : w1.store.heap = h1 := by rw [hw1]
    have e0 : LayerM.fit (f + 1) (b + (k + 1)) w = LayerM.fitOwn (b + 1 + k) w1 := by
      rw [show b + (k + 1) = b + 1 + k by omega, hw1]
      show (match (w.layers (b + 1 + k)).pre with | some p => _ | none => _ : Run T Unit) w = _
      rw [hpre]
      show ((LayerM.ignoreErr (LayerM.fit f (b + k))) w).bind _ = _
      unfold LayerM.ignoreErr
      rw [e1]
      rfl
    obtain ⟨h2, e2, nx2, v2, on2, off2⟩ := gfitOwn (w := w1) (l := b + 1 + k) (by rw [hl1]; exact (TL.par k hk).ext x1) (TL.new k k hk hk)
    rw [hh1] at nx2 v2 on2 off2
    rw [hl1] at on2 off2
    refine ⟨h2, ?_, by rw [nx2, F.next], fun q hq => ?_, fun j hj hjt X HX => ?_, fun j hj hjt x hx q hq => ?_⟩
    · rw [e0, e2, hw1]
    · rw [v2 q (hq k (by omega)), F.frame q fun j hj => hq j (by omega)]
    · rcases Nat.lt_or_ge j k with hjk | hjk
      · exact forall₂_kept1 (F.on j hjk hjt X HX) (le_of_eq nx2.symm) fun z hz q hq => v2 q fun y hy =>
          TL.apart j k (by omega) hk (by omega) z hz y hy q hq
      · have : j = k := by omega
        subst this
        exact on2 hjt X (forall₂_kept1 HX (le_of_eq F.next.symm) fun z hz q hq => F.frame q fun i hi y hy =>
          TL.new j i hk (by omega) z hz y hy q hq)
    · rcases Nat.lt_or_ge j k with hjk | hjk
      · rw [v2 q fun y hy => TL.apart j k (by omega) hk (by omega) x hx y hy q hq, F.off j hjk hjt x hx q hq]
      · have : j = k := by omega
        subst this
        rw [off2 hjt]
        exact F.frame q fun i hi y hy => TL.apart j i hk (by omega) (by omega) x hx y hy q hq

theorem nodup_parts {f : Nat → List Mat} {n : Nat} (h : (((List.range n).map f).flatten.flatMap Mat.ops).Nodup) :
    (∀ i < n, ((f i).flatMap Mat.ops).Nodup) ∧ ∀ i j, i < n → j < n → i ≠ j → ∀ x ∈ f i, ∀ y ∈ f j, ∀ q ∈ x.ops, q ∉ y.ops := by
  rw [List.nodup_flatMap, List.pairwise_flatten] at h
  obtain ⟨p1, p2, p3⟩ := h
  have p4 : ∀ i j, i < j → j < n → ∀ x ∈ f i, ∀ y ∈ f j, List.Disjoint x.ops y.ops := fun i j hij hj => by
    rw [List.pairwise_map] at p3
    have := List.pairwise_iff_getElem.1 p3 i j (by simp; omega) (by simp; omega) hij
    simpa using this
  refine ⟨fun i hi => ?_, fun i j hi hj hne x hx y hy q hqx hqy => ?_⟩
  · rw [List.nodup_flatMap]
    exact ⟨fun x hx => p1 x (by simp only [List.mem_flatten, List.mem_map, List.mem_range]; exact ⟨_, ⟨i, hi, rfl⟩, hx⟩),
      p2 _ (by simp only [List.mem_map, List.mem_range]; exact ⟨i, hi, rfl⟩)⟩
  · rcases Nat.lt_or_gt_of_ne hne with h | h
    · exact p4 i j h hj x hx y hy hqx hqy
    · exact p4 j i h hi y hy x hx hqy hqx

section
variable {shape : List Nat} {ls : List (LSpec T)} {m : Nat} {d : CData T} {L : Nat → GLayer} {e : GData T} {w0 w1 wa wb a : World T}

theorem paramShapes_of {s : LSpec T} {x : List Nat} (h : s.weighted = false) : s.paramShapes x = [] := by
  cases s <;> first | rfl | cases h

theorem paramShapes_two {s : LSpec T} {x : List Nat} (h : s.weighted = true) : ∃ u v, s.paramShapes x = [u, v] := by
  cases s <;> first | exact ⟨_, _, rfl⟩ | cases h

theorem GLive.glay (N : GTNet shape ls m d L e w0 w1 wa wb) (A : GLive w0 w1 wa wb m ls.length d e a) :
    GLay ls.length d.b (fun j => (L (j + 1)).ps) e.nps a := by
  have C := A.live.comp N.net.made
  have G := A.at N
  have ht : ∀ k ≤ ls.length, (a.layers (d.b + k)).tr = (wb.layers (d.b + k)).tr := fun k hk =>
    A.lay _ (N.net.made.range hk).1 (N.net.made.range hk).2
  obtain ⟨wx, wy, B, y1, y2, y3, y4, y5, y6⟩ := N.built.bp
  obtain ⟨c1, c2, c3, c4⟩ := N.built.cells
  obtain ⟨l1, l2, l3⟩ := N.built.le
  have hpd := C.pdist
  rw [N.net.ps] at hpd
  obtain ⟨D1, D2⟩ := nodup_parts hpd
  have nb : ∀ k ≤ ls.length, (∃ h : (d.b + k = d.b ∨ ∃ j s, ls[j]? = some s ∧ d.b + k = d.b + 1 + j ∧ s.weighted = false), True) →
      (a.layers (d.b + k)).nBias = none := fun k hk ⟨h, _⟩ => by
    refine (congrArg Layer.nBias (ht k hk) :).trans ?_
    show (wb.layers _).nBias = none
    rw [y4, (B.old _ h).2, y3]
    refine (congrArg Layer.nBias (N.pre.lay _ (N.net.made.range hk).1 (N.net.made.range hk).2) :).trans ?_
    exact (N.net.fresh k hk).2.2
  refine ⟨G.kind0.2.1, ⟨C.wn.1, C.wn.2, nb 0 (Nat.zero_le _) ⟨Or.inl rfl, trivial⟩⟩, fun j hj => (G.lay j _ (List.getElem?_eq_getElem hj)).2.1,
    fun j hj => ?_, D2, fun i j hi hj x hx y hy q hq hq' => ?_⟩
  · obtain ⟨s, hs⟩ : ∃ s, ls[j]? = some s := ⟨_, List.getElem?_eq_getElem hj⟩
    have S := G.step j s hs
    have sp := G.spar j s hs
    have ns := B.nshape j s hj hs
    have hjk : d.b + 1 + j = d.b + (j + 1) := by omega
    constructor
    cases hw : s.weighted with
    | false =>
      rw [paramShapes_of hw] at sp ns
      have e1 : (L (j + 1)).ps = [] := by simpa using sp
      have hp := S.par
      rw [e1] at hp
      have hwn : (a.layers (d.b + 1 + j)).weights = none := by
        cases hx : (a.layers (d.b + 1 + j)).weights with
        | none => rfl
        | some u =>
          cases hy : (a.layers (d.b + 1 + j)).bias with
          | none => rw [← S.both, hx] at hy; cases hy
          | some v => simp [layerParams, hx, hy] at hp
      exact Or.inl ⟨hwn, S.both.1 hwn, by rw [hjk]; exact nb _ hj ⟨Or.inr ⟨j, s, hs, by omega, hw⟩, trivial⟩, e1, by simpa using ns⟩
    | true =>
      right
      obtain ⟨nw, nbb, nwM, nbM, e1, e2, e3, r1, r2⟩ := B.new j s hj hs hw
      have t := ht (j + 1) hj
      rw [← hjk] at t
      obtain ⟨u, v, huv⟩ := paramShapes_two (x := (L j).oM.shape) hw
      rw [huv] at sp ns
      rw [e1] at ns
      have hp := S.par
      have xy : Ext wy a := y6.ext.trans A.ext
      cases hx : (a.layers (d.b + 1 + j)).weights with
      | none =>
        have hy := S.both.1 hx
        simp only [layerParams, hx, hy] at hp
        rw [← hp] at sp; cases sp
      | some wn =>
        cases hy : (a.layers (d.b + 1 + j)).bias with
        | none => rw [← S.both, hx] at hy; cases hy
        | some bn =>
          simp only [layerParams, hx, hy] at hp
          obtain ⟨wM, rw1, nd1⟩ := S.pready wn (Or.inl hx)
          obtain ⟨bM, rb1, nd2⟩ := S.pready bn (Or.inr hy)
          rw [rw1.mat, rb1.mat] at hp
          rw [← hp] at sp
          simp only [List.map_cons, List.map_nil, List.cons.injEq, and_true] at sp ns
          refine ⟨wn, bn, nw, nbb, wM, bM, nwM, nbM, rfl, rfl, (congrArg Layer.nWeights t :).trans ?_, (congrArg Layer.nBias t :).trans ?_, hp.symm, e1, rw1, rb1,
            r1.ext xy, r2.ext xy, nd1, nd2, by rw [ns.1, sp.1], by rw [ns.2, sp.2], fun q hq hq' => ?_⟩
          · show (wb.layers _).nWeights = _; rw [y4, e2]
          · show (wb.layers _).nBias = _; rw [y4, e3]
          · have := D1 j hj
            rw [← hp] at this
            simp only [List.flatMap_cons, List.flatMap_nil, List.append_nil] at this
            exact (List.nodup_append.1 this).2.2 q hq q hq' rfl
  · have h1 := (B.nreg i hi x hx q hq).1
    have h2 := (N.par_not (N.mem_ps hj) hy hq').2.2.1
    omega

end
end Godeep
