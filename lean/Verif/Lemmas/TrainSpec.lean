import Verif.Lemmas.TrainExec
/-
  A training step computes `trainStep`.
-/
set_option linter.unusedSectionVars false

namespace Godeep
open Spec GoNum

variable {T : Type} [GoNum T]

theorem inRange_one {n : Nat} {idx : List Nat} (h : InRange [n] idx) : ∃ i, i < n ∧ idx = [i] := by
  obtain ⟨i, r, rfl, h1, h2⟩ := inRange_cons_left h
  rw [inRange_nil_left] at h2
  subst h2
  exact ⟨i, h1, rfl⟩

theorem inRange_two {n m : Nat} {idx : List Nat} (h : InRange [n, m] idx) : ∃ i j, i < n ∧ j < m ∧ idx = [i, j] := by
  obtain ⟨i, r, rfl, h1, h2⟩ := inRange_cons_left h
  obtain ⟨j, h3, rfl⟩ := inRange_one h2
  exact ⟨i, j, h1, h3, rfl⟩

theorem DSet.shapes {ds : List (Nat × Activation T)} {m0 : Mat} {lo hi : Nat} {L : Nat → DLayer} (S : DSet ds m0 lo hi L)
    {k : Nat} (hk : k ≤ ds.length) : (L k).dM.shape = (L k).oM.shape ∧ (L k).nM.shape = (L k).oM.shape := by
  rcases Nat.eq_zero_or_pos k with h | h
  · subst h
    obtain ⟨a, b, c⟩ := S.first
    rw [a, b, c]; exact ⟨rfl, rfl⟩
  · obtain ⟨j, rfl⟩ : ∃ j, k = j + 1 := ⟨k - 1, by omega⟩
    have := S.one j _ (List.getElem?_eq_getElem (by omega))
    rw [this.sd, this.sn, this.so]; exact ⟨rfl, rfl⟩

/-- the parameters of the layers from `k` on -/
def parsFrom (L : Nat → DLayer) (k n : Nat) : List (List Mat) := (List.range' k n).map fun j => [(L (j + 1)).wM, (L (j + 1)).bM]

section
variable {ds : List (Nat × Activation T)} {b : Nat} {L : Nat → DLayer} {acts : Nat → Activation T} {m0 : Mat} {lo hi : Nat}
    {ff : List (Op T)} {d : TData T} {base top : Nat}

theorem preact_spec (S : TStat ds b L acts m0 lo hi ff d base top) {k : Nat} {e : Nat × Activation T}
    (hk : ds[k]? = some e) {h : Heap T} {x W B : STensor T} (hx : Holds h (L k).oM x) (hw : Holds h (L (k + 1)).wM W)
    (hb : Holds h (L (k + 1)).bM B) {i : Nat} (hi : i < e.1) :
    preact (L k).oM (L (k + 1)).wM (L (k + 1)).bM (size (L k).oM.shape) h.val i = (denseFn id W B x).get [i] := by
  have O := S.set.one k e hk
  unfold preact
  rw [holds_cell hb (inRange1 O.sb hi), hx.shape]
  show _ = sum1 _
  congr 2
  apply List.map_congr_left
  intro j hj
  rw [List.mem_range, ← hx.shape] at hj
  rw [holds_cell hw (inRange2 O.sw hi hj), ← cell_unflat hj, holds_cell hx (unflat_inRange hj), hx.shape]
  rfl

theorem holds_good {h : Heap T} {m : Mat} {t : STensor T} (H : Holds h m t) : GoodMat h m := ⟨H.mul, H.len, H.valid⟩

theorem getD_cell {h : Heap T} {m : Mat} {t : STensor T} (H : Holds h m t) {j : Nat} (hj : j < size m.shape) :
    h.val (m.ops.getD j 0) = t.get (unflat t.shape j) := by
  rw [← cell_unflat hj, holds_cell H (unflat_inRange hj), H.shape]

theorem TRes.spec (S : TStat ds b L acts m0 lo hi ff d base top) {w : World T} (R : DReady ds L w) (TL : TLay ds b L d w)
    (hact : ∀ k e, ds[k]? = some e → acts (k + 1) = e.2) {h0 h2 h3 : Heap T}
    (V : TRes ds L acts m0 ff d h0 h2 h3 w.store.heap) {h' : Heap T} (F : FitDone ds b L d.P ds.length w h') {y : STensor T}
    (hy : Holds w.store.heap d.tM y) : ∀ n k, k + n = ds.length → ∀ x z pv, Holds w.store.heap (L k).oM x → Holds w.store.heap (L k).nM z →
      List.Forall₂ (List.Forall₂ (Holds w.store.heap)) (parsFrom L k n) pv → ∀ r, r = trainNet (w.store.heap.val d.alpha) (w.store.heap.val d.momentum) y
        ((ds.drop k).map Prod.snd) ((List.range' k n).map fun j => (w.layers (b + 1 + j)).trainable) pv x z (acts k).derive →
      Holds w.store.heap (L k).dM r.2 ∧ List.Forall₂ (List.Forall₂ (Holds h')) (parsFrom L k n) r.1 := by
  intro n
  induction n with
  | zero =>
    intro k hk x z pv hx hz hp r hr
    have hk : k = ds.length := by omega
    subst hk
    have e1 : r = ([], ⟨x.shape, fun idx => GoNum.sub (y.get idx) (x.get idx)⟩) := by
      rw [hr]
      simp [trainNet]
    rw [e1]
    have hs := (S.set.shapes (le_refl ds.length)).1
    refine ⟨holds_of_cell (R.dif _ (le_refl _)).1.good (hs.trans hx.shape) fun idx hi => ?_, .nil⟩
    rw [hs] at hi
    have hlt := offset_lt hi
    have := V.err _ hlt
    unfold cell
    rw [hs, this]
    show _ = GoNum.sub _ _
    rw [← holds_cell hx hi, ← holds_cell hy (by rw [S.tshape]; exact hi)]
    unfold cell
    rw [S.tshape]
  | succ n ih =>
    intro k hk x z pv hx hz hp r hr
    have hkl : k < ds.length := by omega
    obtain ⟨e, he⟩ : ∃ e, ds[k]? = some e := ⟨_, List.getElem?_eq_getElem hkl⟩
    have O := S.set.one k e he
    have hdrop : ds.drop k = e :: ds.drop (k + 1) := by
      rw [List.drop_eq_getElem_cons hkl]
      rw [List.getElem?_eq_getElem hkl] at he
      cases he; rfl
    have hpf : parsFrom L k (n + 1) = [(L (k + 1)).wM, (L (k + 1)).bM] :: parsFrom L (k + 1) n := rfl
    rw [hpf] at hp ⊢
    cases hp with
    | @cons _ p0 _ pv' hp1 hp2 =>
    obtain ⟨W, B, rfl, hW, hB⟩ : ∃ W B, p0 = [W, B] ∧ Holds w.store.heap (L (k + 1)).wM W ∧ Holds w.store.heap (L (k + 1)).bM B := by
      cases hp1 with
      | cons h1 h2 =>
        cases h2 with
        | cons h3 h4 =>
          cases h4
          exact ⟨_, _, rfl, h1, h3⟩
    obtain ⟨z1, hz1⟩ : ∃ z1, z1 = denseFn id W B x := ⟨_, rfl⟩
    obtain ⟨r1, hr1⟩ : ∃ r1, r1 = trainNet (w.store.heap.val d.alpha) (w.store.heap.val d.momentum) y
        ((ds.drop (k + 1)).map Prod.snd) ((List.range' (k + 1) n).map fun j => (w.layers (b + 1 + j)).trainable) pv'
        (z1.map e.2.activate) z1 e.2.derive := ⟨_, rfl⟩
    have er : r = ((if (w.layers (b + 1 + k)).trainable = true then [newWeights (w.store.heap.val d.alpha) (w.store.heap.val d.momentum) r1.2 x W,
        newBias (w.store.heap.val d.alpha) (w.store.heap.val d.momentum) r1.2 B] else [W, B]) :: r1.1, backError (acts k).derive W r1.2 z) := by
      rw [hr, hdrop, hr1, hz1]
      rfl
    -- the next layer
    have Z1 : Holds w.store.heap (L (k + 1)).nM z1 := by
      refine holds_of_cell (R.neta (k + 1) hkl).good (by rw [O.sn, hz1]; show _ = B.shape; rw [← hB.shape, O.sb]) fun idx hi => ?_
      rw [O.sn] at hi
      obtain ⟨i, h1, rfl⟩ := inRange_one hi
      rw [(V.eqs k e he i h1).1, preact_spec S he hx hW hB h1, hz1]
    have X1 : Holds w.store.heap (L (k + 1)).oM (z1.map e.2.activate) := by
      refine holds_of_cell (R.out (k + 1) hkl).good (by rw [O.so, ← O.sn]; exact Z1.shape) fun idx hi => ?_
      rw [O.so] at hi
      obtain ⟨i, h1, rfl⟩ := inRange_one hi
      rw [(V.eqs k e he i h1).2, holds_cell Z1 (inRange1 O.sn h1)]
      rfl
    have IH := ih (k + 1) (by omega) (z1.map e.2.activate) z1 pv' X1 Z1 hp2 r1 (by rw [hr1, hact k e he])
    obtain ⟨D1, F1⟩ := IH
    obtain ⟨b1, b2, b3⟩ := V.back k e hkl he
    have hs := S.set.shapes (k := k) (by omega)
    have hrs : r1.2.shape = [e.1] := by rw [← D1.shape, O.sd]
    rw [er]
    refine ⟨holds_of_cell (R.dif k (by omega)).1.good ?_ fun idx hi => ?_, .cons ?_ F1⟩
    · show _ = z.shape
      rw [hs.1, ← hs.2]; exact hz.shape
    · have hio : InRange (L k).oM.shape idx := by rw [← hs.1]; exact hi
      have hin : InRange (L k).nM.shape idx := by rw [hs.2]; exact hio
      have hlt := offset_lt hio
      have hb := b1 _ hlt
      show w.store.heap.val ((L k).dM.ops.getD (offset (L k).dM.shape idx) 0) = GoNum.add zero (GoNum.mul _ _)
      rw [hs.1, hb, hrs]
      have en : w.store.heap.val ((L k).nM.ops.getD (offset (L k).oM.shape idx) 0) = z.get idx := by
        rw [← holds_cell hz hin]
        unfold cell
        rw [hs.2]
      rw [en]
      congr 3
      simp only [List.getD_cons_zero]
      refine List.map_congr_left fun o ho => ?_
      rw [List.mem_range] at ho
      rw [holds_cell D1 (inRange1 O.sd ho), holds_cell hW (inRange2 O.sw ho hlt), ← hz.shape, hs.2]
    · obtain ⟨N1, N2⟩ := TL.new k hkl
      obtain ⟨n1, n2, _, _⟩ := S.new hkl
      split_ifs with ht
      · have HW : Holds w.store.heap (d.P (k + 1)).nwM (newWeights (w.store.heap.val d.alpha) (w.store.heap.val d.momentum) r1.2 x W) := by
          refine holds_of_cell N1.good (n1.trans hW.shape) fun idx hi => ?_
          rw [n1, O.sw] at hi
          obtain ⟨i, j, h1, h2, rfl⟩ := inRange_two hi
          rw [b3 i j h1 h2, holds_cell hW (inRange2 O.sw h1 h2), holds_cell D1 (inRange1 O.sd h1), getD_cell hx h2]
          rfl
        have HB : Holds w.store.heap (d.P (k + 1)).nbM (newBias (w.store.heap.val d.alpha) (w.store.heap.val d.momentum) r1.2 B) := by
          refine holds_of_cell N2.good (n2.trans hB.shape) fun idx hi => ?_
          rw [n2, O.sb] at hi
          obtain ⟨i, h1, rfl⟩ := inRange_one hi
          rw [b2 i h1, holds_cell hB (inRange1 O.sb h1), holds_cell D1 (inRange1 O.sd h1)]
          rfl
        obtain ⟨g1, g2⟩ := F.on k hkl ht _ _ HW HB
        exact .cons g1 (.cons g2 .nil)
      · have ht' : (w.layers (b + 1 + k)).trainable = false := by simpa using ht
        exact .cons (hW.kept (le_of_eq F.next.symm) fun q hq => F.off k hkl ht' q (Or.inl hq))
          (.cons (hB.kept (le_of_eq F.next.symm) fun q hq => F.off k hkl ht' q (Or.inr hq)) .nil)

/-- the output and the loss -/
theorem TRes.out (S : TStat ds b L acts m0 lo hi ff d base top) {w : World T} (R : DReady ds L w) {h0 h2 h3 : Heap T}
    (V : TRes ds L acts m0 ff d h0 h2 h3 w.store.heap) : ∀ n k, k + n = ds.length → ∀ x pv, Holds w.store.heap (L k).oM x →
      List.Forall₂ (List.Forall₂ (Holds w.store.heap)) (parsFrom L k n) pv →
      Holds w.store.heap (L ds.length).oM (netFn ((ds.drop k).map dl) pv x) := by
  intro n
  induction n with
  | zero =>
    intro k hk x pv hx hp
    have hk : k = ds.length := by omega
    subst hk
    simpa [netFn] using hx
  | succ n ih =>
    intro k hk x pv hx hp
    have hkl : k < ds.length := by omega
    obtain ⟨e, he⟩ : ∃ e, ds[k]? = some e := ⟨_, List.getElem?_eq_getElem hkl⟩
    have O := S.set.one k e he
    have hdrop : ds.drop k = e :: ds.drop (k + 1) := by
      rw [List.drop_eq_getElem_cons hkl]
      rw [List.getElem?_eq_getElem hkl] at he
      cases he; rfl
    have hpf : parsFrom L k (n + 1) = [(L (k + 1)).wM, (L (k + 1)).bM] :: parsFrom L (k + 1) n := rfl
    rw [hpf] at hp
    cases hp with
    | @cons _ p0 _ pv' hp1 hp2 =>
    obtain ⟨W, B, rfl, hW, hB⟩ : ∃ W B, p0 = [W, B] ∧ Holds w.store.heap (L (k + 1)).wM W ∧ Holds w.store.heap (L (k + 1)).bM B := by
      cases hp1 with
      | cons h1 h2 =>
        cases h2 with
        | cons h3 h4 =>
          cases h4
          exact ⟨_, _, rfl, h1, h3⟩
    rw [hdrop]
    refine ih (k + 1) (by omega) _ pv' ?_ hp2
    refine holds_of_cell (R.out (k + 1) hkl).good (by rw [O.so]; show _ = B.shape; rw [← hB.shape, O.sb]) fun idx hi => ?_
    rw [O.so] at hi
    obtain ⟨i, h1, rfl⟩ := inRange_one hi
    rw [(V.eqs k e he i h1).2, (V.eqs k e he i h1).1, preact_spec S he hx hW hB h1]
    rfl

end
end Godeep
