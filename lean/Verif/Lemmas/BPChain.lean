import Verif.Lemmas.TrainFF
import Verif.Lemmas.Predict
/-
  `BuildBackpropagation` of a network of dense layers.
-/
set_option linter.unusedSectionVars false

namespace Godeep
open Spec GoNum

variable {T : Type} [GoNum T]

/-- the layers `b`, `b + 1`, ... of `w` are a compiled network of dense layers -/
structure DAt (ds : List (Nat × Activation T)) (b : Nat) (L : Nat → DLayer) (acts : Nat → Activation T) (w : World T) : Prop where
  ready : DReady ds L w
  kind0 : (w.layers b).kind = .input ∧ (w.layers b).pre = none
  par0 : (w.layers b).weights = none ∧ (w.layers b).bias = none
  neta0 : (w.layers b).neta = some (L 0).neta
  dif0 : (w.layers b).dif = some (L 0).dif
  act : ∀ k ≤ ds.length, (w.layers (b + k)).act = acts k
  lay : ∀ k, k < ds.length → (w.layers (b + 1 + k)).kind = .dense ∧ (w.layers (b + 1 + k)).pre = some (b + k) ∧
    (w.layers (b + 1 + k)).input = some (L k).out ∧ (w.layers (b + 1 + k)).output = some (L (k + 1)).out ∧
    (w.layers (b + 1 + k)).neta = some (L (k + 1)).neta ∧ (w.layers (b + 1 + k)).dif = some (L (k + 1)).dif ∧
    (w.layers (b + 1 + k)).weights = some (L (k + 1)).wn ∧ (w.layers (b + 1 + k)).bias = some (L (k + 1)).bn
  ref : ∀ k ≤ ds.length, 0 < (w.layers (b + k)).ref ∧ (w.layers (b + k)).ref < w.store.heap.next ∧
    eq (w.store.heap.val (w.layers (b + k)).ref) zero = false ∧ lt one (w.store.heap.val (w.layers (b + k)).ref) = false

theorem DReady.ext {ds : List (Nat × Activation T)} {L : Nat → DLayer} {w w' : World T} (R : DReady ds L w) (g : Ext w w') : DReady ds L w' :=
  ⟨fun k hk => (R.out k hk).ext g, fun k hk => (R.neta k hk).ext g,
    fun k hk => ⟨(R.dif k hk).1.ext g, by rw [g.kind _ (R.dif k hk).1.lt, (R.dif k hk).2]⟩,
    fun k hk => (R.wn k hk).ext g, fun k hk => (R.bn k hk).ext g⟩

theorem DAt.later {ds : List (Nat × Activation T)} {b : Nat} {L : Nat → DLayer} {acts : Nat → Activation T} {w w' : World T}
    (D : DAt ds b L acts w) (g : Ext w w') (hl : ∀ k ≤ ds.length, (w'.layers (b + k)).fwd = (w.layers (b + k)).fwd)
    (hv : ∀ k ≤ ds.length, w'.store.heap.val (w.layers (b + k)).ref = w.store.heap.val (w.layers (b + k)).ref) :
    DAt ds b L acts w' := by
  have e0 := Layer.fwd_eq (hl 0 (Nat.zero_le _))
  rw [Nat.add_zero] at e0
  refine ⟨D.ready.ext g, ⟨by rw [e0.1]; exact D.kind0.1, by rw [e0.2.1]; exact D.kind0.2⟩,
    ⟨by rw [e0.2.2.1]; exact D.par0.1, by rw [e0.2.2.2.1]; exact D.par0.2⟩,
    by rw [e0.2.2.2.2.2.1]; exact D.neta0, by rw [e0.2.2.2.2.2.2.2.1]; exact D.dif0, fun k hk => ?_, fun k hk => ?_, fun k hk => ?_⟩
  · rw [(Layer.fwd_eq (hl k hk)).2.2.2.2.2.2.2.2.2.1]; exact D.act k hk
  · have e := hl (k + 1) (by omega)
    rw [show b + (k + 1) = b + 1 + k by omega] at e
    obtain ⟨i1, i2, i3, i4, i5, i6, i7, i8, i9, i10, i11, i12⟩ := Layer.fwd_eq e
    rw [i1, i2, i3, i4, i5, i6, i7, i8]
    exact D.lay k hk
  · rw [(Layer.fwd_eq (hl k hk)).2.2.2.2.2.2.2.2.1, hv k hk]
    obtain ⟨r1, r2, r3⟩ := D.ref k hk
    exact ⟨r1, lt_of_lt_of_le r2 g.next, r3⟩

/-- the tensors that `BuildBackpropagation` makes for one layer: new weights, new bias -/
structure NLayer where
  nw : Nat
  nb : Nat
  nwM : Mat
  nbM : Mat

/-- what the back-propagation operations compute for the layers up to `k`: `v0` are the values before,
`v` the values after -/
def BEqs (ds : List (Nat × Activation T)) (L : Nat → DLayer) (P : Nat → NLayer) (acts : Nat → Activation T) (alpha momentum : Ptr)
    (k : Nat) (v0 v : Ptr → T) : Prop :=
  ∀ j d, j < k → ds[j]? = some d →
    (∀ i, i < size (L j).oM.shape → v ((L j).dM.ops.getD i 0) = GoNum.add (v0 ((L j).dM.ops.getD i 0)) (GoNum.mul
      (sum1 ((List.range d.1).map fun o => GoNum.mul (v (cell (L (j + 1)).dM [o])) (v (cell (L (j + 1)).wM [o, i]))))
      ((acts j).derive (v ((L j).nM.ops.getD i 0))))) ∧
    (∀ i, i < d.1 → v (cell (P (j + 1)).nbM [i]) = sum1 [v (cell (L (j + 1)).bM [i]), GoNum.mul zero (v momentum),
      GoNum.mul (v (cell (L (j + 1)).dM [i])) (v alpha)]) ∧
    (∀ i o, i < d.1 → o < size (L j).oM.shape → v (cell (P (j + 1)).nwM [i, o]) = sum1 [v (cell (L (j + 1)).wM [i, o]),
      GoNum.mul zero (v momentum),
      GoNum.mul (GoNum.mul (v (cell (L (j + 1)).dM [i])) (v alpha)) (v ((L j).oM.ops.getD o 0))])

/-- building the back-propagation part of the layers up to `k` -/
structure BPDone (ds : List (Nat × Activation T)) (b : Nat) (L : Nat → DLayer) (acts : Nat → Activation T) (alpha momentum : Ptr)
    (k : Nat) (new : List (Op T)) (P : Nat → NLayer) (w w' : World T) : Prop where
  lay : Lay (fun l => b ≤ l ∧ l ≤ b + k) new w w'
  fwd : ∀ l, (w'.layers l).fwd = (w.layers l).fwd
  train : ∀ l, (w'.layers l).trainable = (w.layers l).trainable
  nb0 : (w'.layers b).nBias = (w.layers b).nBias ∧ (w'.layers b).nWeights = (w.layers b).nWeights
  nw : ∀ j, j < k → (w'.layers (b + 1 + j)).nWeights = some (P (j + 1)).nw ∧ (w'.layers (b + 1 + j)).nBias = some (P (j + 1)).nb
  ready : ∀ j, j < k → Ready w' (P (j + 1)).nw (P (j + 1)).nwM ∧ Ready w' (P (j + 1)).nb (P (j + 1)).nbM
  shape : ∀ j d, j < k → ds[j]? = some d → (P (j + 1)).nwM.shape = [d.1, size (L j).oM.shape] ∧ (P (j + 1)).nbM.shape = [d.1]
  reg : ∀ j, j < k → (∀ q ∈ (P (j + 1)).nwM.ops, w.store.heap.next ≤ q ∧ q < w'.store.heap.next) ∧
    ∀ q ∈ (P (j + 1)).nbM.ops, w.store.heap.next ≤ q ∧ q < w'.store.heap.next
  blk : Blk w.store.heap.next w'.store.heap.next (fun q => ∃ j, j < k ∧ q ∈ (L j).dM.ops) (· < w.store.heap.next) new
  fine : ∀ o ∈ new, Fine o
  eqs : ∀ h h', Sat1 new h h' → (∀ q, w.store.heap.next ≤ q → q < w'.store.heap.next → q ∉ dsts new → h'.val q = zero) →
    BEqs ds L P acts alpha momentum k h.val h'.val

theorem DSet.sizes {ds : List (Nat × Activation T)} {m0 : Mat} {lo hi : Nat} {L : Nat → DLayer} (S : DSet ds m0 lo hi L)
    {k : Nat} (hk : k ≤ ds.length) : size (L k).dM.shape = size (L k).oM.shape ∧ size (L k).nM.shape = size (L k).oM.shape := by
  rcases Nat.eq_zero_or_pos k with h | h
  · subst h
    obtain ⟨a, b, c⟩ := S.first
    rw [a, b, c]; exact ⟨rfl, rfl⟩
  · obtain ⟨j, rfl⟩ : ∃ j, k = j + 1 := ⟨k - 1, by omega⟩
    have := S.one j _ (List.getElem?_eq_getElem (by omega))
    rw [this.sd, this.sn, this.so]; exact ⟨rfl, rfl⟩

theorem DSet.oreg {ds : List (Nat × Activation T)} {m0 : Mat} {lo hi : Nat} {L : Nat → DLayer} (S : DSet ds m0 lo hi L)
    {k : Nat} (hk : k ≤ ds.length) : ∀ q ∈ (L k).oM.ops, q < lo := by
  rcases Nat.eq_zero_or_pos k with h | h
  · subst h
    rw [S.first.1]; exact S.low0
  · obtain ⟨j, rfl⟩ : ∃ j, k = j + 1 := ⟨k - 1, by omega⟩
    exact (S.one j _ (List.getElem?_eq_getElem (by omega))).oreg

theorem DSet.dlow {ds : List (Nat × Activation T)} {m0 : Mat} {lo hi : Nat} {L : Nat → DLayer} (S : DSet ds m0 lo hi L)
    {k : Nat} (hk : k ≤ ds.length) {q : Ptr} (hq : q ∈ (L k).dM.ops) : lo ≤ q ∧ q < hi := by
  have I := S.all k hk
  have := I.dreg q hq
  have := I.ge
  have := I.le
  omega

/-- the errors of a layer share no scalar with anything else -/
theorem DSet.dsep {ds : List (Nat × Activation T)} {m0 : Mat} {lo hi : Nat} {L : Nat → DLayer} (S : DSet ds m0 lo hi L)
    {j : Nat} (hj : j ≤ ds.length) {q : Ptr} (hq : q ∈ (L j).dM.ops) :
    (∀ k, k ≤ ds.length → k ≠ j → q ∉ (L k).dM.ops) ∧ (∀ k, k < ds.length → q ∉ (L (k + 1)).wM.ops ∧ q ∉ (L (k + 1)).bM.ops) ∧
    (∀ k, k ≤ ds.length → q ∉ (L k).oM.ops ∧ q ∉ (L k).nM.ops) := by
  have hr := (S.all j hj).dreg q hq
  have hl := S.dlow hj hq
  refine ⟨fun k hk hkj h => S.ne hj hk (Ne.symm hkj) hr ((S.all k hk).dreg q h), fun k hk => ?_, fun k hk => ⟨fun h => ?_, fun h => ?_⟩⟩
  · have O := S.one k _ (List.getElem?_eq_getElem hk)
    by_cases hkj : k + 1 = j
    · subst hkj; exact ⟨(O.dx q hq).1, (O.dx q hq).2.1⟩
    · exact ⟨fun h => S.ne hj (by omega) (Ne.symm hkj) hr (O.wreg q h), fun h => S.ne hj (by omega) (Ne.symm hkj) hr (O.breg q h)⟩
  · have := S.oreg hk q h; omega
  · rcases Nat.eq_zero_or_pos k with h0 | h0
    · subst h0
      rw [S.first.2.1] at h
      have := S.low0 q h; omega
    · obtain ⟨i, rfl⟩ : ∃ i, k = i + 1 := ⟨k - 1, by omega⟩
      have O := S.one i _ (List.getElem?_eq_getElem (by omega))
      by_cases hkj : i + 1 = j
      · subst hkj; exact (O.dx q hq).2.2 h
      · exact S.ne hj (by omega) (Ne.symm hkj) hr (O.nreg q h)

/-- a dense layer of the network is as `denseBP_ok` needs it -/
theorem DAt.bpIn {ds : List (Nat × Activation T)} {b : Nat} {L : Nat → DLayer} {acts : Nat → Activation T} {w : World T}
    {m0 : Mat} {lo hi k : Nat} (D : DAt ds b L acts w) (S : DSet ds m0 lo hi L) (hpos : ∀ d ∈ ds, 0 < d.1) (hk : k < ds.length)
    (hder : (w.layers (b + k)).der = none) :
    BPIn w (b + 1 + k) (b + k) (ds[k]).1 (size (L k).oM.shape) (L k).out (L (k + 1)).out (L (k + 1)).wn (L (k + 1)).bn (L (k + 1)).dif
      (L k).dif (L k).neta (L k).oM (L (k + 1)).oM (L (k + 1)).wM (L (k + 1)).bM (L (k + 1)).dM (L k).dM (L k).nM := by
  obtain ⟨l1, l2, l3, l4, l5, l6, l7, l8⟩ := D.lay k hk
  obtain ⟨r1, r2, r3, r4⟩ := D.ref (k + 1) (by omega)
  rw [show b + (k + 1) = b + 1 + k by omega] at r1 r2 r3 r4
  have O := S.one k _ (List.getElem?_eq_getElem hk)
  obtain ⟨z1, z2⟩ := S.sizes (k := k) (by omega)
  have hp : ((w.layers (b + k)).kind = .dense ∨ ((w.layers (b + k)).kind = .input ∧ (w.layers (b + k)).pre = none)) ∧
      (w.layers (b + k)).neta = some (L k).neta ∧ (w.layers (b + k)).dif = some (L k).dif := by
    rcases Nat.eq_zero_or_pos k with h | h
    · subst h
      exact ⟨Or.inr D.kind0, D.neta0, D.dif0⟩
    · obtain ⟨j, rfl⟩ : ∃ j, k = j + 1 := ⟨k - 1, by omega⟩
      obtain ⟨a1, _, _, _, a5, a6, _, _⟩ := D.lay j (by omega)
      rw [show b + (j + 1) = b + 1 + j by omega]
      exact ⟨Or.inl a1, a5, a6⟩
  have hd : ds[k] ∈ ds := List.getElem_mem hk
  refine ⟨by omega, hpos _ hd, l2, l3, l4, l7, l8, l6, ⟨r1, r2⟩, r4, hp.1, hder, hp.2.1, hp.2.2, D.ready.out k (by omega),
    D.ready.out (k + 1) (by omega), D.ready.wn k hk, D.ready.bn k hk, (D.ready.dif (k + 1) (by omega)).1, (D.ready.dif k (by omega)).1,
    D.ready.neta k (by omega), O.so, O.sw, O.sb, O.sd, rfl, z1, z2, (S.all k (by omega)).ndd, fun q hq => ?_⟩
  obtain ⟨s1, s2, s3⟩ := S.dsep (j := k) (by omega) hq
  exact ⟨s1 (k + 1) (by omega) (by omega), (s2 k hk).1, (s2 k hk).2, (s3 k (by omega)).1, (s3 k (by omega)).2⟩

theorem backProp_unfold {alpha momentum : Ptr} {f l : Nat} {w : World T} (hbp : (w.layers l).bp = false)
    (hk : (w.layers l).kind = .dense) {p : Nat} (hp : (w.layers l).pre = some p) (hr : 0 < (w.layers l).ref)
    (hv : eq (w.store.heap.val (w.layers l).ref) zero = false) :
    LayerM.backProp alpha momentum (f + 1) l w = ((do
      LayerM.denseBP f l alpha momentum
      LayerM.backProp alpha momentum f p : Run T Unit)) (updL l (fun x => { x with bp := true }) w) := by
  conv_lhs => unfold LayerM.backProp
  show ((if (w.layers l).bp then pure () else _ : Run T Unit)) w = _
  rw [hbp]
  show (Run.value (w.layers l).ref w).bind _ = _
  rw [value_ok hr]
  show (if eq (w.store.heap.val (w.layers l).ref) zero then _ else _ : Run T Unit) w = _
  rw [hv, hk, hp]
  rfl

theorem backProp_input {alpha momentum : Ptr} {f l : Nat} {w : World T} (hbp : (w.layers l).bp = false)
    (hk : (w.layers l).kind = .input) (hp : (w.layers l).pre = none) (hr : 0 < (w.layers l).ref)
    (hv : eq (w.store.heap.val (w.layers l).ref) zero = false) :
    LayerM.backProp alpha momentum (f + 1) l w = .ok () (updL l (fun x => { x with bp := true }) w) := by
  conv_lhs => unfold LayerM.backProp
  show ((if (w.layers l).bp then pure () else _ : Run T Unit)) w = _
  rw [hbp]
  show (Run.value (w.layers l).ref w).bind _ = _
  rw [value_ok hr]
  show (if eq (w.store.heap.val (w.layers l).ref) zero then _ else _ : Run T Unit) w = _
  rw [hv, hk, hp]
  rfl

theorem lay_updL {L : Nat → Prop} {l : Nat} (hl : L l) (f : Layer T → Layer T) (w : World T) : Lay L [] w (updL l f w) :=
  lay_modify hl f w

/-- one more layer -/
theorem BPDone.cons {ds : List (Nat × Activation T)} {b : Nat} {L : Nat → DLayer} {acts : Nat → Activation T} {alpha momentum : Ptr}
    {m0 : Mat} {lo hi k : Nat} {new1 new2 : List (Op T)} {P : Nat → NLayer} {X : NLayer} {w w1 w2 : World T}
    (S : DSet ds m0 lo hi L) (hlo : hi ≤ w.store.heap.next) (hk : k < ds.length)
    (hin : ∀ q ∈ (L (k+1)).dM.ops ++ (L (k+1)).wM.ops ++ (L (k+1)).bM.ops ++ (L k).oM.ops ++ (L k).nM.ops ++ (L k).dM.ops, q < w.store.heap.next)
    (ha : alpha < w.store.heap.next ∧ ∀ j ≤ ds.length, alpha ∉ (L j).dM.ops)
    (hm : momentum < w.store.heap.next ∧ ∀ j ≤ ds.length, momentum ∉ (L j).dM.ops)
    (y1 : Lay (fun l => b ≤ l ∧ l ≤ b + (k + 1)) new1 w w1)
    (f1 : ∀ l, (w1.layers l).fwd = (w.layers l).fwd) (t1 : ∀ l, (w1.layers l).trainable = (w.layers l).trainable)
    (n0 : (w1.layers b).nBias = (w.layers b).nBias ∧ (w1.layers b).nWeights = (w.layers b).nWeights)
    (n1 : (w1.layers (b + 1 + k)).nWeights = some X.nw ∧ (w1.layers (b + 1 + k)).nBias = some X.nb)
    (r1 : Ready w1 X.nw X.nwM ∧ Ready w1 X.nb X.nbM)
    (s1 : X.nwM.shape = [(ds[k]).1, size (L k).oM.shape] ∧ X.nbM.shape = [(ds[k]).1])
    (N1 : BPNew (ds[k]).1 (size (L k).oM.shape) (L (k+1)).dM (L (k+1)).wM (L (k+1)).bM (L k).oM (L k).nM (L k).dM (acts k).derive
      alpha momentum w.store.heap.next w1.store.heap.next new1 X.nwM X.nbM)
    (B : BPDone ds b L acts alpha momentum k new2 P w1 w2) :
    BPDone ds b L acts alpha momentum (k + 1) (new1 ++ new2) (Function.update P (k + 1) X) w w2 := by
  have e : ∀ j, j < k → Function.update P (k + 1) X (j + 1) = P (j + 1) := fun j hj => Function.update_of_ne (by omega) _ _
  have en : Function.update P (k + 1) X (k + 1) = X := Function.update_self ..
  have b1 : w.store.heap.next ≤ w1.store.heap.next := y1.grow.next
  have b2 : w1.store.heap.next ≤ w2.store.heap.next := B.lay.grow.next
  have lk : w2.layers (b + 1 + k) = w1.layers (b + 1 + k) := B.lay.grow.layers _ (by omega)
  refine ⟨y1.trans (B.lay.weaken fun l hl => by omega), fun l => by rw [B.fwd, f1], fun l => by rw [B.train, t1],
    ⟨by rw [B.nb0.1, n0.1], by rw [B.nb0.2, n0.2]⟩, fun j hj => ?_, fun j hj => ?_, fun j d hj hd => ?_, fun j hj => ?_, ?_, fun o ho => ?_, ?_⟩
  · rcases Nat.lt_or_ge j k with h | h
    · rw [e j h]; exact B.nw j h
    · have : j = k := by omega
      subst this; rw [en, lk]; exact n1
  · rcases Nat.lt_or_ge j k with h | h
    · rw [e j h]; exact B.ready j h
    · have : j = k := by omega
      subst this; rw [en]; exact ⟨r1.1.grow B.lay.grow, r1.2.grow B.lay.grow⟩
  · rcases Nat.lt_or_ge j k with h | h
    · rw [e j h]; exact B.shape j d h hd
    · have : j = k := by omega
      subst this
      rw [List.getElem?_eq_getElem hk] at hd
      cases hd
      rw [en]; exact s1
  · rcases Nat.lt_or_ge j k with h | h
    · rw [e j h]
      obtain ⟨g1, g2⟩ := B.reg j h
      exact ⟨fun q hq => by have := g1 q hq; omega, fun q hq => by have := g2 q hq; omega⟩
    · have : j = k := by omega
      subst this; rw [en]
      exact ⟨fun q hq => by have := N1.nw q hq; omega, fun q hq => by have := N1.nb q hq; omega⟩
  · refine N1.blk.append B.blk b1 b2 (fun q hq => ?_) ?_ ?_ ?_ ?_ ?_ ?_
    · have := S.dlow (k := k) (by omega) hq; omega
    · rintro q ⟨j, hj, hq⟩
      have := S.dlow (k := j) (by omega) hq; omega
    · rintro q (h | h | h | h | h | h | h | h)
      · exact hin q (by simp [h])
      · exact hin q (by simp [h])
      · exact hin q (by simp [h])
      · exact hin q (by simp [h])
      · exact hin q (by simp [h])
      · exact hin q (by simp [h])
      · rw [h]; exact ha.1
      · rw [h]; exact hm.1
    · rintro q ⟨j, hj, hq⟩
      obtain ⟨s1, s2, s3⟩ := S.dsep (j := j) (by omega) hq
      refine ⟨s1 k (by omega) (by omega), ?_⟩
      rintro (h | h | h | h | h | h | h | h)
      · exact s1 (k + 1) (by omega) (by omega) h
      · exact (s2 k hk).1 h
      · exact (s2 k hk).2 h
      · exact (s3 k (by omega)).1 h
      · exact (s3 k (by omega)).2 h
      · exact s1 k (by omega) (by omega) h
      · rw [h] at hq; exact ha.2 j (by omega) hq
      · rw [h] at hq; exact hm.2 j (by omega) hq
    · rintro q (h | ⟨j, hj, h⟩)
      · exact ⟨k, by omega, h⟩
      · exact ⟨j, by omega, h⟩
    · rintro q (h | h | h | h | h | h | h | h)
      · exact hin q (by simp [h])
      · exact hin q (by simp [h])
      · exact hin q (by simp [h])
      · exact hin q (by simp [h])
      · exact hin q (by simp [h])
      · exact hin q (by simp [h])
      · rw [h]; exact ha.1
      · rw [h]; exact hm.1
    · intro q hq
      have hq' : q < w1.store.heap.next := hq
      by_cases h : q < w.store.heap.next
      · exact Or.inr h
      · exact Or.inl ⟨by omega, hq'⟩
  · rcases List.mem_append.1 ho with h | h
    · exact N1.fine o h
    · exact B.fine o h
  · intro h h' hs hz
    have dl2 : ∀ q ∈ dsts new2, w1.store.heap.next ≤ q ∨ q < w.store.heap.next := fun q hq => by
      rcases B.blk.dst q hq with h | ⟨j, hj, h⟩
      · exact Or.inl h.1
      · have := S.dlow (k := j) (by omega) h; right; omega
    have dl1 : ∀ q ∈ dsts new1, q < w1.store.heap.next := fun q hq => by
      rcases N1.blk.dst q hq with h | h
      · exact h.2
      · have := S.dlow (k := k) (by omega) h; omega
    have E2 := B.eqs h h' hs.right fun q h1 h2 h3 => hz q (by omega) h2 fun hq => by
      rw [dsts_append, List.mem_append] at hq
      rcases hq with hq | hq
      · have := dl1 q hq; omega
      · exact h3 hq
    have E1 := N1.sat h h' hs.left fun q h1 h2 h3 => hz q h1 (by omega) fun hq => by
      rw [dsts_append, List.mem_append] at hq
      rcases hq with hq | hq
      · exact h3 hq
      · have := dl2 q hq; omega
    intro j d hj hd
    rcases Nat.lt_or_ge j k with hjk | hjk
    · rw [e j hjk]; exact E2 j d hjk hd
    · have : j = k := by omega
      subst this
      rw [List.getElem?_eq_getElem hk] at hd
      cases hd
      rw [en]
      exact E1

theorem bp_chain {ds : List (Nat × Activation T)} {b : Nat} {L : Nat → DLayer} {acts : Nat → Activation T} {m0 : Mat} {lo hi : Nat}
    (S : DSet ds m0 lo hi L) (hpos : ∀ d ∈ ds, 0 < d.1) {alpha momentum : Ptr}
    (ha : 0 < alpha ∧ ∀ j ≤ ds.length, alpha ∉ (L j).dM.ops) (hm : 0 < momentum ∧ ∀ j ≤ ds.length, momentum ∉ (L j).dM.ops) :
    ∀ (k : Nat) (fuel : Nat) (w : World T), k ≤ ds.length → DAt ds b L acts w → hi ≤ w.store.heap.next → k < fuel →
      alpha < w.store.heap.next → momentum < w.store.heap.next →
      (∀ j ≤ k, (w.layers (b + j)).bp = false) → (∀ j < k, (w.layers (b + j)).der = none) →
      wp True (LayerM.backProp alpha momentum fuel (b + k)) (fun _ w' => ∃ new P, BPDone ds b L acts alpha momentum k new P w w') w := by
  intro k
  induction k with
  | zero =>
    intro fuel w hk D hhi hf hal hml hbp hder
    obtain ⟨f, rfl⟩ : ∃ f, fuel = f + 1 := ⟨fuel - 1, by omega⟩
    obtain ⟨r1, r2, r3, r4⟩ := D.ref 0 (Nat.zero_le _)
    refine wp_of_ok (backProp_input (hbp 0 (le_refl _)) D.kind0.1 D.kind0.2 r1 r3) ?_
    refine ⟨[], fun _ => ⟨0, 0, m0, m0⟩, lay_updL ⟨by omega, by omega⟩ _ w, fun l => ?_, fun l => ?_, ?_, ?_, ?_, ?_, ?_, ?_, ?_, ?_⟩
    · by_cases h : l = b + 0
      · rw [h, updL_same]; rfl
      · rw [updL_ne _ _ h]
    · by_cases h : l = b + 0
      · rw [h, updL_same]
      · rw [updL_ne _ _ h]
    · have : b = b + 0 := rfl
      rw [this, updL_same]; exact ⟨rfl, rfl⟩
    · intro j hj; omega
    · intro j hj; omega
    · intro j _ hj; omega
    · intro j hj; omega
    · exact ⟨ssa1_nil, (fun q hq => by cases hq), (fun o ho => by cases ho)⟩
    · intro o ho; cases ho
    · intro h h' _ _ j d hj; omega
  | succ k ih =>
    intro fuel w hk D hhi hf hal hml hbp hder
    obtain ⟨f, rfl⟩ : ∃ f, fuel = f + 1 := ⟨fuel - 1, by omega⟩
    have hlk : b + (k + 1) = b + 1 + k := by omega
    rw [hlk]
    obtain ⟨r1, r2, r3, r4⟩ := D.ref (k + 1) hk
    rw [hlk] at r1 r2 r3 r4
    have hkl : k < ds.length := by omega
    obtain ⟨a1, a2, _⟩ := D.lay k hkl
    have hun := backProp_unfold (alpha := alpha) (momentum := momentum) (f := f) (l := b + 1 + k) (w := w)
      (by have := hbp (k + 1) (le_refl _); rwa [hlk] at this) a1 a2 r1 r3
    obtain ⟨w0, hw0⟩ : ∃ v, v = updL (b + 1 + k) (fun x => { x with bp := true }) w := ⟨_, rfl⟩
    rw [← hw0] at hun
    obtain ⟨g, hg⟩ : ∃ g, f = g + 1 := ⟨f - 1, by omega⟩
    have e0s : w0.store = w.store := by rw [hw0]; rfl
    have g0 : Lay (fun l => b ≤ l ∧ l ≤ b + (k + 1)) [] w w0 := by rw [hw0]; exact lay_updL (by constructor <;> omega) _ w
    have l0 : w0.layers (b + 1 + k) = { w.layers (b + 1 + k) with bp := true } := by rw [hw0, updL_same]
    have l0' : ∀ l, l ≠ b + 1 + k → w0.layers l = w.layers l := fun l h => by rw [hw0, updL_ne _ _ h]
    have fw0 : ∀ l, (w0.layers l).fwd = (w.layers l).fwd := fun l => by
      by_cases h : l = b + 1 + k
      · subst h; rw [l0]; rfl
      · rw [l0' l h]
    have D0 : DAt ds b L acts w0 := D.later g0.grow.ext (fun _ _ => fw0 _) (fun _ _ => by rw [e0s])
    suffices h : wp True (do
        LayerM.denseBP f (b + 1 + k) alpha momentum
        LayerM.backProp alpha momentum f (b + k) : Run T Unit)
        (fun _ w' => ∃ new P, BPDone ds b L acts alpha momentum (k + 1) new P w w') w0 by
      unfold wp at h ⊢; rw [hun]; exact h
    have I := D0.bpIn S hpos hkl (by rw [l0' _ (by omega)]; exact hder k (by omega))
    rw [hg]
    refine wp_bind (wp_mono (denseBP_ok I ⟨ha.1, by rw [e0s]; exact hal, ha.2 k (by omega)⟩ ⟨hm.1, by rw [e0s]; exact hml, hm.2 k (by omega)⟩) ?_)
    rintro _ w1 ⟨new1, nw, mw, nb, mb, der, nwM, nbM, y1, L1, L1p, rnw, rnb, snw, snb, ndw, ndb, N1⟩
    have L1o : ∀ l, l ≠ b + 1 + k → l ≠ b + k → w1.layers l = w0.layers l := fun l h1 h2 => y1.grow.layers l (by omega)
    have Y1 : Lay (fun l => b ≤ l ∧ l ≤ b + (k + 1)) new1 w w1 := by
      simpa using g0.trans (y1.weaken (L' := fun l => b ≤ l ∧ l ≤ b + (k + 1)) fun l hl => by omega)
    have fw1 : ∀ l, (w1.layers l).fwd = (w.layers l).fwd := fun l => by
      rw [← fw0]
      by_cases h : l = b + 1 + k
      · subst h; rw [L1]; rfl
      · by_cases h2 : l = b + k
        · subst h2; rw [L1p]; rfl
        · rw [L1o l h h2]
    have tr1 : ∀ l, (w1.layers l).trainable = (w.layers l).trainable := fun l => by
      by_cases h : l = b + 1 + k
      · subst h; rw [L1]; show (w0.layers _).trainable = _; rw [l0]
      · by_cases h2 : l = b + k
        · subst h2; rw [L1p]; show (w0.layers _).trainable = _; rw [l0' _ h]
        · rw [L1o l h h2, l0' l h]
    have hn0 : (w1.layers b).nBias = (w.layers b).nBias ∧ (w1.layers b).nWeights = (w.layers b).nWeights := by
      by_cases h2 : b = b + k
      · rw [← h2] at L1p
        rw [L1p]; show (w0.layers b).nBias = _ ∧ (w0.layers b).nWeights = _
        rw [l0' _ (by omega)]; exact ⟨rfl, rfl⟩
      · rw [L1o b (by omega) h2, l0' b (by omega)]; exact ⟨rfl, rfl⟩
    have hbp1 : ∀ j ≤ k, (w1.layers (b + j)).bp = false := fun j hj => by
      by_cases h2 : j = k
      · subst h2; rw [L1p]; show (w0.layers _).bp = _; rw [l0' _ (by omega)]; exact hbp j (by omega)
      · rw [L1o _ (by omega) (by omega), l0' _ (by omega)]; exact hbp j (by omega)
    have hder1 : ∀ j < k, (w1.layers (b + j)).der = none := fun j hj => by
      rw [L1o _ (by omega) (by omega), l0' _ (by omega)]; exact hder j (by omega)
    have D1 : DAt ds b L acts w1 := D.later Y1.grow.ext (fun _ _ => fw1 _) (fun j hj => Y1.val (D.ref j hj).2.1)
    have n1 := Y1.grow.next
    rw [← hg]
    refine wp_mono (ih f w1 (by omega) D1 (by omega) (by omega) (by omega) (by omega) hbp1 hder1) ?_
    rintro _ w2 ⟨new2, P, B⟩
    have eact : (w0.layers (b + k)).act = acts k := D0.act k (by omega)
    rw [eact, e0s] at N1
    refine ⟨new1 ++ new2, _, BPDone.cons (X := ⟨nw, nb, nwM, nbM⟩) S hhi hkl ?_ ⟨hal, ha.2⟩ ⟨hml, hm.2⟩ Y1 fw1 tr1 hn0 ?_ ⟨rnw, rnb⟩ ⟨snw, snb⟩ N1 B⟩
    · intro q hq
      simp only [List.mem_append] at hq
      rcases hq with ((((hq | hq) | hq) | hq) | hq) | hq
      · exact (D.ready.dif (k + 1) hk).1.good.lt hq
      · exact (D.ready.wn k hkl).good.lt hq
      · exact (D.ready.bn k hkl).good.lt hq
      · exact (D.ready.out k (by omega)).good.lt hq
      · exact (D.ready.neta k (by omega)).good.lt hq
      · exact (D.ready.dif k (by omega)).1.good.lt hq
    · rw [L1]; exact ⟨rfl, rfl⟩

end Godeep
