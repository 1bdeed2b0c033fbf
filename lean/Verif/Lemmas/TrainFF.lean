import Verif.Lemmas.BPLayer
/-
  The tensors of a network of dense layers, and what its feed-forward operations compute.
-/
set_option linter.unusedSectionVars false

namespace Godeep
open Spec GoNum

variable {T : Type} [GoNum T]

/-- The tensors of one layer: pre-activation, error, output, weights and bias.  The scalars of all but
the output were allocated from `lo` to `hi`.  The input layer has no weights and no bias. -/
structure DLayer where
  neta : Nat
  dif : Nat
  out : Nat
  wn : Nat
  bn : Nat
  nM : Mat
  dM : Mat
  oM : Mat
  wM : Mat
  bM : Mat
  lo : Nat
  hi : Nat

/-- the error tensor -/
structure DIn (lo hi : Nat) (X : DLayer) : Prop where
  ge : lo ≤ X.lo
  mid : X.lo ≤ X.hi
  le : X.hi ≤ hi
  dreg : ∀ q ∈ X.dM.ops, X.lo ≤ q ∧ q < X.hi
  ndd : X.dM.ops.Nodup

/-- the other tensors of a layer of `n` neurons with `ins` inputs -/
structure DOne (lo n ins : Nat) (X : DLayer) : Prop where
  sd : X.dM.shape = [n]
  sn : X.nM.shape = [n]
  so : X.oM.shape = [n]
  sb : X.bM.shape = [n]
  sw : X.wM.shape = [n, ins]
  wreg : ∀ q ∈ X.wM.ops, X.lo ≤ q ∧ q < X.hi
  breg : ∀ q ∈ X.bM.ops, X.lo ≤ q ∧ q < X.hi
  nreg : ∀ q ∈ X.nM.ops, X.lo ≤ q ∧ q < X.hi
  oreg : ∀ q ∈ X.oM.ops, q < lo
  ndw : X.wM.ops.Nodup
  ndb : X.bM.ops.Nodup
  ndn : X.nM.ops.Nodup
  ndo : X.oM.ops.Nodup
  wb : ∀ q ∈ X.wM.ops, q ∉ X.bM.ops
  dx : ∀ q ∈ X.dM.ops, q ∉ X.wM.ops ∧ q ∉ X.bM.ops ∧ q ∉ X.nM.ops
  nx : ∀ q ∈ X.nM.ops, q ∉ X.wM.ops ∧ q ∉ X.bM.ops

/-- the tensors of a network of dense layers with the given widths; `L 0` is the input layer, with
input tensor `m0` -/
structure DSet (ds : List (Nat × Activation T)) (m0 : Mat) (lo hi : Nat) (L : Nat → DLayer) : Prop where
  first : (L 0).oM = m0 ∧ (L 0).nM = m0 ∧ (L 0).dM.shape = m0.shape
  low0 : ∀ q ∈ m0.ops, q < lo
  all : ∀ k ≤ ds.length, DIn lo hi (L k)
  ord : ∀ j k, j < k → k ≤ ds.length → (L j).hi ≤ (L k).lo
  one : ∀ k d, ds[k]? = some d → DOne lo d.1 (size (L k).oM.shape) (L (k + 1))
  odis : ∀ k, k < ds.length → ∀ q ∈ (L (k + 1)).oM.ops, q ∉ m0.ops ∧ ∀ j, j < k → q ∉ (L (j + 1)).oM.ops

/-- all of them are ready in `w` -/
structure DReady (ds : List (Nat × Activation T)) (L : Nat → DLayer) (w : World T) : Prop where
  out : ∀ k ≤ ds.length, Ready w (L k).out (L k).oM
  neta : ∀ k ≤ ds.length, Ready w (L k).neta (L k).nM
  dif : ∀ k ≤ ds.length, Ready w (L k).dif (L k).dM ∧ (w.store.nodes (L k).dif).kind = .leaf
  wn : ∀ k < ds.length, Ready w (L (k + 1)).wn (L (k + 1)).wM
  bn : ∀ k < ds.length, Ready w (L (k + 1)).bn (L (k + 1)).bM

/-- what the feed-forward operations compute, in terms of the final values -/
def DEqs (ds : List (Nat × Activation T)) (L : Nat → DLayer) (val : Ptr → T) : Prop :=
  ∀ k d, ds[k]? = some d → ∀ i, i < d.1 →
    val (cell (L (k + 1)).nM [i]) = preact (L k).oM (L (k + 1)).wM (L (k + 1)).bM (size (L k).oM.shape) val i ∧
    val (cell (L (k + 1)).oM [i]) = d.2.activate (val (cell (L (k + 1)).nM [i]))

/-- a dense layer as the user asks for it -/
abbrev dl (d : Nat × Activation T) : LSpec T := .dense d.1 d.2

/-- building the feed-forward part of a network of dense layers -/
structure DFF (ds : List (Nat × Activation T)) (b inp0 : Nat) (m0 : Mat) (ops : List (Op T)) (L : Nat → DLayer)
    (w w' : World T) : Prop where
  grow : Grow (fun l => b ≤ l ∧ l ≤ b + ds.length) (fun _ => False) ops w w'
  set : DSet ds m0 w.store.heap.next w'.store.heap.next L
  ready : DReady ds L w'
  ids : (L 0).out = inp0 ∧ (L 0).neta = inp0
  lay0 : w'.layers b = { w.layers b with ff := true, neta := some inp0, output := some inp0, dif := some (L 0).dif }
  layk : ∀ k, k < ds.length → w'.layers (b + 1 + k) = { w.layers (b + 1 + k) with
    ff := true, input := some (L k).out, output := some (L (k + 1)).out, neta := some (L (k + 1)).neta,
    dif := some (L (k + 1)).dif, bias := some (L (k + 1)).bn, weights := some (L (k + 1)).wn }
  own : ∀ k, k < ds.length → ∀ q, q ∈ (L (k + 1)).oM.ops ↔ ownCell w (b + 1 + k) q
  dst : ∀ q ∈ dsts ops, (∃ k < ds.length, q ∈ (L (k + 1)).oM.ops) ∨ ∃ k < ds.length, (L (k + 1)).lo ≤ q ∧ q < (L (k + 1)).hi ∧
    q ∉ (L (k + 1)).dM.ops ∧ q ∉ (L (k + 1)).wM.ops ∧ q ∉ (L (k + 1)).bM.ops
  fine : ∀ o ∈ ops, Fine o
  eqs : ∀ h h', exec ops h = .ok () h' → DEqs ds L h'.val

theorem inputFF_ok {w : World T} {b inp0 : Nat} {m0 : Mat} (hpos : 0 < w.store.heap.next)
    (hin : (w.layers b).input = some inp0) (rin : Ready w inp0 m0) :
    wp True (LayerM.inputFF b) (fun _ w' => ∃ dif dM, Grow (· = b) (fun _ => False) [] w w' ∧
      w'.layers b = { w.layers b with neta := some inp0, output := some inp0, dif := some dif } ∧
      Ready w' dif dM ∧ (w'.store.nodes dif).kind = .leaf ∧ dM.shape = m0.shape ∧ dM.ops.Nodup ∧
      ∀ q ∈ dM.ops, w.store.heap.next ≤ q ∧ q < w'.store.heap.next) w := by
  unfold LayerM.inputFF
  refine wp_bind (wp_layer ?_)
  refine wp_bind (wp_deref (a := inp0) hin ?_)
  refine wp_bind (wp_modify ?_)
  have m1 := grow_modify (L := (· = b)) (C := fun _ => False) rfl (fun x => { x with neta := some inp0, output := some inp0 }) w
  unfold LayerM.zeroDif
  refine wp_bind (wp_mat ?_)
  refine wp_bind (wp_zerosLeaf (L := (· = b)) (C := fun _ => False) hpos fun w2 difM g2 l2 x2 r2 s2 nd2 f2 k2 => ?_)
  have m2 := grow_modify (L := (· = b)) (C := fun _ => False) rfl (fun x => { x with dif := some w.nodeNext }) w2
  refine wp_modify ⟨w.nodeNext, difM, ?_, ?_, r2.grow m2, k2, ?_, nd2, fun q hq => ⟨f2 q hq, (r2.good.valid q hq).2⟩⟩
  · simpa using m1.trans (g2.trans m2)
  · simp [l2]
  · rw [s2]; show (w.store.nodes inp0).mat.shape = _; rw [rin.mat]

theorem DSet.snoc {ds : List (Nat × Activation T)} {d : Nat × Activation T} {m0 : Mat} {lo mid hi : Nat} {L : Nat → DLayer}
    {X : DLayer} (S : DSet ds m0 lo mid L) (hX : DIn lo hi X) (hm : mid ≤ X.lo)
    (h1 : DOne lo d.1 (size (L ds.length).oM.shape) X)
    (hd : ∀ q ∈ X.oM.ops, q ∉ m0.ops ∧ ∀ j, j < ds.length → q ∉ (L (j + 1)).oM.ops) :
    DSet (ds ++ [d]) m0 lo hi (Function.update L (ds.length + 1) X) := by
  have e : ∀ k, k ≤ ds.length → Function.update L (ds.length + 1) X k = L k := fun k hk =>
    Function.update_of_ne (by omega) _ _
  have en : Function.update L (ds.length + 1) X (ds.length + 1) = X := Function.update_self ..
  have hXh := hX.mid
  have hXl := hX.le
  refine ⟨by rw [e 0 (by omega)]; exact S.first, S.low0, fun k hk => ?_, fun j k hjk hk => ?_, fun k d' hk => ?_, fun k hk q hq => ?_⟩
  · simp only [List.length_append, List.length_singleton] at hk
    rcases Nat.lt_or_ge ds.length k with h | h
    · have : k = ds.length + 1 := by omega
      subst this; rw [en]; exact hX
    · rw [e k h]
      have := S.all k h
      exact { this with le := by have := this.le; omega }
  · simp only [List.length_append, List.length_singleton] at hk
    rcases Nat.lt_or_ge ds.length k with h | h
    · have : k = ds.length + 1 := by omega
      subst this; rw [en, e j (by omega)]
      have := (S.all j (by omega)).le
      omega
    · rw [e k h, e j (by omega)]; exact S.ord j k hjk h
  · have hlt := (List.getElem?_eq_some_iff.1 hk).1
    simp only [List.length_append, List.length_singleton] at hlt
    rcases Nat.lt_or_ge k ds.length with h | h
    · rw [List.getElem?_append_left h] at hk
      rw [e k (by omega), e (k + 1) (by omega)]
      exact S.one k d' hk
    · have : k = ds.length := by omega
      subst this
      simp only [List.getElem?_append_right (le_refl _), Nat.sub_self, List.getElem?_cons_zero, Option.some.injEq] at hk
      subst hk
      rw [en, e _ (le_refl _)]
      exact h1
  · simp only [List.length_append, List.length_singleton] at hk
    rcases Nat.lt_or_ge k ds.length with h | h
    · rw [e (k + 1) (by omega)] at hq
      obtain ⟨a1, a2⟩ := S.odis k h q hq
      exact ⟨a1, fun j hj => by rw [e (j + 1) (by omega)]; exact a2 j hj⟩
    · have : k = ds.length := by omega
      subst this
      rw [en] at hq
      obtain ⟨a1, a2⟩ := hd q hq
      exact ⟨a1, fun j hj => by rw [e (j + 1) (by omega)]; exact a2 j hj⟩

theorem DReady.snoc {ds : List (Nat × Activation T)} {d : Nat × Activation T} {L : Nat → DLayer} {X : DLayer} {w w' : World T}
    {A : Nat → Prop} {C : Ptr → Prop} {new : List (Op T)}
    (R : DReady ds L w) (g : Grow A C new w w') (ho : Ready w' X.out X.oM) (hn : Ready w' X.neta X.nM)
    (hd : Ready w' X.dif X.dM ∧ (w'.store.nodes X.dif).kind = .leaf) (hw : Ready w' X.wn X.wM) (hb : Ready w' X.bn X.bM) :
    DReady (ds ++ [d]) (Function.update L (ds.length + 1) X) w' := by
  have e : ∀ k, k ≤ ds.length → Function.update L (ds.length + 1) X k = L k := fun k hk =>
    Function.update_of_ne (by omega) _ _
  have en : Function.update L (ds.length + 1) X (ds.length + 1) = X := Function.update_self ..
  refine ⟨fun k hk => ?_, fun k hk => ?_, fun k hk => ?_, fun k hk => ?_, fun k hk => ?_⟩ <;>
    simp only [List.length_append, List.length_singleton] at hk
  · rcases Nat.lt_or_ge ds.length k with h | h
    · have : k = ds.length + 1 := by omega
      subst this; rw [en]; exact ho
    · rw [e k h]; exact (R.out k h).grow g
  · rcases Nat.lt_or_ge ds.length k with h | h
    · have : k = ds.length + 1 := by omega
      subst this; rw [en]; exact hn
    · rw [e k h]; exact (R.neta k h).grow g
  · rcases Nat.lt_or_ge ds.length k with h | h
    · have : k = ds.length + 1 := by omega
      subst this; rw [en]; exact hd
    · rw [e k h]
      obtain ⟨a1, a2⟩ := R.dif k h
      exact ⟨a1.grow g, by rw [g.kind _ a1.lt, a2]⟩
  · rcases Nat.lt_or_ge k ds.length with h | h
    · rw [e (k + 1) (by omega)]; exact (R.wn k h).grow g
    · have : k = ds.length := by omega
      subst this; rw [en]; exact hw
  · rcases Nat.lt_or_ge k ds.length with h | h
    · rw [e (k + 1) (by omega)]; exact (R.bn k h).grow g
    · have : k = ds.length := by omega
      subst this; rw [en]; exact hb

/-- two different layers use different scalars -/
theorem DSet.ne {ds : List (Nat × Activation T)} {m0 : Mat} {lo hi : Nat} {L : Nat → DLayer} (S : DSet ds m0 lo hi L)
    {j k : Nat} (hj : j ≤ ds.length) (hk : k ≤ ds.length) (hjk : j ≠ k) {q : Ptr} (h1 : (L j).lo ≤ q ∧ q < (L j).hi)
    (h2 : (L k).lo ≤ q ∧ q < (L k).hi) : False := by
  rcases Nat.lt_or_gt_of_ne hjk with h | h
  · have := S.ord j k h hk; omega
  · have := S.ord k j h hj; omega

theorem DReady.grow {ds : List (Nat × Activation T)} {L : Nat → DLayer} {w w' : World T}
    {A : Nat → Prop} {C : Ptr → Prop} {new : List (Op T)} (R : DReady ds L w) (g : Grow A C new w w') : DReady ds L w' :=
  ⟨fun k hk => (R.out k hk).grow g, fun k hk => (R.neta k hk).grow g,
    fun k hk => ⟨(R.dif k hk).1.grow g, by rw [g.kind _ (R.dif k hk).1.lt, (R.dif k hk).2]⟩,
    fun k hk => (R.wn k hk).grow g, fun k hk => (R.bn k hk).grow g⟩

theorem DEqs.congr {ds : List (Nat × Activation T)} {L : Nat → DLayer} {w : World T} {m0 : Mat} {lo hi : Nat} {v v' : Ptr → T}
    (S : DSet ds m0 lo hi L) (R : DReady ds L w)
    (hn : ∀ k < ds.length, ∀ q, q ∈ (L (k + 1)).nM.ops ∨ q ∈ (L (k + 1)).wM.ops ∨ q ∈ (L (k + 1)).bM.ops → v' q = v q)
    (ho : ∀ k ≤ ds.length, ∀ q ∈ (L k).oM.ops, v' q = v q) (E : DEqs ds L v) : DEqs ds L v' := by
  intro k d hk i hi
  have hlt := (List.getElem?_eq_some_iff.1 hk).1
  have D := S.one k d hk
  obtain ⟨e1, e2⟩ := E k d hk i hi
  have c1 := cell_mem (R.neta (k + 1) (by omega)).good (idx := [i]) (by rw [D.sn]; simp [hi])
  have c2 := cell_mem (R.out (k + 1) (by omega)).good (idx := [i]) (by rw [D.so]; simp [hi])
  have c3 := cell_mem (R.bn k hlt).good (idx := [i]) (by rw [D.sb]; simp [hi])
  rw [hn k hlt _ (Or.inl c1), ho (k + 1) (by omega) _ c2, e1, e2]
  refine ⟨?_, by rw [e1]⟩
  refine (preact_congr (fun j hj => ⟨?_, ?_⟩) ?_).symm
  · exact ho k (by omega) _ (getD_mem (R.out k (by omega)).good hj)
  · exact hn k hlt _ (Or.inr (Or.inl (cell_mem (R.wn k hlt).good (by rw [D.sw]; simp [hi, hj]))))
  · exact hn k hlt _ (Or.inr (Or.inr c3))

theorem DEqs.snoc {ds : List (Nat × Activation T)} {d : Nat × Activation T} {L : Nat → DLayer} {X : DLayer} {v : Ptr → T}
    (E : DEqs ds L v) (h : ∀ i, i < d.1 →
      v (cell X.nM [i]) = preact (L ds.length).oM X.wM X.bM (size (L ds.length).oM.shape) v i ∧
      v (cell X.oM [i]) = d.2.activate (v (cell X.nM [i]))) :
    DEqs (ds ++ [d]) (Function.update L (ds.length + 1) X) v := by
  have e : ∀ k, k ≤ ds.length → Function.update L (ds.length + 1) X k = L k := fun k hk =>
    Function.update_of_ne (by omega) _ _
  have en : Function.update L (ds.length + 1) X (ds.length + 1) = X := Function.update_self ..
  intro k d' hk
  have hlt := (List.getElem?_eq_some_iff.1 hk).1
  simp only [List.length_append, List.length_singleton] at hlt
  rcases Nat.lt_or_ge k ds.length with hk' | hk'
  · rw [List.getElem?_append_left hk'] at hk
    rw [e k (by omega), e (k + 1) (by omega)]
    exact E k d' hk
  · have : k = ds.length := by omega
    subst this
    simp only [List.getElem?_append_right (le_refl _), Nat.sub_self, List.getElem?_cons_zero, Option.some.injEq] at hk
    subst hk
    rw [en, e _ (le_refl _)]
    exact h

theorem ffTrace_nil {shape : List Nat} {b inp0 : Nat} {m0 : Mat} {w w' : World T} (S : SeqAt shape [] b inp0 m0 w)
    {o : List (Op T)} {K : Ptr → T → Prop} (t : FFTrace b ([] : List (LSpec T)) o K w w') : ∃ L, DFF ([] : List (Nat × Activation T)) b inp0 m0 [] L w w' := by
  generalize hls : ([] : List (LSpec T)) = ls at t
  cases t with
  | snoc => simp at hls
  | nil he =>
    obtain ⟨dif, dM, g, hl, r, hk, hs, hnd, hreg⟩ := wp_ok (inputFF_ok (w := updL b (fun x => { x with ff := true }) w)
      S.pos (by rw [updL_same]; exact S.input) (S.rin.updL _ _)) he
    have g0 := grow_updL (L := (· = b)) (C := fun _ => False) rfl (fun x => { x with ff := true }) w
    have G : Grow (· = b) (fun _ => False) [] w w' := by simpa using g0.trans g
    refine ⟨fun _ => ⟨inp0, dif, inp0, 0, 0, m0, dM, m0, m0, m0, w.store.heap.next, w'.store.heap.next⟩, ?_, ⟨⟨rfl, rfl, hs⟩,
      fun q hq => (S.rin.good.valid q hq).2, fun k _ => ⟨le_refl _, G.next, le_refl _, hreg, hnd⟩, fun j k h1 h2 => ?_, ?_, ?_⟩, ?_, ⟨rfl, rfl⟩, ?_,
      ?_, ?_, ?_, ?_, ?_⟩
    · exact G.weaken (fun l hl => ⟨by omega, by simp; omega⟩) fun _ h => h
    · simp at h2; omega
    · simp
    · simp
    · exact ⟨fun _ _ => S.rin.grow G, fun _ _ => S.rin.grow G, fun _ _ => ⟨r, hk⟩, by simp, by simp⟩
    · rw [hl, updL_same]
    · simp
    · simp
    · simp
    · simp
    · intro h h' _ k d hk; simp at hk

theorem ffTrace_snoc {shape : List Nat} {ds : List (Nat × Activation T)} {d : Nat × Activation T} {b inp0 fuel : Nat}
    {m0 : Mat} {w w1 w2 : World T} {ops : List (Op T)} {L : Nat → DLayer}
    (S : SeqAt shape (ds.map dl ++ [dl d]) b inp0 m0 w)
    (A : DFF ds b inp0 m0 ops L (updL (b + 1 + ds.length) (fun x => { x with ff := true }) w) w1)
    (he : LayerM.ffBody fuel (b + 1 + ds.length) (dl d).kind (some (b + ds.length))
        (updL (b + 1 + ds.length) (fun x => { x with input := (w1.layers (b + ds.length)).output }) w1) = .ok () w2) :
    ∃ ops L, DFF (ds ++ [d]) b inp0 m0 ops L w w2 := by
  obtain ⟨l, hl⟩ : ∃ l, l = b + 1 + ds.length := ⟨_, rfl⟩
  rw [← hl] at A he
  obtain ⟨w0, hw0⟩ : ∃ v, v = updL l (fun x => { x with ff := true }) w := ⟨_, rfl⟩
  rw [← hw0] at A
  have hs : LayerAt (dl d) w l := by rw [hl]; exact S.lay ds.length (dl d) (by simp)
  have el1 : w1.layers l = w0.layers l := A.grow.layers l (by omega)
  have el0 : w0.layers l = { w.layers l with ff := true } := by rw [hw0, updL_same]
  have g0 : Grow (· = l) (fun _ => False) [] w w0 := by rw [hw0]; exact grow_updL (L := (· = l)) rfl _ w
  have hpo : (w1.layers (b + ds.length)).output = some (L ds.length).out := by
    rcases Nat.eq_zero_or_pos ds.length with h | h
    · rw [h, Nat.add_zero, A.lay0, A.ids.1]
    · have := A.layk (ds.length - 1) (by omega)
      rw [show b + 1 + (ds.length - 1) = b + ds.length by omega, show ds.length - 1 + 1 = ds.length by omega] at this
      rw [this]
  obtain ⟨w1', hw1'⟩ : ∃ v, v = updL l (fun x => { x with input := (w1.layers (b + ds.length)).output }) w1 := ⟨_, rfl⟩
  rw [← hw1'] at he
  have g1 : Grow (· = l) (fun _ => False) [] w1 w1' := by rw [hw1']; exact grow_updL (L := (· = l)) rfl _ w1
  have el1' : w1'.layers l = { w.layers l with ff := true, input := some (L ds.length).out } := by
    rw [hw1', updL_same, el1, el0, hpo]
  have gA : Grow (fun k => b ≤ k ∧ k ≤ l) (fun _ => False) ops w w1' := by
    have x1 := g0.weaken (L' := fun k => b ≤ k ∧ k ≤ l) (C' := fun _ => False) (fun k hk => by omega) (fun _ h => h)
    have x2 := A.grow.weaken (L' := fun k => b ≤ k ∧ k ≤ l) (C' := fun _ => False) (fun k hk => by omega) (fun _ h => h)
    have x3 := g1.weaken (L' := fun k => b ≤ k ∧ k ≤ l) (C' := fun _ => False) (fun k hk => by omega) (fun _ h => h)
    simpa using x1.trans (x2.trans x3)
  obtain ⟨o, m, ho, ro, so, ndo⟩ := hs.own
  have how : ∀ q, ownCell w l q ↔ q ∈ m.ops := fun q => by
    simp only [ownCell, hs.kind, LSpec.kind, ho, ro.mat]
  have h0n : w0.store.heap.next = w.store.heap.next := by rw [hw0]; rfl
  have h1n : w1'.store.heap.next = w1.store.heap.next := by rw [hw1']; rfl
  have own0 : ∀ k, k < ds.length → ∀ q, ownCell w0 (b + 1 + k) q ↔ ownCell w (b + 1 + k) q := fun k hk q => by
    have e : w0.layers (b + 1 + k) = w.layers (b + 1 + k) := by rw [hw0]; exact updL_ne _ w (by omega)
    exact ownCell_congr (w := w) (congrArg Layer.kind e) (congrArg Layer.output e) (fun _ _ _ => by rw [hw0]; rfl) q
  have hdis : ∀ q ∈ m.ops, q ∉ m0.ops ∧ ∀ j, j < ds.length → q ∉ (L (j + 1)).oM.ops := by
    intro q hq
    obtain ⟨d1, d2⟩ := S.dis ds.length (by simp) q (by rw [← hl]; exact (how q).2 hq)
    exact ⟨d1, fun j hj hm => d2 j hj ((own0 j hj q).1 ((A.own j hj q).1 hm))⟩
  have hdisN : ∀ q ∈ m.ops, q ∉ (L ds.length).oM.ops := by
    intro q hq
    rcases Nat.eq_zero_or_pos ds.length with h | h
    · rw [h, A.set.first.1]; exact (hdis q hq).1
    · have := (hdis q hq).2 (ds.length - 1) (by omega)
      rwa [show ds.length - 1 + 1 = ds.length by omega] at this
  have mlow : ∀ q ∈ m.ops, q < w.store.heap.next := fun q hq => (ro.good.valid q hq).2
  have H := denseFF_ok (w := w1') (l := l) (inp := (L ds.length).out) (out := o) (n := d.1) (outM := m) (act := d.2) (R := fun _ => False)
    (lt_of_lt_of_le S.pos gA.next) (by rw [el1']; exact hs.act) (by rw [el1'])
    ((A.ready.out _ (le_refl _)).grow g1) (by rw [el1']; exact ho) (ro.grow gA) so ndo hdisN
  obtain ⟨netaM, wM, bM, dif, neta, wn, bn, hp0, p, D, hp, pos, hnx, hwp, hnew, rw', rb', rn', ndw, ndb, hwb, ⟨difM, rd, sd, ndd, kd, hdif⟩, hl2, G⟩ :=
    wp_ok H he
  obtain ⟨ops2, hops2⟩ : ∃ x, x = denseOps d.2.activate (L ds.length).oM wM bM netaM m (size (L ds.length).oM.shape) d.1 p := ⟨_, rfl⟩
  rw [← hops2] at G
  obtain ⟨X, hX⟩ : ∃ x : DLayer, x = ⟨neta, dif, o, wn, bn, netaM, difM, m, wM, bM, w1.store.heap.next, w2.store.heap.next⟩ := ⟨_, rfl⟩
  have hwn : ∀ q ∈ wM.ops, w1.store.heap.next ≤ q ∧ q < w2.store.heap.next := fun q hq => by have := hnew q (by simp [hq]); omega
  have hbn : ∀ q ∈ bM.ops, w1.store.heap.next ≤ q ∧ q < w2.store.heap.next := fun q hq => by have := hnew q (by simp [hq]); omega
  have hnn : ∀ q ∈ netaM.ops, w1.store.heap.next ≤ q ∧ q < p := fun q hq => by have := hnew q (by simp [hq]); omega
  have hdn : ∀ q ∈ difM.ops, w1.store.heap.next ≤ q ∧ q < w2.store.heap.next := fun q hq => by have := hdif q hq; omega
  have n01 : w.store.heap.next ≤ w1.store.heap.next := by rw [← h0n]; exact A.grow.next
  have hDIn : DIn w.store.heap.next w2.store.heap.next X := by
    rw [hX]; exact ⟨n01, by show w1.store.heap.next ≤ w2.store.heap.next; omega, le_refl _, hdn, ndd⟩
  have hDOne : DOne w.store.heap.next d.1 (size (L ds.length).oM.shape) X := by
    rw [hX]
    exact ⟨sd, D.sn, D.so, D.sb, D.sw, hwn, hbn, fun q hq => by have := hnn q hq; exact ⟨this.1, by show q < w2.store.heap.next; omega⟩,
      mlow, ndw, ndb, D.ndn, ndo, hwb,
      fun q hq => (hdif q hq).2.2, fun q hq => ⟨(D.nin q hq).2.1, (D.nin q hq).2.2.1⟩⟩
  have hset : DSet (ds ++ [d]) m0 w.store.heap.next w2.store.heap.next (Function.update L (ds.length + 1) X) := by
    have S0 := A.set
    rw [h0n] at S0
    refine S0.snoc hDIn (by rw [hX]) hDOne ?_
    rw [hX]; exact hdis
  have e : ∀ k, k ≤ ds.length → Function.update L (ds.length + 1) X k = L k := fun k hk =>
    Function.update_of_ne (by omega) _ _
  have en : Function.update L (ds.length + 1) X (ds.length + 1) = X := Function.update_self ..
  have elw : ∀ k, k ≠ l → w2.layers k = w1.layers k := fun k hk => by
    rw [G.layers k hk, hw1', updL_ne _ _ hk]
  -- destinations of the new operations
  have hd2 : ∀ q ∈ dsts ops2, (w1.store.heap.next ≤ q ∧ q < w2.store.heap.next ∧ q ∉ difM.ops ∧ q ∉ wM.ops ∧ q ∉ bM.ops) ∨ q ∈ m.ops := by
    intro q hq
    rw [hops2] at hq
    rcases dense_dsts D hq with h | h | h
    · refine Or.inl ⟨by omega, by omega, fun h' => ?_, fun h' => ?_, fun h' => ?_⟩
      · have := hdif q h'; omega
      · have := hnew q (by simp [h']); omega
      · have := hnew q (by simp [h']); omega
    · have := hnn q h
      exact Or.inl ⟨by omega, by omega, fun h' => (hdif q h').2.2.2.2 h, (D.nin q h).2.1, (D.nin q h).2.2.1⟩
    · exact Or.inr h
  have GG : Grow (fun k => b ≤ k ∧ k ≤ l) (fun _ => False) (ops ++ ops2) w w2 :=
    gA.trans (G.weaken (fun k hk => by omega) fun _ h => h)
  refine ⟨ops ++ ops2, Function.update L (ds.length + 1) X, ?_, hset, ?_, ?_, ?_, ?_, ?_, ?_, ?_, ?_⟩
  · exact GG.weaken (fun k hk => by simp; omega) fun _ h => h
  · refine (A.ready.grow g1).snoc G ?_ ?_ ?_ ?_ ?_ <;> rw [hX]
    · exact ro.grow GG
    · exact rn'
    · exact ⟨rd, kd⟩
    · exact rw'
    · exact rb'
  · rw [e 0 (by omega)]; exact A.ids
  · rw [elw b (by omega), A.lay0, e 0 (by omega)]
    have : w0.layers b = w.layers b := by rw [hw0]; exact updL_ne _ w (by omega)
    rw [this]
  · intro k hk
    simp only [List.length_append, List.length_singleton] at hk
    rcases Nat.lt_or_ge k ds.length with h | h
    · rw [elw _ (by omega), A.layk k h, e k (by omega), e (k + 1) (by omega)]
      have : w0.layers (b + 1 + k) = w.layers (b + 1 + k) := by rw [hw0]; exact updL_ne _ w (by omega)
      rw [this]
    · have : k = ds.length := by omega
      subst this
      rw [en, e _ (le_refl _), ← hl, hl2, el1', hX]
      simp only [ho]
  · intro k hk q
    simp only [List.length_append, List.length_singleton] at hk
    rcases Nat.lt_or_ge k ds.length with h | h
    · rw [e (k + 1) (by omega), A.own k h, own0 k h]
    · have : k = ds.length := by omega
      subst this
      rw [en, ← hl, how, hX]
  · intro q hq
    rw [dsts_append, List.mem_append] at hq
    simp only [List.length_append, List.length_singleton]
    rcases hq with hq | hq
    · rcases A.dst q hq with ⟨k, hk, h⟩ | ⟨k, hk, h⟩
      · exact Or.inl ⟨k, by omega, by rw [e (k + 1) (by omega)]; exact h⟩
      · exact Or.inr ⟨k, by omega, by rw [e (k + 1) (by omega)]; exact h⟩
    · rcases hd2 q hq with h | h
      · exact Or.inr ⟨ds.length, by omega, by rw [en, hX]; exact h⟩
      · exact Or.inl ⟨ds.length, by omega, by rw [en, hX]; exact h⟩
  · intro x hx
    rcases List.mem_append.1 hx with hx | hx
    · exact A.fine x hx
    · rw [hops2] at hx; exact dense_fine D hp pos x hx
  · intro h h' hex
    rw [exec_append_ok] at hex
    obtain ⟨hm, e1, e2⟩ := hex
    have hf := (exec_frame e2).2
    have old : ∀ q, q < w1.store.heap.next → q ∉ m.ops → h'.val q = hm.val q := fun q h1 h2 => hf q fun hq => by
      rcases hd2 q hq with h | h
      · omega
      · exact h2 h
    have E0 := A.eqs h hm e1
    have E1 : DEqs ds L h'.val := by
      refine E0.congr A.set A.ready (fun k hk q hq => ?_) (fun k hk q hq => ?_)
      · obtain ⟨dd, hdd⟩ : ∃ dd, ds[k]? = some dd := ⟨_, List.getElem?_eq_getElem hk⟩
        have O := A.set.one k dd hdd
        have I := A.set.all (k + 1) (by omega)
        have hr : (L (k + 1)).lo ≤ q ∧ q < (L (k + 1)).hi := by
          rcases hq with hq | hq | hq
          · exact O.nreg q hq
          · exact O.wreg q hq
          · exact O.breg q hq
        have := I.le
        have := I.ge
        refine old q (by omega) fun hqm => ?_
        have := mlow q hqm
        omega
      · rcases Nat.eq_zero_or_pos k with h | h
        · subst h
          rw [A.set.first.1] at hq
          have := A.set.low0 q hq
          exact old q (by omega) fun hqm => (hdis q hqm).1 hq
        · obtain ⟨j, rfl⟩ : ∃ j, k = j + 1 := ⟨k - 1, by omega⟩
          obtain ⟨dd, hdd⟩ : ∃ dd, ds[j]? = some dd := ⟨_, List.getElem?_eq_getElem (by omega)⟩
          have := (A.set.one j dd hdd).oreg q hq
          exact old q (by omega) fun hqm => (hdis q hqm).2 j (by omega) hq
    refine E1.snoc fun i hi => ?_
    rw [hops2] at e2
    obtain ⟨r1, r2⟩ := dense_run D hp e2 i hi
    rw [hX]
    simp only
    rw [r1, r2]
    refine ⟨?_, rfl⟩
    have hinlt : ∀ q ∈ (L ds.length).oM.ops, q < w1.store.heap.next := fun q hq => ((A.ready.out _ (le_refl _)).good.valid q hq).2
    have hfr : ∀ q, q ∉ netaM.ops → q ∉ m.ops → q < p → h'.val q = hm.val q := fun q h1 h2 h3 => hf q fun hq => by
      rw [hops2] at hq
      rcases dense_dsts D hq with h | h | h
      · omega
      · exact h1 h
      · exact h2 h
    refine (preact_congr (fun j hj => ⟨?_, ?_⟩) ?_).symm
    · have hm' := D.inMem hj
      have := hinlt _ hm'
      exact hfr _ (fun h => (D.nin _ h).1 hm') (fun h => (D.out _ h).1 hm') (by omega)
    · have hm' := cell_mem D.gw (D.inRange2 hi hj)
      exact hfr _ (fun h => (D.nin _ h).2.1 hm') (fun h => (D.out _ h).2.1 hm') (by have := hnew _ (List.mem_append_left _ (List.mem_append_left _ hm')); omega)
    · have hm' := cell_mem D.gb (D.inRange1 D.sb hi)
      exact hfr _ (fun h => (D.nin _ h).2.2.1 hm') (fun h => (D.out _ h).2.2 hm') (by have := hnew _ (List.mem_append_left _ (List.mem_append_right _ hm')); omega)

/-- what building the feed-forward part of a network of dense layers has done -/
theorem ffTrace_dense {shape : List Nat} {ds : List (Nat × Activation T)} {b inp0 : Nat} {m0 : Mat} {w w' : World T}
    (S : SeqAt shape (ds.map dl) b inp0 m0 w) {o : List (Op T)} {K : Ptr → T → Prop} (t : FFTrace b (ds.map dl) o K w w') :
    ∃ ops L, DFF ds b inp0 m0 ops L w w' := by
  induction ds using List.reverseRecOn generalizing w w' o K with
  | nil =>
    obtain ⟨L, h⟩ := ffTrace_nil S t
    exact ⟨_, L, h⟩
  | append_singleton ds d ih =>
    rw [List.map_append] at t S
    generalize hls : ds.map dl ++ [d].map dl = ls' at t
    cases t with
    | nil => simp at hls
    | @snoc ls s o1 o2 K1 K2 _ w1 w1' _ fuel inp out inM outM t1 hw1 he P D E =>
      subst hw1
      clear P D E
      simp only [List.map_cons, List.map_nil] at hls S
      obtain ⟨h1, h2⟩ := List.append_inj' hls rfl
      simp only [List.cons.injEq, and_true] at h2
      subst h1 h2
      simp only [List.length_map] at t1 he
      have S1 := S.init (fun x => { x with ff := true })
      simp only [List.length_map] at S1
      obtain ⟨ops, L, A⟩ := ih S1 t1
      exact ffTrace_snoc S A he

end Godeep
