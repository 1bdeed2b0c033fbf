import Verif.Lemmas.TrainFF
/-
  The tensors of a sequential network of any layers, and what its feed-forward operations compute.
-/
set_option linter.unusedSectionVars false

namespace Godeep
open Spec GoNum

variable {T : Type} [GoNum T]

/-- The tensors of one layer: output, error, pre-activation, weights and bias; the scalar with the
greatest absolute value of the input. -/
structure GLayer where
  out : Nat
  dif : Nat
  neta : Nat
  oM : Mat
  dM : Mat
  nM : Mat
  ps : List Mat
  mx : Ptr

/-- layer `l`, with tensors `X`, follows a layer with tensors `P` -/
structure GStep (s : LSpec T) (l : Nat) (P X : GLayer) (w' : World T) : Prop where
  input : (w'.layers l).input = some P.out
  par : layerParams w' l = X.ps
  pready : ∀ n, ((w'.layers l).weights = some n ∨ (w'.layers l).bias = some n) → ∃ m, Ready w' n m ∧ m.ops.Nodup
  both : (w'.layers l).weights = none ↔ (w'.layers l).bias = none
  share : s = .softMax → X.dif = P.dif ∧ X.dM = P.dM
  neta : s.weighted = true → (w'.layers l).neta = some X.neta ∧ Ready w' X.neta X.nM ∧ X.nM.shape = X.oM.shape
  mx : s = .norm ∨ s = .eNorm → (w'.layers l).maxScalar = X.mx ∧ 0 < X.mx ∧ X.mx < w'.store.heap.next

/-- what building the feed-forward part of the layers `ls` has done -/
structure GFF (shape : List Nat) (ls : List (LSpec T)) (b inp0 : Nat) (m0 : Mat) (ops : List (Op T)) (K : Ptr → T → Prop)
    (L : Nat → GLayer) (w w' : World T) : Prop where
  grow : Grow (fun l => b ≤ l ∧ l ≤ b + ls.length) (fun q => ∃ k ≤ ls.length, q = (w.layers (b + k)).ref) ops w w'
  first : (L 0).out = inp0 ∧ (L 0).oM = m0 ∧ (w'.layers b).neta = some inp0 ∧ (w'.layers b).input = some inp0
  lay : ∀ k ≤ ls.length, (w'.layers (b + k)).output = some (L k).out ∧ (w'.layers (b + k)).dif = some (L k).dif ∧
    (w'.layers (b + k)).der = (w.layers (b + k)).der ∧ (w'.layers (b + k)).nBias = (w.layers (b + k)).nBias
  out : ∀ k ≤ ls.length, Ready w' (L k).out (L k).oM
  dif : ∀ k ≤ ls.length, Ready w' (L k).dif (L k).dM ∧ (w'.store.nodes (L k).dif).kind = .leaf ∧ (L k).dM.ops.Nodup
  shape : ∀ k ≤ ls.length, (L k).oM.shape = outShapes (ls.take k) shape ∧ (L k).dM.shape = (L k).oM.shape
  step : ∀ k s, ls[k]? = some s → GStep s (b + 1 + k) (L k) (L (k + 1)) w'
  ocell : ∀ k ≤ ls.length, ∀ q ∈ (L k).oM.ops, q ∈ m0.ops ∨ w.store.heap.next ≤ q ∨ ∃ i < ls.length, ownCell w (b + 1 + i) q
  dst : ∀ q ∈ dsts ops, (w.store.heap.next ≤ q ∧ q < w'.store.heap.next) ∨ ∃ i < ls.length, ownCell w (b + 1 + i) q
  keep : ∀ q c, K q c → w.store.heap.next ≤ q ∧ q < w'.store.heap.next
  low : ∀ k s, ls[k]? = some s → (s.weighted = true → ∀ q ∈ (L (k + 1)).nM.ops, w.store.heap.next ≤ q) ∧
    (∀ m ∈ (L (k + 1)).ps, ∀ q ∈ m.ops, w.store.heap.next ≤ q ∧ q < w'.store.heap.next) ∧
    (s = .norm ∨ s = .eNorm → w.store.heap.next ≤ (L (k + 1)).mx)
  apart : ∀ j ≤ ls.length, ∀ q ∈ (L j).dM.ops, w.store.heap.next ≤ q ∧ q ∉ dsts ops ∧ (∀ c, ¬ K q c) ∧
    (∀ k ≤ ls.length, q ∉ (L k).oM.ops) ∧
    ∀ k s, ls[k]? = some s → (s.weighted = true → q ∉ (L (k + 1)).nM.ops) ∧ (∀ m ∈ (L (k + 1)).ps, q ∉ m.ops) ∧
      (s = .norm ∨ s = .eNorm → q ≠ (L (k + 1)).mx)
  disj : ∀ j k, j < k → k ≤ ls.length → (∃ i, j ≤ i ∧ i < k ∧ ls[i]? ≠ some .softMax) → ∀ q ∈ (L j).dM.ops, q ∉ (L k).dM.ops
  run : ∀ h h' x pv, w'.store.heap.next ≤ h.next → (∀ q c, K q c → h.val q = c) → Holds h m0 x →
    List.Forall₂ (List.Forall₂ (Holds h)) ((List.range ls.length).map fun k => (L (k + 1)).ps) pv → exec ops h = .ok () h' →
    (∀ k ≤ ls.length, Holds h' (L k).oM (netFn (ls.take k) (pv.take k) x)) ∧
    ∀ k s, ls[k]? = some s →
      (s.weighted = true → Holds h' (L (k + 1)).nM (s.neta (pv.getD k []) (netFn (ls.take k) (pv.take k) x))) ∧
      (s = .norm ∨ s = .eNorm → h'.val (L (k + 1)).mx =
        max1 ((netFn (ls.take k) (pv.take k) x).flat.map fun v => if lt v zero then GoNum.neg v else v))

theorem gff_nil {shape : List Nat} {b inp0 : Nat} {m0 : Mat} {w w' : World T} (S : SeqAt shape ([] : List (LSpec T)) b inp0 m0 w)
    (he : LayerM.inputFF b (updL b (fun x => { x with ff := true }) w) = .ok () w') :
    ∃ L, GFF shape ([] : List (LSpec T)) b inp0 m0 [] (fun _ _ => False) L w w' := by
  obtain ⟨dif, dM, g, hl, r, hk, hs, hnd, hreg⟩ := wp_ok (inputFF_ok (w := updL b (fun x => { x with ff := true }) w)
    S.pos (by rw [updL_same]; exact S.input) (S.rin.updL _ _)) he
  have g0 := grow_updL (L := (· = b)) (C := fun _ => False) rfl (fun x => { x with ff := true }) w
  have G : Grow (· = b) (fun _ => False) [] w w' := by simpa using g0.trans g
  rw [updL_same] at hl
  have hm0 : ∀ q ∈ m0.ops, q < w.store.heap.next := fun q hq => (S.rin.good.valid q hq).2
  refine ⟨fun _ => ⟨inp0, dif, inp0, m0, dM, m0, [], 0⟩, G.weaken (fun l hl => ⟨by omega, by simp; omega⟩) fun _ h => h.elim,
    ⟨rfl, rfl, by rw [hl], by rw [hl]; exact S.input⟩, fun k hk => ?_, fun _ _ => S.rin.grow G, fun _ _ => ⟨r, hk, hnd⟩, fun k hk => ⟨?_, hs⟩, by simp,
    fun _ _ q hq => Or.inl hq, by simp, fun _ _ h => h.elim, by simp, fun j _ q hq => ⟨(hreg q hq).1, by simp, fun _ h => h, fun _ _ h => ?_, by simp⟩, ?_, ?_⟩
  · have : k = 0 := by simpa using hk
    subst this
    simp only [Nat.add_zero, hl, and_self]
  · have : k = 0 := by simpa using hk
    subst this
    exact S.shape
  · have h1 := (hreg q hq).1
    have := hm0 q h
    have e : (updL b (fun x => { x with ff := true }) w).store.heap.next = w.store.heap.next := rfl
    omega
  · intro j k h1 h2; simp at h2; omega
  · intro h h' x pv _ _ H _ he
    simp only [exec, Out.ok.injEq, true_and] at he
    subst he
    exact ⟨fun k _ => by simpa [netFn] using H, by simp⟩

theorem gff_snoc {shape : List Nat} {ls : List (LSpec T)} {s : LSpec T} {o1 o2 : List (Op T)} {K1 K2 : Ptr → T → Prop}
    {b inp0 fuel inp out : Nat} {m0 inM outM : Mat} {w w1 w1' w2 : World T} {L : Nat → GLayer}
    (S : SeqAt shape (ls ++ [s]) b inp0 m0 w)
    (A : GFF shape ls b inp0 m0 o1 K1 L (updL (b + 1 + ls.length) (fun x => { x with ff := true }) w) w1)
    (hw1 : w1' = updL (b + 1 + ls.length) (fun x => { x with input := (w1.layers (b + ls.length)).output }) w1)
    (P : FFPre s w1' fuel (b + 1 + ls.length) (b + ls.length) inp inM)
    (hsrc : Source w1' (b + ls.length) (b + ls.length))
    (D : FFDone s (b + 1 + ls.length) (ownCell w1' (b + 1 + ls.length)) (· = (w1'.layers (b + ls.length)).ref) inM o2 out outM K2 w1' w2)
    (E : FFMore s (b + 1 + ls.length) (b + ls.length) inM o2 outM K2 w1' w2)
    (hrf : ∃ j ≤ ls.length, (w1.layers (b + ls.length)).ref = (w.layers (b + j)).ref) :
    ∃ L, GFF shape (ls ++ [s]) b inp0 m0 (o1 ++ o2) (fun q v => K1 q v ∨ K2 q v) L w w2 := by
  obtain ⟨l, hl⟩ : ∃ l, l = b + 1 + ls.length := ⟨_, rfl⟩
  obtain ⟨n, hn⟩ : ∃ n, n = ls.length := ⟨_, rfl⟩
  rw [← hl] at A hw1 P D E
  rw [← hn] at hw1 P hsrc D E hrf hl
  obtain ⟨w0, hw0⟩ : ∃ v, v = updL l (fun x => { x with ff := true }) w := ⟨_, rfl⟩
  rw [← hw0] at A
  have hlen : (ls ++ [s]).length = n + 1 := by simp [hn]
  have hs : LayerAt s w l := by rw [hl, hn]; exact S.lay ls.length s (by simp)
  have el1 : w1.layers l = w0.layers l := A.grow.layers l (by omega)
  have el0 : w0.layers l = { w.layers l with ff := true } := by rw [hw0, updL_same]
  have g0 : Grow (· = l) (fun _ => False) [] w w0 := by rw [hw0]; exact grow_updL (L := (· = l)) rfl _ w
  have g1 : Grow (· = l) (fun _ => False) [] w1 w1' := by rw [hw1]; exact grow_updL (L := (· = l)) rfl _ w1
  obtain ⟨hpo, hpd, _⟩ := A.lay n (by omega)
  have el1' : w1'.layers l = { w.layers l with ff := true, input := some (L n).out } := by
    rw [hw1, updL_same, el1, el0, hpo]
  have ne1 : ∀ k, k ≠ l → w1'.layers k = w1.layers k := fun k hk => by rw [hw1, updL_ne _ _ hk]
  have ne0 : ∀ k, k ≠ l → w0.layers k = w.layers k := fun k hk => by rw [hw0, updL_ne _ _ hk]
  have h0n : w0.store.heap.next = w.store.heap.next := by rw [hw0]; rfl
  have h1n : w1'.store.heap.next = w1.store.heap.next := by rw [hw1]; rfl
  have n01 : w.store.heap.next ≤ w1.store.heap.next := by rw [← h0n]; exact A.grow.next
  have n12 : w1.store.heap.next ≤ w2.store.heap.next := by rw [← h1n]; exact D.grow.next
  -- the input is the output of the layer before
  have hinp : inp = (L n).out := by
    have := P.input
    rw [el1'] at this
    exact (Option.some.inj this).symm
  have rin1 := (A.out n (by omega)).grow g1
  have hinM : inM = (L n).oM := by
    rw [← P.rin.mat, hinp, rin1.mat]
  subst hinM
  -- the layer's own cells
  let C : Ptr → Prop := fun q => ∃ k ≤ n + 1, q = (w.layers (b + k)).ref
  have gA : Grow (fun k => b ≤ k ∧ k ≤ b + (n + 1)) C o1 w w1' := by
    have x1 := g0.weaken (L' := fun k => b ≤ k ∧ k ≤ b + (n + 1)) (C' := C) (fun k hk => by omega) (fun _ h => h.elim)
    have x2 := A.grow.weaken (L' := fun k => b ≤ k ∧ k ≤ b + (n + 1)) (C' := C) (fun k hk => by omega)
      (fun q ⟨k, hk, hq⟩ => ⟨k, by omega, by rw [hq, ne0 _ (by omega)]⟩)
    have x3 := g1.weaken (L' := fun k => b ≤ k ∧ k ≤ b + (n + 1)) (C' := C) (fun k hk => by omega) (fun _ h => h.elim)
    simpa using x1.trans (x2.trans x3)
  have own1 : ∀ q, ownCell w1' l q ↔ ownCell w l q := fun q => by
    refine ownCell_congr (by rw [el1']) (by rw [el1']) (fun o hk ho => ?_) q
    obtain ⟨m, hm⟩ := hs.own.mat hs.kind hk ho
    rw [(hm.grow gA).mat, hm.mat]
  have ownlt : ∀ k, k ≤ n → ∀ q, ownCell w (b + 1 + k) q → q < w.store.heap.next := fun k hk q hq => by
    have : (ls ++ [s])[k]? = some ((ls ++ [s])[k]'(by omega)) := by simp
    exact (S.lay k _ this).own_lt hq
  have own0 : ∀ k, k < n → ∀ q, ownCell w0 (b + 1 + k) q ↔ ownCell w (b + 1 + k) q := fun k hk q => by
    have e : w0.layers (b + 1 + k) = w.layers (b + 1 + k) := ne0 _ (by omega)
    exact ownCell_congr (w := w) (congrArg Layer.kind e) (congrArg Layer.output e) (fun _ _ _ => by rw [hw0]; rfl) q
  have hol : ∀ q, ownCell w l q → q < w.store.heap.next := fun q hq => ownlt n (le_refl _) q (by rw [← hl]; exact hq)
  have hoo : ∀ q, ownCell w l q → ∀ k ≤ n, q ∉ (L k).oM.ops := by
    intro q hq k hk hm
    obtain ⟨d1, d2⟩ := S.dis n (by omega) q (by rw [← hl]; exact hq)
    rcases A.ocell k (by omega) q hm with h | h | ⟨i, hi, h⟩
    · exact d1 h
    · have := hol q hq; omega
    · exact d2 i (by omega) ((own0 i (by omega) q).1 h)
  have hd2 : ∀ q ∈ dsts o2, (w1.store.heap.next ≤ q ∧ q < w2.store.heap.next) ∨ ownCell w l q := fun q hq => by
    rcases D.stage.dst q hq with h | h
    · left; omega
    · exact Or.inr ((own1 q).1 h)
  have hd1 : ∀ q ∈ dsts o1, q < w1.store.heap.next := fun q hq => by
    rcases A.dst q hq with h | ⟨i, hi, h⟩
    · exact h.2
    · have := ownlt i (by omega) q ((own0 i (by omega) q).1 h); omega
  have hdl : ∀ j ≤ n, ∀ q ∈ (L j).dM.ops, w.store.heap.next ≤ q ∧ q < w1.store.heap.next := fun j hj q hq =>
    ⟨by rw [← h0n]; exact (A.apart j (by omega) q hq).1, ((A.dif j (by omega)).1.good.valid q hq).2⟩
  have hmn : ∀ q ∈ m0.ops, q < w.store.heap.next := fun q hq => (S.rin.good.valid q hq).2
  have elw : ∀ k, k ≠ l → w2.layers k = w1.layers k := fun k hk => by rw [D.grow.layers k hk, ne1 k hk]
  -- the new layer's errors
  obtain ⟨d, dM, hd, rd, kd, ndd, sd, hdM⟩ : ∃ d dM, (w2.layers l).dif = some d ∧ Ready w2 d dM ∧ (w2.store.nodes d).kind = .leaf ∧
      dM.ops.Nodup ∧ dM.shape = outM.shape ∧
      ((s = .softMax ∧ d = (L n).dif ∧ dM = (L n).dM) ∨ (s ≠ .softMax ∧ DifAt l d dM o2 outM K2 w1' w2)) := by
    by_cases h : s = .softMax
    · have r := (A.dif n (by omega)).1.grow g1
      have k1 : (w2.store.nodes (L n).dif).kind = .leaf := by
        rw [D.grow.kind _ r.lt, g1.kind _ (A.dif n (by omega)).1.lt]; exact (A.dif n (by omega)).2.1
      refine ⟨(L n).dif, (L n).dM, ?_, r.grow D.grow, k1, (A.dif n (by omega)).2.2, ?_, Or.inl ⟨h, rfl, rfl⟩⟩
      · rw [E.difp h _ hsrc, ne1 _ (by omega), hpd]
      · rw [(A.shape n (by omega)).2, D.shape, h]; rfl
    · obtain ⟨d, dM, h1, h2⟩ := E.difn h
      exact ⟨d, dM, h1, h2.ready, h2.leaf, h2.nodup, h2.shape, Or.inr ⟨h, h2⟩⟩
  obtain ⟨ne, nM, hneta⟩ : ∃ ne nM, s.weighted = true → (w2.layers l).neta = some ne ∧ Ready w2 ne nM ∧ nM.shape = outM.shape ∧
      (∀ q ∈ nM.ops, w1.store.heap.next ≤ q ∧ q ∉ dM.ops) ∧
      ∀ h h' x pv, w2.store.heap.next ≤ h.next → (∀ q c, K2 q c → h.val q = c) → Holds h (L n).oM x →
        List.Forall₂ (Holds h) (layerParams w2 l) pv → exec o2 h = .ok () h' → Holds h' nM (s.neta pv x) := by
    by_cases h : s.weighted = true
    · obtain ⟨ne, nM, x1, x2, x3, x4, x5⟩ := E.neta h
      exact ⟨ne, nM, fun _ => ⟨x1, x2, x3, fun q hq => ⟨by rw [← h1n]; exact (x4 q hq).1, (x4 q hq).2 d dM hd rd⟩, x5⟩⟩
    · exact ⟨0, dM, fun h' => absurd h' h⟩
  obtain ⟨X, hX⟩ : ∃ x : GLayer, x = ⟨out, d, ne, outM, dM, nM, layerParams w2 l, (w2.layers l).maxScalar⟩ := ⟨_, rfl⟩
  obtain ⟨L', hL'⟩ : ∃ f : Nat → GLayer, f = fun k => if k = n + 1 then X else L k := ⟨_, rfl⟩
  have e : ∀ k, k ≤ n → L' k = L k := fun k hk => by rw [hL']; exact if_neg (by omega)
  have en : L' (n + 1) = X := by rw [hL']; exact if_pos rfl
  have hidx : ∀ k s', (ls ++ [s])[k]? = some s' → (k < n ∧ ls[k]? = some s') ∨ (k = n ∧ s' = s) := by
    intro k s' h
    have hk := (List.getElem?_eq_some_iff.1 h).1
    rw [hlen] at hk
    rcases Nat.lt_or_ge k n with h1 | h1
    · left; rw [List.getElem?_append_left (by omega)] at h; exact ⟨h1, h⟩
    · have : k = n := by omega
      subst this
      rw [hn, List.getElem?_append_right (le_refl _)] at h
      simp at h
      exact Or.inr ⟨rfl, h.symm⟩
  have tk : ∀ k, k ≤ n → (ls ++ [s]).take k = ls.take k := fun k hk => List.take_append_of_le_length (by omega)
  have tkn : ls.take n = ls := by rw [hn]; exact List.take_length
  have hod : ∀ q ∈ outM.ops, q ∈ (L n).oM.ops ∨ w1.store.heap.next ≤ q ∨ ownCell w l q := fun q hq => by
    rcases D.stage.out q hq with h | h | h
    · exact Or.inl h
    · right; left; omega
    · exact Or.inr (Or.inr ((own1 q).1 h))
  have hpar : ∀ m ∈ layerParams w2 l, ∀ q ∈ m.ops, w1.store.heap.next ≤ q ∧ q < w2.store.heap.next ∧ q ∉ dsts o2 := fun m hm q hq => by
    have := D.stage.par (layerParams w2 l) (by simp) m hm q hq
    exact ⟨by omega, this.2⟩
  -- the error cells of the old layers avoid what the new layer uses
  have old : ∀ j ≤ n, ∀ q ∈ (L j).dM.ops, w.store.heap.next ≤ q ∧ q ∉ dsts (o1 ++ o2) ∧ (∀ c, ¬ (K1 q c ∨ K2 q c)) ∧
      (∀ k ≤ n + 1, q ∉ (L' k).oM.ops) ∧
      ∀ k s', (ls ++ [s])[k]? = some s' → (s'.weighted = true → q ∉ (L' (k + 1)).nM.ops) ∧ (∀ m ∈ (L' (k + 1)).ps, q ∉ m.ops) ∧
        (s' = .norm ∨ s' = .eNorm → q ≠ (L' (k + 1)).mx) := by
    intro j hj q hq
    obtain ⟨b1, b2⟩ := hdl j hj q hq
    obtain ⟨-, a2, a3, a4, a5⟩ := A.apart j (by omega) q hq
    refine ⟨b1, ?_, ?_, fun k hk => ?_, fun k s' h => ?_⟩
    · rw [dsts_append, List.mem_append]
      rintro (h | h)
      · exact a2 h
      · rcases hd2 q h with h | h
        · omega
        · have := hol q h; omega
    · rintro c (h | h)
      · exact a3 c h
      · have := (D.stage.keep q c h).1; omega
    · rcases Nat.lt_or_ge n k with h | h
      · have : k = n + 1 := by omega
        subst this
        rw [en, hX]
        intro hm
        rcases hod q hm with h | h | h
        · exact a4 n (by omega) h
        · omega
        · have := hol q h; omega
      · rw [e k h]; exact a4 k (by omega)
    · rcases hidx k s' h with ⟨h1, h2⟩ | ⟨rfl, rfl⟩
      · rw [e (k + 1) (by omega)]; exact a5 k s' h2
      · rw [en, hX]
        refine ⟨fun h1 h2 => ?_, fun m hm h2 => ?_, fun h1 h2 => ?_⟩
        · have := ((hneta h1).2.2.2.1 q h2).1; omega
        · have := (hpar m hm q h2).1; omega
        · have := (E.mx h1).1
          simp only at h2; omega
  have G : Grow (fun k => b ≤ k ∧ k ≤ b + (n + 1)) C (o1 ++ o2) w w2 := by
    refine gA.trans (D.grow.weaken (fun k hk => by omega) fun q hq => ?_)
    obtain ⟨j, hj, h⟩ := hrf
    exact ⟨j, by omega, by rw [hq, ne1 _ (by omega), h]⟩
  refine ⟨L', by rw [hlen]; exact G, ?_, ?_, ?_, ?_, ?_, ?_, ?_, ?_, ?_, ?_, ?_, ?_, ?_⟩
  · rw [e 0 (by omega), elw b (by omega)]; exact A.first
  · intro k hk
    rw [hlen] at hk
    rcases Nat.lt_or_ge n k with h | h
    · have : k = n + 1 := by omega
      subst this
      rw [en, hX, show b + (n + 1) = l by omega]
      refine ⟨D.output, hd, ?_⟩
      rw [E.der, E.nb, el1']; exact ⟨rfl, rfl⟩
    · rw [e k h, elw _ (by omega), (A.lay k (by omega)).1, (A.lay k (by omega)).2.1, (A.lay k (by omega)).2.2.1, (A.lay k (by omega)).2.2.2, ne0 _ (by omega)]
      exact ⟨rfl, rfl, rfl, rfl⟩
  · intro k hk
    rw [hlen] at hk
    rcases Nat.lt_or_ge n k with h | h
    · have : k = n + 1 := by omega
      subst this
      rw [en, hX]; exact D.ready
    · rw [e k h]; exact ((A.out k (by omega)).grow g1).grow D.grow
  · intro k hk
    rw [hlen] at hk
    rcases Nat.lt_or_ge n k with h | h
    · have : k = n + 1 := by omega
      subst this
      rw [en, hX]; exact ⟨rd, kd, ndd⟩
    · rw [e k h]
      obtain ⟨a1, a2, a3⟩ := A.dif k (by omega)
      exact ⟨(a1.grow g1).grow D.grow, by rw [D.grow.kind _ (a1.grow g1).lt, g1.kind _ a1.lt]; exact a2, a3⟩
  · intro k hk
    rw [hlen] at hk
    rcases Nat.lt_or_ge n k with h | h
    · have : k = n + 1 := by omega
      subst this
      have ht : (ls ++ [s]).take (n + 1) = ls ++ [s] := by rw [← hlen]; exact List.take_length
      rw [en, hX, ht, outShapes_append]
      refine ⟨?_, sd⟩
      show outM.shape = _
      rw [D.shape, (A.shape n (by omega)).1, tkn]
    · rw [e k h, tk k h]; exact A.shape k (by omega)
  · intro k s' h
    rcases hidx k s' h with ⟨h1, h2⟩ | ⟨rfl, rfl⟩
    · rw [e k (by omega), e (k + 1) (by omega)]
      have Q := A.step k s' h2
      have ek := elw (b + 1 + k) (by omega)
      have gr := (g1.weaken (C' := (· = (w1'.layers (b + n)).ref)) (fun _ h => h) (fun _ h => h.elim)).trans D.grow
      refine ⟨by rw [ek]; exact Q.input, ?_, fun n' hn' => ?_, by rw [ek]; exact Q.both, Q.share, fun h => ?_, fun h => ?_⟩
      · rw [← Q.par]
        exact layerParams_grow gr (by omega) Q.pready
      · rw [ek] at hn'
        obtain ⟨m, m1, m2⟩ := Q.pready n' hn'
        exact ⟨m, m1.grow gr, m2⟩
      · rw [ek]
        obtain ⟨q1, q2, q3⟩ := Q.neta h
        exact ⟨q1, (q2.grow g1).grow D.grow, q3⟩
      · rw [ek]
        obtain ⟨q1, q2, q3⟩ := Q.mx h
        exact ⟨q1, q2, by omega⟩
    · rw [e k (le_refl _), en, ← hl, hX]
      refine ⟨by rw [E.input, el1'], rfl, D.pready, D.both, fun h => ?_, fun h => ?_, fun h => ?_⟩
      · rcases hdM with ⟨_, h1, h2⟩ | ⟨h1, _⟩
        · exact ⟨h1, h2⟩
        · exact absurd h h1
      · obtain ⟨q1, q2, q3, _⟩ := hneta h
        exact ⟨q1, q2, q3⟩
      · obtain ⟨q1, q2, _⟩ := E.mx h
        have := P.pos
        exact ⟨rfl, Nat.lt_of_lt_of_le this q1, q2⟩
  · intro k hk q hq
    rw [hlen] at hk ⊢
    have hold : ∀ k ≤ n, ∀ q ∈ (L k).oM.ops, q ∈ m0.ops ∨ w.store.heap.next ≤ q ∨ ∃ i < n + 1, ownCell w (b + 1 + i) q := by
      intro k hk q hq
      rcases A.ocell k (by omega) q hq with h | h | ⟨i, hi, h⟩
      · exact Or.inl h
      · right; left; omega
      · exact Or.inr (Or.inr ⟨i, by omega, (own0 i (by omega) q).1 h⟩)
    rcases Nat.lt_or_ge n k with h | h
    · have : k = n + 1 := by omega
      subst this
      rw [en, hX] at hq
      rcases hod q hq with h | h | h
      · exact hold n (le_refl _) q h
      · right; left; omega
      · exact Or.inr (Or.inr ⟨n, by omega, by rw [← hl]; exact h⟩)
    · rw [e k h] at hq
      exact hold k h q hq
  · intro q hq
    rw [dsts_append, List.mem_append] at hq
    rw [hlen]
    rcases hq with hq | hq
    · rcases A.dst q hq with h | ⟨i, hi, h⟩
      · left; omega
      · exact Or.inr ⟨i, by omega, (own0 i (by omega) q).1 h⟩
    · rcases hd2 q hq with h | h
      · left; omega
      · exact Or.inr ⟨n, by omega, by rw [← hl]; exact h⟩
  · rintro q c (h | h)
    · have := A.keep q c h; omega
    · have := D.stage.keep q c h; omega
  · intro k s' h
    rcases hidx k s' h with ⟨h1, h2⟩ | ⟨rfl, rfl⟩
    · rw [e (k + 1) (by omega)]
      obtain ⟨q1, q2, q3⟩ := A.low k s' h2
      refine ⟨fun h q hq => by have := q1 h q hq; omega, fun m hm q hq => by have := q2 m hm q hq; omega, fun h => by have := q3 h; omega⟩
    · rw [en, hX]
      refine ⟨fun h q hq => ?_, fun m hm q hq => ?_, fun h => ?_⟩
      · have := ((hneta h).2.2.2.1 q hq).1; omega
      · have := hpar m hm q hq; omega
      · have := (E.mx h).1
        show _ ≤ (w2.layers l).maxScalar
        omega
  · intro j hj q hq
    rw [hlen] at hj ⊢
    rcases Nat.lt_or_ge n j with h | h
    · have : j = n + 1 := by omega
      subst this
      rw [en, hX] at hq
      simp only at hq
      rcases hdM with ⟨h1, h2, h3⟩ | ⟨h1, h2⟩
      · rw [h3] at hq
        exact old n (le_refl _) q hq
      · obtain ⟨f1, f2, f3, f4, f5⟩ := h2.fresh q hq
        rw [h1n] at f1
        refine ⟨by omega, ?_, ?_, fun k hk => ?_, fun k s' h => ?_⟩
        · rw [dsts_append, List.mem_append]
          rintro (h | h)
          · have := hd1 q h; omega
          · exact f2 h
        · rintro c (h | h)
          · have := A.keep q c h; omega
          · exact f4 c h
        · rcases Nat.lt_or_ge n k with h | h
          · have : k = n + 1 := by omega
            subst this
            rw [en, hX]; exact f3
          · rw [e k h]
            intro hm
            have := ((A.out k (by omega)).good.valid q hm).2; omega
        · rcases hidx k s' h with ⟨k1, k2⟩ | ⟨rfl, rfl⟩
          · rw [e (k + 1) (by omega)]
            have Q := A.step k s' k2
            refine ⟨fun h hm => ?_, fun m hm hq' => ?_, fun h hm => ?_⟩
            · have := ((Q.neta h).2.1.good.valid q hm).2; omega
            · have := ((A.low k s' k2).2.1 m hm q hq').2; omega
            · have := (Q.mx h).2.2; omega
          · rw [en, hX]
            exact ⟨fun h hm => ((hneta h).2.2.2.1 q hm).2 hq, f5, fun h hm => (E.mx h).2.2.1 d dM hd rd (by
              have hm' : q = (w2.layers l).maxScalar := hm
              rw [← hm']; exact hq)⟩
    · rw [e j h] at hq
      exact old j h q hq
  · intro j k hjk hk hi q hq hq'
    rw [hlen] at hk
    rw [e j (by omega)] at hq
    obtain ⟨i, i1, i2, i3⟩ := hi
    rcases Nat.lt_or_ge n k with h | h
    · have : k = n + 1 := by omega
      subst this
      rw [en, hX] at hq'
      simp only at hq'
      rcases hdM with ⟨h1, h2, h3⟩ | ⟨h1, h2⟩
      · rw [h3] at hq'
        have hin : i < n := by
          rcases Nat.lt_or_ge i n with h | h
          · exact h
          · have : i = n := by omega
            subst this
            rw [hn, List.getElem?_append_right (le_refl _)] at i3
            simp [h1] at i3
        refine A.disj j n (by omega) (by omega) ⟨i, i1, hin, ?_⟩ q hq hq'
        rwa [List.getElem?_append_left (by omega)] at i3
      · have := (h2.fresh q hq').1
        have := hdl j (by omega) q hq
        omega
    · rw [e k h] at hq'
      refine A.disj j k hjk (by omega) ⟨i, i1, i2, ?_⟩ q hq hq'
      rwa [List.getElem?_append_left (by omega)] at i3
  · intro h h' x pv hnx hK H hps he
    rw [exec_append_ok] at he
    obtain ⟨hm, e1, e2⟩ := he
    obtain ⟨f1, f2⟩ := exec_frame e1
    obtain ⟨f3, f4⟩ := exec_frame e2
    rw [hlen, List.range_succ, List.map_append] at hps
    have hol1 : (List.range n).map (fun k => (L' (k + 1)).ps) = (List.range ls.length).map fun k => (L (k + 1)).ps := by
      rw [← hn]
      exact List.map_congr_left fun k hk => by rw [e (k + 1) (by have := List.mem_range.1 hk; omega)]
    rw [hol1] at hps
    obtain ⟨pv1, pv2, hpe, hp1, hp2⟩ : ∃ pv1 pv2, pv = pv1 ++ pv2 ∧ List.Forall₂ (List.Forall₂ (Holds h)) ((List.range ls.length).map fun k => (L (k + 1)).ps) pv1 ∧
        List.Forall₂ (List.Forall₂ (Holds h)) ([n].map fun k => (L' (k + 1)).ps) pv2 := by
      have a := (List.forall₂_take_append pv _ _ hps.flip).flip
      have b := (List.forall₂_drop_append pv _ _ hps.flip).flip
      exact ⟨_, _, (List.take_append_drop _ pv).symm, a, b⟩
    have hlp : pv1.length = n := by rw [← hp1.length_eq]; simp [hn]
    simp only [List.map_cons, List.map_nil, en, hX] at hp2
    cases hp2 with
    | @cons _ p0 _ _ hp2 hp3 =>
    cases hp3
    obtain ⟨r1, r2⟩ := A.run h hm x pv1 (by omega) (fun q c hk => hK q c (Or.inl hk)) H hp1 e1
    have Hin := r1 n (by omega)
    have hpk : List.Forall₂ (Holds hm) (layerParams w2 l) p0 := by
      rw [List.forall₂_iff_get] at hp2 ⊢
      refine ⟨hp2.1, fun i i1 i2 => (hp2.2 i i1 i2).kept (by omega) fun q hq => f2 q fun hd => ?_⟩
      have := (hpar _ (List.get_mem _ ⟨i, i1⟩) q hq).1
      have := hd1 q hd
      omega
    have hK2 : ∀ q c, K2 q c → hm.val q = c := fun q c hk => by
      rw [f2 q fun hd => by have := hd1 q hd; have := (D.stage.keep q c hk).1; omega]
      exact hK q c (Or.inr hk)
    have Hout := D.stage.run hm h' _ [p0] (by omega) hK2 Hin (.cons hpk .nil) e2
    have keep : ∀ (m : Mat) (t : STensor T), Holds hm m t → (∀ q ∈ m.ops, q < w1.store.heap.next ∧ ¬ ownCell w l q) → Holds h' m t :=
      fun m t Hm hc => Hm.kept (by omega) fun q hq => f4 q fun hd => by
        obtain ⟨c1, c2⟩ := hc q hq
        rcases hd2 q hd with h | h
        · omega
        · exact c2 h
    have tp : ∀ k, k ≤ n → pv.take k = pv1.take k := fun k hk => by
      rw [hpe]; exact List.take_append_of_le_length (by omega)
    have tpn : pv1.take n = pv1 := by rw [← hlp]; exact List.take_length
    rw [tkn, tpn] at Hin Hout
    refine ⟨fun k hk => ?_, fun k s' h => ?_⟩
    · rw [hlen] at hk
      rcases Nat.lt_or_ge n k with h | h
      · have : k = n + 1 := by omega
        subst this
        have ht : (ls ++ [s]).take (n + 1) = ls ++ [s] := by rw [← hlen]; exact List.take_length
        have ht' : pv.take (n + 1) = pv1 ++ [p0] := by rw [hpe]; exact List.take_of_length_le (by simp [hlp])
        rw [en, hX, ht, ht', netFn_append (by omega)]
        exact Hout
      · rw [e k h, tk k h, tp k h]
        refine keep _ _ (r1 k (by omega)) fun q hq => ⟨((A.out k (by omega)).good.valid q hq).2, fun ho => hoo q ho k h hq⟩
    · rcases hidx k s' h with ⟨k1, k2⟩ | ⟨rfl, rfl⟩
      · rw [e (k + 1) (by omega), tk k (by omega), tp k (by omega)]
        obtain ⟨q1, q2⟩ := r2 k s' k2
        have Q := A.step k s' k2
        obtain ⟨l1, _, l3⟩ := A.low k s' k2
        refine ⟨fun hw => ?_, fun hw => ?_⟩
        · have : pv.getD k [] = pv1.getD k [] := by
            rw [hpe, List.getD_eq_getElem?_getD, List.getElem?_append_left (by omega), ← List.getD_eq_getElem?_getD]
          rw [this]
          refine keep _ _ (q1 hw) fun q hq => ⟨((Q.neta hw).2.1.good.valid q hq).2, fun ho => ?_⟩
          have := l1 hw q hq; have := hol q ho; omega
        · rw [f4 _ fun hd => ?_]
          · exact q2 hw
          · have := l3 hw
            have := (Q.mx hw).2.2
            rcases hd2 _ hd with h | h
            · omega
            · have := hol _ h; omega
      · rw [en, hX, tk k (le_refl _), tp k (le_refl _), tkn, tpn]
        refine ⟨fun hw => ?_, fun hw => ?_⟩
        · have : pv.getD k [] = p0 := by
            rw [hpe, List.getD_eq_getElem?_getD, List.getElem?_append_right (by omega), hlp, Nat.sub_self]; rfl
          rw [this]
          exact (hneta hw).2.2.2.2 hm h' _ p0 (by omega) hK2 Hin hpk e2
        · exact (E.mx hw).2.2.2 hm h' _ (by omega) hK2 Hin e2

/-- Which scalar counts the uses of each layer, and what it has counted: a `Flatten` layer counts with the layer before it. -/
structure GRefs (ls : List (LSpec T)) (b : Nat) (w w' : World T) : Prop where
  root : ∀ k ≤ ls.length, ∃ r ≤ k, (w'.layers (b + k)).ref = (w.layers (b + r)).ref ∧
    (∀ i, r ≤ i → i < k → ls[i]? = some .flatten) ∧ (r = 0 ∨ ls[r - 1]? ≠ some .flatten)
  count : ∀ k ≤ ls.length, (k = 0 ∨ ls[k - 1]? ≠ some .flatten) → w'.store.heap.val (w.layers (b + k)).ref = uses (ls.drop k)
  own : ∀ k ≤ ls.length, ¬ (k = 0 ∨ ls[k - 1]? ≠ some .flatten) → w'.store.heap.val (w.layers (b + k)).ref = add zero one

theorem uses_nil : uses ([] : List (LSpec T)) = add zero one := rfl

theorem uses_other {ls : List (LSpec T)} {s : LSpec T} (h : s ≠ .flatten) : uses (ls ++ [s]) = uses ls := by
  unfold uses
  congr 1
  induction ls with
  | nil => cases s <;> first | rfl | exact absurd rfl h
  | cons a ls ih =>
    cases a <;> simp_all [LSpec.isFlatten, List.takeWhile_cons]

theorem uses_stop {ls : List (LSpec T)} {s : LSpec T} (i : Nat) (hi : i < ls.length) (h : ls[i]? ≠ some .flatten) : uses (ls ++ [s]) = uses ls := by
  unfold uses
  congr 1
  induction ls generalizing i with
  | nil => simp at hi
  | cons a ls ih =>
    cases i with
    | zero => cases a <;> simp_all [LSpec.isFlatten, List.takeWhile_cons]
    | succ i =>
      have := ih i (by simpa using hi) (by simpa using h)
      cases a <;> simp_all [LSpec.isFlatten, List.takeWhile_cons]

theorem uses_all {ls : List (LSpec T)} (h : ∀ i < ls.length, ls[i]? = some .flatten) : uses (ls ++ [.flatten]) = add (uses ls) (add zero one) := by
  have hr : ls = List.replicate ls.length .flatten := List.eq_replicate_iff.2 ⟨rfl, fun x hx => by
    obtain ⟨i, hi, rfl⟩ := List.mem_iff_getElem.1 hx
    have := h i hi
    rw [List.getElem?_eq_getElem hi] at this
    exact Option.some.inj this⟩
  have ht : ∀ n, (List.replicate n (.flatten : LSpec T)).takeWhile LSpec.isFlatten = List.replicate n .flatten :=
    fun n => by induction n with
    | zero => rfl
    | succ n ih => rw [List.replicate_succ, List.takeWhile_cons_of_pos rfl, ih]
  rw [hr]
  rw [show List.replicate ls.length (.flatten : LSpec T) ++ [.flatten] = List.replicate (ls.length + 1) .flatten from
    (List.replicate_succ' ..).symm]
  unfold uses
  rw [ht, ht, List.replicate_succ', List.foldl_append]
  rfl

theorem gff_trace {shape : List Nat} {ls : List (LSpec T)} {b inp0 : Nat} {m0 : Mat} {ops : List (Op T)} {K : Ptr → T → Prop}
    {w w' : World T} (tr : FFTrace b ls ops K w w') : SeqAt shape ls b inp0 m0 w →
    (∀ k ≤ ls.length, w.store.heap.val (w.layers (b + k)).ref = add zero one) →
    (∀ j k, j < k → k ≤ ls.length → (w.layers (b + j)).ref ≠ (w.layers (b + k)).ref) →
    (∃ L, GFF shape ls b inp0 m0 ops K L w w') ∧ GRefs ls b w w' := by
  induction tr with
  | @nil w w' he =>
    intro S hv _
    refine ⟨gff_nil S he, ?_⟩
    obtain ⟨dif, dM, g, hl, -⟩ := wp_ok (inputFF_ok (w := updL b (fun x => { x with ff := true }) w)
      S.pos (by rw [updL_same]; exact S.input) (S.rin.updL _ _)) he
    rw [updL_same] at hl
    have hval : w'.store.heap.val (w.layers (b + 0)).ref = add zero one := by
      rw [g.val _ (S.ref 0 (Nat.le_refl _)).2.1 id]; exact hv 0 (Nat.le_refl _)
    refine ⟨fun k hk => ?_, fun k hk _ => ?_, fun k hk h => ?_⟩ <;> (have : k = 0 := by simpa using hk) <;> subst this
    · exact ⟨0, le_refl _, by rw [Nat.add_zero, hl], fun i h1 h2 => by omega, Or.inl rfl⟩
    · exact hval
    · exact absurd (Or.inl rfl) h
  | @snoc ls s o1 o2 K1 K2 w w1 w1' w2 fuel inp out inM outM tr hw1 hb P hsrc D E ih =>
    intro S hv hinj
    obtain ⟨n, hn⟩ : ∃ n, n = ls.length := ⟨_, rfl⟩
    have hlen : (ls ++ [s]).length = n + 1 := by simp [hn]
    have S0 := S.init (fun x => { x with ff := true })
    have rf0 : ∀ k, ((updL (b + 1 + ls.length) (fun x => { x with ff := true }) w).layers k).ref = (w.layers k).ref := fun k => by
      unfold updL; dsimp only; split
      · next h => rw [h]
      · rfl
    obtain ⟨⟨L, A⟩, R⟩ := ih S0 (fun k hk => by rw [rf0]; exact hv k (by omega))
      (fun j k h1 h2 => by rw [rf0, rf0]; exact hinj j k h1 (by omega))
    have rf1 : ∀ k, (w1'.layers k).ref = (w1.layers k).ref := fun k => by
      rw [hw1]; unfold updL; dsimp only; split
      · next h => rw [h]
      · rfl
    have hp1 : w1'.store = w1.store := by rw [hw1]; rfl
    have hl1 : (w1'.layers (b + 1 + ls.length)).ref = (w.layers (b + 1 + ls.length)).ref := by
      rw [rf1, A.grow.layers _ (by omega), rf0]
    obtain ⟨r, hr, hroot, hfl, hnf⟩ := R.root n (by omega)
    rw [rf0, hn] at hroot
    refine ⟨gff_snoc S A hw1 P hsrc D E ⟨r, by omega, hroot⟩, ?_⟩
    -- values before the layer
    have rlt : ∀ k ≤ n + 1, (w.layers (b + k)).ref < w1.store.heap.next := fun k hk =>
      Nat.lt_of_lt_of_le (S.ref k (by omega)).2.1 A.grow.next
    have inj : ∀ j k, j ≤ n + 1 → k ≤ n + 1 → (w.layers (b + j)).ref = (w.layers (b + k)).ref → j = k := fun j k hj hk h => by
      rcases Nat.lt_trichotomy j k with h1 | h1 | h1
      · exact absurd h (hinj j k h1 (by omega))
      · exact h1
      · exact absurd h.symm (hinj k j h1 (by omega))
    have vnew : w1.store.heap.val (w.layers (b + (n + 1))).ref = add zero one := by
      rw [A.grow.val _ (S.ref (n + 1) (by omega)).2.1 ?_]
      · exact hv (n + 1) (by omega)
      · rintro ⟨k, hk, he⟩
        rw [rf0] at he
        have := inj _ _ (le_refl _) (by omega) he
        omega
    have vold : ∀ k ≤ n, (k = 0 ∨ ls[k - 1]? ≠ some .flatten) → w1.store.heap.val (w.layers (b + k)).ref = uses (ls.drop k) :=
      fun k hk h => by have := R.count k (by omega) h; rwa [rf0] at this
    have vown : ∀ k ≤ n, ¬ (k = 0 ∨ ls[k - 1]? ≠ some .flatten) → w1.store.heap.val (w.layers (b + k)).ref = add zero one :=
      fun k hk h => by have := R.own k (by omega) h; rwa [rf0] at this
    have off : ∀ k ≤ n + 1, k ≠ r → w2.store.heap.val (w.layers (b + k)).ref = w1.store.heap.val (w.layers (b + k)).ref := fun k hk hne => by
      rw [D.grow.val _ (by rw [hp1]; exact rlt k hk) ?_, hp1]
      rw [rf1, hroot]
      exact fun h => hne (inj _ _ hk (by omega) h)
    have ix : ∀ k, k ≤ n → ((k = 0 ∨ (ls ++ [s])[k - 1]? ≠ some .flatten) ↔ (k = 0 ∨ ls[k - 1]? ≠ some .flatten)) := fun k hk => by
      rcases Nat.eq_zero_or_pos k with h | h
      · simp [h]
      · rw [List.getElem?_append_left (by omega)]
    have ixn : (n + 1 = 0 ∨ (ls ++ [s])[n + 1 - 1]? ≠ some .flatten) ↔ s ≠ .flatten := by
      rw [Nat.add_sub_cancel, hn, List.getElem?_append_right (le_refl _)]
      simp
    have dr : ∀ k, k ≤ n → (ls ++ [s]).drop k = ls.drop k ++ [s] := fun k hk => by
      rw [List.drop_append_of_le_length (by omega)]
    have drn : (ls ++ [s]).drop (n + 1) = [] := by rw [← hlen]; exact List.drop_length
    have hl2 : b + 1 + ls.length = b + (n + 1) := by omega
    have elw : ∀ k, k ≤ n → (w2.layers (b + k)).ref = (w1.layers (b + k)).ref := fun k hk => by
      rw [D.grow.layers _ (by omega), rf1]
    refine ⟨fun k hk => ?_, fun k hk h => ?_, fun k hk h => ?_⟩ <;> rw [hlen] at hk
    · rcases Nat.lt_or_ge n k with hkn | hkn
      · have : k = n + 1 := by omega
        subst this
        by_cases hs : s = .flatten
        · refine ⟨r, by omega, ?_, fun i h1 h2 => ?_, (ix r hr).2 hnf⟩
          · rw [← hl2, (E.refF hs).1, rf1, hroot]
          · rcases Nat.lt_or_ge i n with h | h
            · rw [List.getElem?_append_left (by omega)]; exact hfl i h1 h
            · have : i = n := by omega
              subst this
              rw [hn, List.getElem?_append_right (le_refl _)]
              simp [hs]
        · exact ⟨n + 1, le_refl _, by rw [← hl2, (E.ref hs).1, hl1], fun i h1 h2 => by omega, ixn.2 hs⟩
      · obtain ⟨r', a1, a2, a3, a4⟩ := R.root k (by omega)
        rw [rf0] at a2
        refine ⟨r', a1, by rw [elw k hkn, a2], fun i h1 h2 => ?_, (ix r' (by omega)).2 a4⟩
        rw [List.getElem?_append_left (by omega)]; exact a3 i h1 h2
    · rcases Nat.lt_or_ge n k with hkn | hkn
      · have : k = n + 1 := by omega
        subst this
        rw [off _ hk (by omega), vnew, drn, uses_nil]
      · have h' := (ix k hkn).1 h
        rw [dr k hkn]
        by_cases hkr : k = r
        · subst hkr
          have hrv : (w1'.layers (b + ls.length)).ref = (w.layers (b + k)).ref := by rw [rf1, hroot]
          by_cases hs : s = .flatten
          · have x := (E.refF hs).2
            rw [hrv, hl1, hp1, vold k hkn h', hl2, vnew] at x
            rw [x, hs, uses_all]
            intro i hi
            rw [List.length_drop] at hi
            rw [List.getElem?_drop]
            exact hfl (k + i) (by omega) (by omega)
          · have x := (E.ref hs).2
            rw [hrv, hp1, vold k hkn h'] at x
            rw [x, uses_other hs]
        · rw [off k hk hkr, vold k hkn h']
          by_cases hs : s = .flatten
          · rw [uses_stop (r - 1 - k) ?_ ?_]
            · have : k < r := by
                rcases Nat.lt_trichotomy k r with h1 | h1 | h1
                · exact h1
                · exact absurd h1 hkr
                · exact absurd (hfl (k - 1) (by omega) (by omega)) (h'.resolve_left (by omega))
              rw [List.length_drop]; omega
            · have : k < r := by
                rcases Nat.lt_trichotomy k r with h1 | h1 | h1
                · exact h1
                · exact absurd h1 hkr
                · exact absurd (hfl (k - 1) (by omega) (by omega)) (h'.resolve_left (by omega))
              rw [List.getElem?_drop, show k + (r - 1 - k) = r - 1 by omega]
              exact hnf.resolve_left (by omega)
          · rw [uses_other hs]
    · rcases Nat.lt_or_ge n k with hkn | hkn
      · have : k = n + 1 := by omega
        subst this
        rw [off _ hk (by omega), vnew]
      · have h' := fun x => h ((ix k hkn).2 x)
        have hkr : k ≠ r := fun e => h' (by rw [e]; exact hnf)
        rw [off k hk hkr, vown k hkn h']

end Godeep
