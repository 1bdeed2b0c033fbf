import Verif.Lemmas.BranchMake
import Mathlib.Data.Finset.Card
/-
  `Build` of a graph of layers.
-/
set_option linter.unusedSectionVars false

namespace Godeep
open Spec GoNum

variable {T : Type} [GoNum T]

/-- the layers that layer number `k` reads -/
def greads (ns : List (BNode T)) : Nat → List Nat
  | 0 => []
  | k + 1 => match ns[k]? with
    | some n => n.reads
    | none => []

/-- while the layers `b .. b + N` are being built, starting from state `w0`; no counter exceeds `n` -/
structure BInv (b N n : Nat) (w0 w : World T) : Prop where
  refs : Refs (fun l => b ≤ l ∧ l ≤ b + N) w0 w
  cnt : ∀ k ≤ N, (w.layers (b + k)).ref ≠ 0 → w0.store.heap.next ≤ (w.layers (b + k)).ref ∧
    (w.layers (b + k)).ref < w.store.heap.next ∧
    ∃ c, 0 < c ∧ c ≤ n ∧ w.store.heap.val (w.layers (b + k)).ref = counted c
  inj : ∀ j k, j ≤ N → k ≤ N → (w.layers (b + j)).ref = (w.layers (b + k)).ref → (w.layers (b + j)).ref ≠ 0 → j = k
  flg : ∀ k ≤ N, (w.layers (b + k)).build = true → (w.layers (b + k)).ref ≠ 0

/-- number of layers that are not built -/
def unb (b N : Nat) (w : World T) : Nat :=
  ((Finset.range (N + 1)).filter fun k => (w.layers (b + k)).build = false).card

theorem unb_eq {b N : Nat} {w w' : World T} (h : ∀ k ≤ N, (w'.layers (b + k)).build = (w.layers (b + k)).build) :
    unb b N w' = unb b N w := by
  unfold unb
  congr 1
  refine Finset.filter_congr fun k hk => ?_
  rw [h k (by have := Finset.mem_range.1 hk; omega)]

theorem unb_lt {b N k : Nat} {w w' : World T} (hk : k ≤ N) (h0 : (w.layers (b + k)).build = false)
    (h1 : (w'.layers (b + k)).build = true)
    (h : ∀ j ≤ N, (w.layers (b + j)).build = true → (w'.layers (b + j)).build = true) : unb b N w' + 1 ≤ unb b N w := by
  unfold unb
  refine Finset.card_lt_card ?_
  rw [Finset.ssubset_iff_of_subset]
  · exact ⟨k, by simp [h0]; omega, by simp [h1]⟩
  · intro j hj
    simp only [Finset.mem_filter, Finset.mem_range] at hj ⊢
    refine ⟨hj.1, ?_⟩
    by_contra hc
    have := h j (by omega) (by simpa using hc)
    rw [this] at hj
    exact absurd hj.2 (by simp)

theorem unb_le {b N : Nat} (w : World T) : unb b N w ≤ N + 1 := by
  unfold unb
  refine le_trans (Finset.card_filter_le _ _) ?_
  simp

/-- what building some layers does to the others -/
structure BGo (b N : Nat) (rd : Nat → List Nat) (w w' : World T) : Prop where
  mono : ∀ k ≤ N, (w.layers (b + k)).build = true → (w'.layers (b + k)).build = true
  close : ∀ k ≤ N, (w'.layers (b + k)).build = true → (w.layers (b + k)).build = false →
    ∀ d ∈ rd k, (w'.layers (b + d)).build = true
  refs : ∀ k ≤ N, (w.layers (b + k)).ref ≠ 0 → (w'.layers (b + k)).ref ≠ 0

theorem BGo.refl (b N : Nat) (rd : Nat → List Nat) (w : World T) : BGo b N rd w w :=
  ⟨fun _ _ h => h, fun _ _ h h' => absurd (h.symm.trans h') (by simp), fun _ _ h => h⟩

theorem BGo.trans {b N : Nat} {rd : Nat → List Nat} {w1 w2 w3 : World T} (hrd : ∀ k ≤ N, ∀ d ∈ rd k, d ≤ N)
    (a : BGo b N rd w1 w2) (c : BGo b N rd w2 w3) : BGo b N rd w1 w3 := by
  refine ⟨fun k hk h => c.mono k hk (a.mono k hk h), fun k hk h h' d hd => ?_, fun k hk h => c.refs k hk (a.refs k hk h)⟩
  cases e : (w2.layers (b + k)).build with
  | true => exact c.mono d (hrd k hk d hd) (a.close k hk e h' d hd)
  | false => exact c.close k hk h e d hd

theorem BGo.of_eq {b N : Nat} {rd : Nat → List Nat} {w w' : World T}
    (h : ∀ k ≤ N, (w'.layers (b + k)).build = (w.layers (b + k)).build)
    (hr : ∀ k ≤ N, (w.layers (b + k)).ref ≠ 0 → (w'.layers (b + k)).ref ≠ 0) : BGo b N rd w w' :=
  ⟨fun k hk h' => by rw [h k hk]; exact h', fun k hk h1 h2 => absurd (h1.symm.trans ((h k hk).trans h2)) (by simp), hr⟩

/-- a change of `build` and `index` of one layer -/
theorem BInv.upd {b N n k : Nat} {w0 w : World T} (I : BInv b N n w0 w) (hk : k ≤ N) {f : Layer T → Layer T}
    (hf : ∀ x, ∃ bb i, f x = { x with build := bb, index := i })
    (hr : (f (w.layers (b + k))).build = true → (w.layers (b + k)).ref ≠ 0) : BInv b N n w0 (updL (b + k) f w) := by
  have href : ∀ l, ((updL (b + k) f w).layers l).ref = (w.layers l).ref := fun l => by
    by_cases h : l = b + k
    · subst h
      obtain ⟨bb, i, e⟩ := hf (w.layers (b + k))
      rw [updL_same, e]
    · rw [updL_ne _ _ h]
  refine ⟨I.refs.trans (refs_updL ⟨by omega, by omega⟩ w fun x => ?_), fun j hj => ?_, fun i j hi hj => ?_, fun j hj h => ?_⟩
  · obtain ⟨bb, i, e⟩ := hf x
    exact ⟨bb, x.ref, i, e⟩
  · rw [href]; exact I.cnt j hj
  · rw [href, href]; exact I.inj i j hi hj
  · rw [href]
    by_cases e : b + j = b + k
    · have : j = k := by omega
      subst this
      rw [updL_same] at h
      exact hr h
    · rw [updL_ne _ _ e] at h
      exact I.flg j hj h

/-- one more use of a layer -/
theorem BInv.addRef {b N n j : Nat} {w0 w : World T} (I : BInv b N n w0 w) (hpos : 0 < w0.store.heap.next) (hj : j ≤ N) :
    ∃ w', LayerM.addRef (b + j) one w = .ok () w' ∧ BInv b N (n + 1) w0 w' ∧
      (∀ l, (w'.layers l).build = (w.layers l).build) ∧ (∀ k ≤ N, (w.layers (b + k)).ref ≠ 0 → (w'.layers (b + k)).ref ≠ 0) ∧
      (w'.layers (b + j)).ref ≠ 0 := by
  have hn0 := I.refs.grow.next
  by_cases h : (w.layers (b + j)).ref = 0
  · obtain ⟨w', e, R, hl, hn, hv⟩ := addRef_new (w := w) (by omega) h one
    have hne : ∀ k, k ≠ b + j → w'.layers k = w.layers k := fun k hk => R.grow.layers k hk
    have hrj : (w'.layers (b + j)).ref = w.store.heap.next := by rw [hl]
    refine ⟨w', e, ⟨I.refs.trans (R.weaken fun l hl => by omega), fun k hk hr => ?_, fun i k hi hk hik hr => ?_, fun k hk hb => ?_⟩, fun l => ?_, fun k hk hr => ?_, ?_⟩
    · by_cases hkj : k = j
      · subst hkj
        rw [hrj]
        exact ⟨hn0, by omega, 1, by omega, by omega, hv⟩
      · rw [hne _ (by omega)] at hr ⊢
        obtain ⟨c1, c2, c, c3, c4, c5⟩ := I.cnt k hk hr
        exact ⟨c1, by omega, c, c3, by omega, by rw [R.grow.val _ c2 id, c5]⟩
    · by_cases hi' : i = j
      · by_cases hk' : k = j
        · omega
        · subst hi'
          rw [hrj, hne _ (by omega)] at hik
          have := (I.cnt k hk (by omega)).2.1
          omega
      · by_cases hk' : k = j
        · subst hk'
          rw [hrj, hne _ (by omega)] at hik
          rw [hne _ (by omega)] at hr
          have := (I.cnt i hi hr).2.1
          omega
        · rw [hne _ (by omega)] at hr
          rw [hne _ (by omega), hne _ (by omega)] at hik
          exact I.inj i k hi hk hik hr
    · by_cases hkj : k = j
      · subst hkj; rw [hrj]; omega
      · rw [hne _ (by omega)] at hb ⊢
        exact I.flg k hk hb
    · by_cases hlj : l = b + j
      · subst hlj; rw [hl]
      · rw [hne _ hlj]
    · by_cases hkj : k = j
      · subst hkj; rw [hrj]; omega
      · rw [hne _ (by omega)]; exact hr
    · rw [hrj]; omega
  · obtain ⟨c1, c2, c, c3, c4, c5⟩ := I.cnt j hj h
    have e : LayerM.addRef (b + j) one w = .ok () (putW (w.layers (b + j)).ref (counted (c + 1)) w) := by
      show (LayerM.getRef (b + j) w).bind _ = _
      rw [getRef_old (by omega)]
      show (Run.value (w.layers (b + j)).ref w).bind _ = _
      rw [value_ok (by omega), c5]
      exact setValue_ok (by omega) _
    have hv : ∀ q, (putW (w.layers (b + j)).ref (counted (c + 1)) w).store.heap.val q =
        if q = (w.layers (b + j)).ref then counted (c + 1) else w.store.heap.val q := fun q => rfl
    refine ⟨_, e, ⟨⟨⟨I.refs.grow.next, fun q hq _ => ?_, I.refs.grow.nodeNext, I.refs.grow.kind, I.refs.grow.frozen, I.refs.grow.layers, I.refs.grow.layerNext,
      I.refs.grow.nets, I.refs.grow.netNext, I.refs.grow.ctx⟩, I.refs.same, I.refs.nodes⟩, fun k hk hr => ?_, I.inj, I.flg⟩, fun _ => rfl, fun _ _ h => h, h⟩
    · rw [hv, if_neg (by omega)]
      exact I.refs.grow.val q hq id
    · obtain ⟨d1, d2, d, d3, d4, d5⟩ := I.cnt k hk hr
      refine ⟨d1, d2, ?_⟩
      rw [hv]
      show ∃ c', 0 < c' ∧ c' ≤ n + 1 ∧ (if (w.layers (b + k)).ref = (w.layers (b + j)).ref then counted (c + 1) else w.store.heap.val (w.layers (b + k)).ref) = counted c'
      split
      · exact ⟨c + 1, by omega, by omega, rfl⟩
      · exact ⟨d, d3, by omega, d5⟩

theorem build_flag {f l : Nat} {w : World T} (h : (w.layers l).build = true) :
    LayerM.build (f + 1) l w = .ok (w.layers l).index w := by
  rw [LayerM.build]
  show (if (w.layers l).build then _ else _ : Run T Nat) w = _
  rw [h]; rfl

theorem build_unfold_concat {f l i j d : Nat} {w : World T} (hb : (w.layers l).build = false)
    (hk : (w.layers l).kind = .concat i j d) :
    LayerM.build (f + 1) l w = ((do
      LayerM.addRef i one
      LayerM.addRef j one
      let c1 ← LayerM.build f i
      let c2 ← LayerM.build f j
      let n := if c1 > c2 then c1 + 1 else c2 + 1
      Run.modify l fun x => { x with index := n }
      return n : Run T Nat)) (updL l (fun x => { x with build := true }) w) := by
  rw [LayerM.build]
  show (if (w.layers l).build then _ else _ : Run T Nat) w = _
  rw [hb]
  show (match (w.layers l).kind with
      | .concat l1 l2 _ => _
      | .dense | .conv .. | .deconv .. => _
      | .input => _
      | _ => _ : Run T Nat) _ = _
  rw [hk]
  rfl

theorem build_unfold_input {f l : Nat} {w : World T} (hb : (w.layers l).build = false)
    (hk : (w.layers l).kind = .input) (hp : (w.layers l).pre = none) :
    LayerM.build (f + 1) l w = ((do
      LayerM.preBuild (LayerM.build f) l
      let x ← Run.layer l
      return x.index : Run T Nat)) (updL l (fun x => { x with build := true }) w) := by
  rw [LayerM.build]
  show (if (w.layers l).build then _ else _ : Run T Nat) w = _
  rw [hb]
  show (match (w.layers l).kind with
      | .concat l1 l2 _ => _
      | .dense | .conv .. | .deconv .. => _
      | .input => _
      | _ => _ : Run T Nat) _ = _
  rw [hk, hp]
  rfl

/-- `Build` of layer number `k` of a graph -/
theorem build_graph {shape : List Nat} {ns : List (BNode T)} {b inp0 M : Nat} {m0 : Mat} {w0 : World T} (S : GBase shape ns b inp0 m0 w0)
    (hrd : ∀ (k : Nat) (n : BNode T), ns[k]? = some n → ∀ p ∈ n.reads, p ≤ k)
    (hlaw : ∀ c, 0 < c → c ≤ M → eq (counted c) (zero : T) = false) {f k n : Nat} {w : World T} (I : BInv b ns.length n w0 w) (hk : k ≤ ns.length) (hf : k < f)
    (hr : (w.layers (b + k)).ref ≠ 0) (hM : n + 2 * unb b ns.length w ≤ M) :
    wp True (LayerM.build f (b + k)) (fun _ w' => ∃ n', BInv b ns.length n' w0 w' ∧ n' + 2 * unb b ns.length w' ≤ n + 2 * unb b ns.length w ∧
      BGo b ns.length (greads ns) w w' ∧ (w'.layers (b + k)).build = true) w := by
  have hrd' : ∀ k ≤ ns.length, ∀ d ∈ greads ns k, d ≤ ns.length := by
    intro k hk d hd
    cases k with
    | zero => simp [greads] at hd
    | succ k =>
      simp only [greads] at hd
      cases e : ns[k]? with
      | none => rw [e] at hd; simp at hd
      | some x => rw [e] at hd; have := hrd k x e d hd; omega
  induction f generalizing k n w with
  | zero => omega
  | succ f ih =>
    cases hb : (w.layers (b + k)).build with
    | true => exact wp_of_ok (build_flag hb) ⟨n, I, le_refl _, .refl _ _ _ _, hb⟩
    | false =>
      have I1 : BInv b ns.length n w0 (updL (b + k) (fun x => { x with build := true }) w) := I.upd hk (fun x => ⟨_, _, rfl⟩) fun _ => hr
      obtain ⟨w1, hw1⟩ : ∃ x, x = updL (b + k) (fun x => { x with build := true }) w := ⟨_, rfl⟩
      rw [← hw1] at I1
      have hb1 : (w1.layers (b + k)).build = true := by rw [hw1, updL_same]
      have ho1 : ∀ j, j ≠ k → w1.layers (b + j) = w.layers (b + j) := fun j hj => by rw [hw1, updL_ne _ _ (by omega)]
      have hr1 : ∀ l, (w1.layers l).ref = (w.layers l).ref := fun l => by
        by_cases h : l = b + k
        · subst h; rw [hw1, updL_same]
        · rw [hw1, updL_ne _ _ h]
      have hu1 : unb b ns.length w1 + 1 ≤ unb b ns.length w := unb_lt hk hb hb1 fun j _ h => by
        by_cases hjk : j = k
        · subst hjk; exact hb1
        · rw [ho1 j hjk]; exact h
      -- putting the pieces together
      have fin : ∀ (w' : World T), (w'.layers (b + k)).build = true → BGo b ns.length (greads ns) w1 w' →
          (∀ d ∈ greads ns k, (w'.layers (b + d)).build = true) → BGo b ns.length (greads ns) w w' := by
        intro w' h1 h2 h3
        refine ⟨fun j hj h => h2.mono j hj ?_, fun j hj h h' => ?_, fun j hj h => h2.refs j hj (by rw [hr1]; exact h)⟩
        · by_cases hjk : j = k
          · subst hjk; exact hb1
          · rw [ho1 j hjk]; exact h
        · by_cases hjk : j = k
          · subst hjk; exact h3
          · exact h2.close j hj h (by rw [ho1 j hjk]; exact h')
      have hpos := S.pos
      -- a layer with a previous layer
      cases k with
      | zero =>
        have hsame := I.refs.same (b + 0)
        have hkind : (w.layers (b + 0)).kind = .input := by obtain ⟨_, _, _, e⟩ := hsame; rw [e]; exact S.kind
        have hpre : (w.layers (b + 0)).pre = none := by obtain ⟨_, _, _, e⟩ := hsame; rw [e]; exact S.pre
        have e := build_unfold_input (f := f) hb hkind hpre
        rw [← hw1] at e
        have hp1 : (w1.layers (b + 0)).pre = none := by rw [hw1, updL_same]; exact hpre
        obtain ⟨_, c2, c, c3, c4, c5⟩ := I1.cnt 0 (Nat.zero_le _) (by rw [hr1]; exact hr)
        have e1 : LayerM.preBuild (LayerM.build f) (b + 0) w1 = .ok () w1 := by
          unfold LayerM.preBuild
          show (LayerM.getRef (b + 0) w1).bind _ = _
          rw [getRef_old (by rw [hr1]; omega)]
          show (match (w1.layers (b + 0)).pre with
            | none => _
            | some p => _ : Run T Unit) w1 = _
          rw [hp1]
          show (Run.value (w1.layers (b + 0)).ref w1).bind _ = _
          rw [value_ok (by rw [hr1]; omega)]
          show (if eq (w1.store.heap.val (w1.layers (b + 0)).ref) zero then _ else _ : Run T Unit) w1 = _
          rw [c5, hlaw c c3 (by omega)]
          rfl
        have e2 : LayerM.build (f + 1) (b + 0) w = .ok (w1.layers (b + 0)).index w1 := by
          rw [e]
          show (LayerM.preBuild (LayerM.build f) (b + 0) w1).bind _ = _
          rw [e1]; rfl
        exact wp_of_ok e2 ⟨n, I1, by omega, fin w1 hb1 (.refl _ _ _ _) (by simp [greads]), hb1⟩
      | succ k =>
        have hkN : k < ns.length := by omega
        have hnk : ns[k]? = some ns[k] := by simp [hkN]
        have hat := S.lay k _ hnk
        rw [show b + 1 + k = b + (k + 1) by omega] at hat
        have hsame := I.refs.same (b + (k + 1))
        have hgr : greads ns (k + 1) = ns[k].reads := by simp only [greads, hnk]
        cases hn : ns[k] with
        | layer s p =>
          rw [hn] at hat hgr
          have hpk : p ≤ k := hrd k _ hnk p (by rw [hn]; simp [BNode.reads])
          have hkind : (w.layers (b + (k + 1))).kind = s.kind := by obtain ⟨_, _, _, e⟩ := hsame; rw [e]; exact hat.kind
          have hpre : (w.layers (b + (k + 1))).pre = some (b + p) := by obtain ⟨_, _, _, e⟩ := hsame; rw [e]; exact hat.pre
          have e := build_unfold (f := f) hb hkind hpre
          rw [← hw1] at e
          suffices h : wp True (do
              LayerM.preBuild (LayerM.build f) (b + (k + 1))
              let x ← Run.layer (b + (k + 1))
              return x.index : Run T Nat) (fun _ w' => ∃ n', BInv b ns.length n' w0 w' ∧ n' + 2 * unb b ns.length w' ≤ n + 2 * unb b ns.length w ∧
                BGo b ns.length (greads ns) w w' ∧ (w'.layers (b + (k + 1))).build = true) w1 by
            unfold wp at h ⊢; rw [e]; exact h
          refine wp_bind ?_
          unfold LayerM.preBuild
          refine wp_bind (wp_of_ok (getRef_old (by rw [hr1]; omega)) ?_)
          refine wp_bind (wp_layer ?_)
          have hp1 : (w1.layers (b + (k + 1))).pre = some (b + p) := by rw [hw1, updL_same]; exact hpre
          rw [hp1]
          obtain ⟨w2, e2, I2, hb2, hr2, hr2'⟩ := I1.addRef hpos (show p ≤ ns.length by omega)
          refine wp_bind (wp_of_ok e2 ?_)
          have u2 : unb b ns.length w2 = unb b ns.length w1 := unb_eq fun j _ => hb2 _
          refine wp_bind (wp_mono (ih I2 (by omega) (by omega) hr2' (by omega)) ?_)
          rintro cnt w3 ⟨n3, I3, M3, G3, F3⟩
          refine wp_bind (wp_modify ?_)
          show wp True _ _ (updL (b + (k + 1)) (fun x => { x with index := cnt + 1 }) w3)
          have I4 : BInv b ns.length n3 w0 (updL (b + (k + 1)) (fun x => { x with index := cnt + 1 }) w3) :=
            I3.upd hk (fun x => ⟨_, _, rfl⟩) fun h => I3.flg _ hk h
          obtain ⟨w4, hw4⟩ : ∃ x, x = updL (b + (k + 1)) (fun x => { x with index := cnt + 1 }) w3 := ⟨_, rfl⟩
          rw [← hw4] at I4 ⊢
          have hb4 : ∀ l, (w4.layers l).build = (w3.layers l).build ∧ (w4.layers l).ref = (w3.layers l).ref := fun l => by
            by_cases h : l = b + (k + 1)
            · subst h; rw [hw4, updL_same]; exact ⟨rfl, rfl⟩
            · rw [hw4, updL_ne _ _ h]; exact ⟨rfl, rfl⟩
          have u4 : unb b ns.length w4 = unb b ns.length w3 := unb_eq fun j _ => (hb4 _).1
          have G14 : BGo b ns.length (greads ns) w1 w4 :=
            (BGo.of_eq (fun j _ => hb2 _) hr2).trans hrd' (G3.trans hrd' (BGo.of_eq (fun j _ => (hb4 _).1) fun j _ h => by rw [(hb4 _).2]; exact h))
          have hbk4 : (w4.layers (b + (k + 1))).build = true := G14.mono _ hk hb1
          obtain ⟨d1, d2, c, c3, c4, c5⟩ := I4.cnt (k + 1) hk (I4.flg _ hk hbk4)
          refine wp_bind (wp_layer ?_)
          refine wp_bind (wp_of_ok (value_ok (by omega)) ?_)
          rw [c5, hlaw c c3 (by omega)]
          refine wp_pure ?_
          refine wp_bind (wp_layer ?_)
          refine wp_pure ⟨n3, I4, by omega, fin w4 hbk4 G14 ?_, hbk4⟩
          rw [hgr]
          intro d hd
          simp only [BNode.reads, List.mem_singleton] at hd
          subst hd
          rw [(hb4 _).1]; exact F3
        | concat i j d =>
          rw [hn] at hat hgr
          have hik : i ≤ k := hrd k _ hnk i (by rw [hn]; simp [BNode.reads])
          have hjk : j ≤ k := hrd k _ hnk j (by rw [hn]; simp [BNode.reads])
          have hkind : (w.layers (b + (k + 1))).kind = .concat (b + i) (b + j) d := by obtain ⟨_, _, _, e⟩ := hsame; rw [e]; exact hat.kind
          have e := build_unfold_concat (f := f) hb hkind
          rw [← hw1] at e
          suffices h : wp True (do
              LayerM.addRef (b + i) one
              LayerM.addRef (b + j) one
              let c1 ← LayerM.build f (b + i)
              let c2 ← LayerM.build f (b + j)
              let n := if c1 > c2 then c1 + 1 else c2 + 1
              Run.modify (b + (k + 1)) fun x => { x with index := n }
              return n : Run T Nat) (fun _ w' => ∃ n', BInv b ns.length n' w0 w' ∧ n' + 2 * unb b ns.length w' ≤ n + 2 * unb b ns.length w ∧
                BGo b ns.length (greads ns) w w' ∧ (w'.layers (b + (k + 1))).build = true) w1 by
            unfold wp at h ⊢; rw [e]; exact h
          obtain ⟨w2, e2, I2, hb2, hr2, hr2'⟩ := I1.addRef hpos (show i ≤ ns.length by omega)
          refine wp_bind (wp_of_ok e2 ?_)
          obtain ⟨w3, e3, I3, hb3, hr3, hr3'⟩ := I2.addRef hpos (show j ≤ ns.length by omega)
          refine wp_bind (wp_of_ok e3 ?_)
          have u2 : unb b ns.length w2 = unb b ns.length w1 := unb_eq fun j _ => hb2 _
          have u3 : unb b ns.length w3 = unb b ns.length w2 := unb_eq fun j _ => hb3 _
          refine wp_bind (wp_mono (ih I3 (by omega) (by omega) (hr3 i (by omega) hr2') (by omega)) ?_)
          rintro c1 w4 ⟨n4, I4, M4, G4, F4⟩
          refine wp_bind (wp_mono (ih I4 (by omega) (by omega) (G4.refs j (by omega) hr3') (by omega)) ?_)
          rintro c2 w5 ⟨n5, I5, M5, G5, F5⟩
          obtain ⟨v, hv⟩ : ∃ x, x = if c1 > c2 then c1 + 1 else c2 + 1 := ⟨_, rfl⟩
          simp only [← hv]
          refine wp_bind (wp_modify ?_)
          show wp True _ _ (updL (b + (k + 1)) (fun x => { x with index := v }) w5)
          have I6 : BInv b ns.length n5 w0 (updL (b + (k + 1)) (fun x => { x with index := v }) w5) :=
            I5.upd hk (fun x => ⟨_, _, rfl⟩) fun h => I5.flg _ hk h
          obtain ⟨w6, hw6⟩ : ∃ x, x = updL (b + (k + 1)) (fun x => { x with index := v }) w5 := ⟨_, rfl⟩
          rw [← hw6] at I6 ⊢
          have hb6 : ∀ l, (w6.layers l).build = (w5.layers l).build ∧ (w6.layers l).ref = (w5.layers l).ref := fun l => by
            by_cases h : l = b + (k + 1)
            · subst h; rw [hw6, updL_same]; exact ⟨rfl, rfl⟩
            · rw [hw6, updL_ne _ _ h]; exact ⟨rfl, rfl⟩
          have u6 : unb b ns.length w6 = unb b ns.length w5 := unb_eq fun j _ => (hb6 _).1
          have G16 : BGo b ns.length (greads ns) w1 w6 :=
            (BGo.of_eq (fun j _ => hb2 _) hr2).trans hrd' ((BGo.of_eq (fun j _ => hb3 _) hr3).trans hrd' (G4.trans hrd' (G5.trans hrd'
              (BGo.of_eq (fun j _ => (hb6 _).1) fun j _ h => by rw [(hb6 _).2]; exact h))))
          have hbk6 : (w6.layers (b + (k + 1))).build = true := G16.mono _ hk hb1
          refine wp_pure ⟨n5, I6, by omega, fin w6 hbk6 G16 ?_, hbk6⟩
          rw [hgr]
          intro d hd
          simp only [BNode.reads, List.mem_cons, List.not_mem_nil, or_false] at hd
          rcases hd with rfl | rfl
          · rw [(hb6 _).1]; exact G5.mono _ (by omega) F4
          · rw [(hb6 _).1]; exact F5

end Godeep
