import Verif.Lemmas.LCompile
import Verif.Lemmas.Nested
/-
  Models whose layers have been pushed one by one, input layers among them.
-/
set_option linter.unusedSectionVars false

namespace Godeep
open Spec GoNum

variable {T : Type} [GoNum T]

/-- an input layer -/
def _root_.Godeep.Spec.Piece.isIn : Piece T → Bool
  | .hidden _ => false
  | .input _ => true

/-- the layer number `k` is an input layer -/
def lkOf (qs : List (Piece T)) (k : Nat) : Bool := (qs[k]?.map Piece.isIn).getD false

/-- the layer, and one that does nothing for an input layer -/
def _root_.Godeep.Spec.Piece.spec (sh : List Nat) : Piece T → LSpec T
  | .hidden s => s
  | .input _ => linkSpec sh

/-- the layers, with one that does nothing for each input layer -/
def standIn : List (Piece T) → List Nat → List (LSpec T)
  | [], _ => []
  | q :: qs, sh => q.spec sh :: standIn qs ((q.spec sh).outShape sh)

theorem standIn_length (qs : List (Piece T)) (sh : List Nat) : (standIn qs sh).length = qs.length := by
  induction qs generalizing sh with
  | nil => rfl
  | cons q qs ih => simp [standIn, ih]

theorem standIn_append (a b : List (Piece T)) (sh : List Nat) : standIn (a ++ b) sh = standIn a sh ++ standIn b (outShapes (standIn a sh) sh) := by
  induction a generalizing sh with
  | nil => rfl
  | cons q a ih => simp [standIn, outShapes, ih]

theorem standIn_out (qs : List (Piece T)) (sh : List Nat) : outShapes (standIn qs sh) sh = outShapes (hiddens qs) sh := by
  induction qs generalizing sh with
  | nil => rfl
  | cons q qs ih =>
    cases q with
    | hidden s => simp only [standIn, outShapes, Piece.spec, hiddens]; exact ih _
    | input s =>
      simp only [standIn, outShapes, Piece.spec, hiddens, linkSpec_out]
      exact ih _

theorem standIn_safe {qs : List (Piece T)} {sh : List Nat} (h : Safe (hiddens qs) sh) : Safe (standIn qs sh) sh := by
  induction qs generalizing sh with
  | nil => trivial
  | cons q qs ih =>
    cases q with
    | hidden s => exact ⟨h.1, ih h.2⟩
    | input s =>
      refine ⟨trivial, ?_⟩
      simp only [Piece.spec, linkSpec_out]
      exact ih h

theorem standIn_fits {qs : List (Piece T)} {sh : List Nat} (h : Fits (hiddens qs) sh) : ∀ k s, (standIn qs sh)[k]? = some s →
    if lkOf qs k then s = linkSpec (outShapes ((standIn qs sh).take k) sh) else s.fits (outShapes ((standIn qs sh).take k) sh) := by
  induction qs generalizing sh with
  | nil => intro k s hs; simp [standIn] at hs
  | cons q qs ih =>
    intro k s hs
    cases k with
    | zero =>
      simp only [standIn, List.getElem?_cons_zero, Option.some.injEq] at hs
      subst hs
      cases q with
      | hidden s => exact h.1
      | input s => rfl
    | succ k =>
      simp only [standIn, List.getElem?_cons_succ] at hs
      have e : lkOf (q :: qs) (k + 1) = lkOf qs k := rfl
      rw [e]
      simp only [standIn, List.take_succ_cons, outShapes]
      refine ih ?_ k s hs
      cases q with
      | hidden s => exact h.2
      | input s => simp only [Piece.spec, linkSpec_out]; exact h

theorem links_inputs (qs : List (Piece T)) : links (lkOf qs) qs.length = inputs qs := by
  have shift : ∀ (q : Piece T) (qs : List (Piece T)) n, links (lkOf (q :: qs)) (n + 1) = links (lkOf qs) n + (if q.isIn then 1 else 0) := by
    intro q qs n
    induction n with
    | zero => simp [links, lkOf]
    | succ n ih =>
      rw [links, ih, links]
      have : lkOf (q :: qs) (n + 1) = lkOf qs n := rfl
      rw [this]; omega
  induction qs with
  | nil => rfl
  | cons q qs ih =>
    rw [List.length_cons, shift, ih]
    cases q <;> rfl

theorem stackFn_eq {qs : List (Piece T)} {pv : List (List (STensor T))} {x : STensor T} (hl : pv.length = qs.length)
    (hp : PShapes (standIn qs x.shape) pv x.shape) : netFn (standIn qs x.shape) pv x = stackFn qs pv x := by
  induction qs generalizing pv x with
  | nil => cases pv <;> rfl
  | cons q qs ih =>
    cases pv with
    | nil => simp at hl
    | cons p pv =>
      have h0 := hp 0 (q.spec x.shape) rfl
      have ht : ∀ k s, (standIn qs ((q.spec x.shape).outShape x.shape))[k]? = some s → (pv.getD k []).map STensor.shape =
          s.paramShapes (outShapes ((standIn qs ((q.spec x.shape).outShape x.shape)).take k) ((q.spec x.shape).outShape x.shape)) := fun k s hs =>
        hp (k + 1) s hs
      cases q with
      | hidden s =>
        have hs : (s.fn p x).shape = s.outShape x.shape := spec_fn_shape h0
        show netFn (standIn qs (s.outShape x.shape)) pv (s.fn p x) = stackFn qs pv (s.fn p x)
        rw [← hs]
        refine ih (by simpa using hl) ?_
        rw [hs]; exact ht
      | input s =>
        have e : (linkSpec x.shape : LSpec T).fn p x = x := linkSpec_fn rfl p
        have e2 : (linkSpec x.shape : LSpec T).outShape x.shape = x.shape := linkSpec_out _
        show netFn (standIn qs ((linkSpec x.shape : LSpec T).outShape x.shape)) pv ((linkSpec x.shape : LSpec T).fn p x) = stackFn qs pv x
        rw [e, e2]
        refine ih (by simpa using hl) ?_
        have ht' := ht
        rw [show (Piece.input s : Piece T).spec x.shape = linkSpec x.shape from rfl, e2] at ht'
        exact ht'

theorem stackShapes_eq {qs : List (Piece T)} {sh : List Nat} : stackShapes qs sh =
    (List.range qs.length).map fun k => ((standIn qs sh).getD k .flatten).paramShapes (outShapes ((standIn qs sh).take k) sh) := by
  induction qs generalizing sh with
  | nil => rfl
  | cons q qs ih =>
    rw [List.length_cons, List.range_succ_eq_map, List.map_cons, List.map_map]
    cases q with
    | hidden s => rw [stackShapes, ih]; rfl
    | input s =>
      rw [stackShapes, ih]
      simp only [standIn, Piece.spec, linkSpec_out]
      congr 1
      refine List.map_congr_left fun k _ => ?_
      simp only [Function.comp, List.getD_cons_succ, List.take_succ_cons, outShapes, linkSpec_out]

/-- the constructor of a layer or an input layer -/
theorem piece_ok (q : Piece T) (sh : List Nat) {w : World T} (hpos : 0 < w.store.heap.next) :
    wp True q.create (fun l w' => l = w.layerNext ∧ Ext w w' ∧ (∀ k, k ≠ l → w'.layers k = w.layers k) ∧
      (∀ w2 : World T, w2.store = w'.store → w2.nodeNext = w'.nodeNext → w2.layers l = { w'.layers l with pre := some (l - 1) } →
        ItemAt q.isIn (q.spec sh) w2 l ∧ ∀ p, ownCell w2 l p → w.store.heap.next ≤ p) ∧
      ((w'.layers l).ref = 0 ∧ (w'.layers l).build = false) ∧
      w'.layerNext = w.layerNext + 1 ∧ w'.nets = w.nets ∧ w'.netNext = w.netNext ∧
      ∀ q, q < w.store.heap.next → w'.store.heap.val q = w.store.heap.val q) w := by
  cases q with
  | hidden s =>
    refine wp_mono (create_ok s hpos) ?_
    rintro l w1 ⟨rfl, e1, hl, ⟨o, ho⟩, hown, hnew, hln, hnets, hnn, hval⟩
    refine ⟨rfl, e1, hl, fun w2 h1 h2 h3 => ?_, by rw [ho]; exact ⟨rfl, rfl⟩, hln, hnets, hnn, hval⟩
    have e12 : Ext w1 w2 := ext_of_eq (by rw [h1]) h2 (by rw [h1])
    refine ⟨⟨by rw [h3, ho]; rfl, by rw [h3, ho]; rfl, by rw [h3], by rw [h3, ho]; rfl, ?_, by rw [h3, ho]; exact ⟨rfl, rfl⟩⟩, fun p hp => hnew p ?_⟩
    · cases s with
      | dense n a =>
        obtain ⟨o', m', x1, x2, x3⟩ := hown
        exact ⟨o', m', by rw [h3]; exact x1, x2.ext e12, x3⟩
      | _ => trivial
    · exact (ownCell_congr (w := w1) (w' := w2) (by rw [h3]) (by rw [h3]) (fun _ _ _ => by rw [h1]) p).1 hp
  | input s =>
    unfold Piece.create LayerM.newInput
    refine wp_bind (wp_zeros (L := fun _ => False) (C := fun _ => False) hpos fun w2 m2 g2 l2 x2 r2 s2 nd2 f2 => ?_)
    have q2 : 0 < w2.store.heap.next := lt_of_lt_of_le hpos g2.next
    refine wp_bind (wp_zeros (L := fun _ => False) (C := fun _ => False) q2 fun w3 m3 g3 l3 x3 r3 s3 nd3 f3 => ?_)
    obtain ⟨x0, hx0⟩ : ∃ x0 : Layer T, x0 = { LayerM.blank .input with input := some w.nodeNext, dif := some w2.nodeNext, act := .linear } := ⟨_, rfl⟩
    obtain ⟨w4, hw4⟩ : ∃ w4 : World T, w4 = { w3 with layers := fun k => if k = w3.layerNext then x0 else w3.layers k, layerNext := w3.layerNext + 1 } := ⟨_, rfl⟩
    refine wp_of_ok (r := w3.layerNext) (w' := w4) (by rw [hw4, hx0]; rfl) ?_
    have hl3 : w3.layerNext = w.layerNext := by rw [g3.layerNext, g2.layerNext]
    have el : w4.layers w3.layerNext = x0 := by rw [hw4]; simp
    have e4 : Ext w w4 := g2.ext.trans (g3.ext.trans (by rw [hw4]; exact ext_of_eq (le_refl _) rfl rfl))
    refine ⟨hl3, e4, fun k hk => ?_, fun w5 h1 h2 h3 => ⟨⟨?_, ?_, ?_, ?_⟩, fun p hp => ?_⟩, ?_, ?_, ?_, ?_, fun q hq => ?_⟩
    · rw [hw4]
      show (if k = w3.layerNext then x0 else w3.layers k) = _
      rw [if_neg hk, l3, l2]
    · rw [h3, el, hx0]; rfl
    · rw [h3]
    · rw [h3, el, hx0]; rfl
    · rw [h3, el, hx0]; exact ⟨rfl, rfl⟩
    · exact absurd hp (link_own (by rw [h3, el, hx0]; rfl) p)
    · rw [el, hx0]; exact ⟨rfl, rfl⟩
    · rw [hw4]; show w3.layerNext + 1 = _; rw [hl3]
    · rw [hw4]; show w3.nets = _; rw [g3.nets, g2.nets]
    · rw [hw4]; show w3.netNext = _; rw [g3.netNext, g2.netNext]
    · rw [hw4]
      show w3.store.heap.val q = _
      rw [g3.val q (lt_of_lt_of_le hq g2.next) (fun h => h), g2.val q hq (fun h => h)]

theorem push_piece {shape : List Nat} {qs : List (Piece T)} {lk : Nat → Bool} {m b inp0 : Nat} {m0 : Mat} {w : World T} {q : Piece T}
    (S : LMade shape (standIn qs shape) lk m b inp0 m0 w) (hq : lk qs.length = q.isIn) :
    wp True (do
      let l ← q.create
      NetM.pushLayer m l : Run T Unit) (fun _ w' => LMade shape (standIn (qs ++ [q]) shape) lk m b inp0 m0 w' ∧ Ext w w' ∧
        (∀ q, q < w.store.heap.next → w'.store.heap.val q = w.store.heap.val q) ∧
        (∀ k, k ≠ b + 1 + qs.length → w'.layers k = w.layers k) ∧ (∀ k, k ≠ m → w'.nets k = w.nets k) ∧
        w'.netNext = w.netNext ∧
        ∀ k ≤ qs.length, ∀ q, ownCell w' (b + 1 + k) q → (k < qs.length ∧ ownCell w (b + 1 + k) q) ∨ w.store.heap.next ≤ q) w := by
  have hsl := standIn_length qs shape
  refine wp_bind (wp_mono (piece_ok q (outShapes (standIn qs shape) shape) S.pos) ?_)
  rintro l w1 ⟨hlid, e1, hl, hat, hnew, hln, hnets, hnn, hval⟩
  have hid : l = b + 1 + qs.length := by rw [hlid, ← S.next, hsl]; omega
  subst hid
  have hn1 := S.net
  rw [← hnets, hsl] at hn1
  refine wp_of_ok (push_next hn1.1 hn1.2) ?_
  obtain ⟨w2, hw2⟩ : ∃ w2 : World T, w2 = updN m (fun x => { x with last := some (b + 1 + qs.length) })
    (updL (b + 1 + qs.length) (fun x => { x with pre := some (b + qs.length) }) w1) := ⟨_, rfl⟩
  rw [← hw2]
  have e12 : Ext w1 w2 := by rw [hw2]; exact ext_of_eq (le_refl _) rfl rfl
  have hsame : ∀ k, k ≠ b + 1 + qs.length → w2.layers k = w.layers k := fun k hk => by
    rw [hw2, updN_layers, updL_ne _ _ hk, hl k hk]
  have el : w2.layers (b + 1 + qs.length) = { w1.layers (b + 1 + qs.length) with pre := some (b + 1 + qs.length - 1) } := by
    rw [hw2, updN_layers, updL_same]
    rw [show b + 1 + qs.length - 1 = b + qs.length by omega]
  obtain ⟨hI, hO⟩ := hat w2 (by rw [hw2]; rfl) (by rw [hw2]; rfl) el
  have B := S.toLBase.snoc (e1.trans e12) (fun k hk => hsame _ (by omega)) (s := q.spec (outShapes (standIn qs shape) shape)) (by rw [hsl, hq]; exact hI)
    (by rw [hsl]; exact hO)
  have hst : standIn (qs ++ [q]) shape = standIn qs shape ++ [q.spec (outShapes (standIn qs shape) shape)] := by rw [standIn_append]; rfl
  have hst2 : (standIn (qs ++ [q]) shape).length = qs.length + 1 := by rw [standIn_length]; simp
  refine ⟨⟨by rw [hst]; exact B, fun k hk => ?_, ?_, ?_, ?_⟩, e1.trans e12, fun p hp => by rw [hw2]; exact hval p hp, hsame, fun k hk => ?_, ?_, fun k hk p hp => ?_⟩
  · rw [hst2] at hk
    rcases Nat.lt_or_ge qs.length k with h | h
    · have : b + k = b + 1 + qs.length := by omega
      rw [this, el]; exact hnew
    · rw [hsame _ (by omega)]; exact S.new k (by omega)
  · rw [hw2, hst2]
    show _ = w1.layerNext
    rw [hln, ← S.next, hsl]; omega
  · rw [hw2, updN_same, hst2]
    exact ⟨hn1.1, by show some (b + 1 + qs.length) = _; congr 1; omega⟩
  · rw [hw2]; show m < w1.netNext; rw [hnn]; exact S.mlt
  · rw [hw2, updN_ne _ _ hk]
    show w1.nets k = _
    rw [hnets]
  · rw [hw2]; exact hnn
  · rcases Nat.lt_or_ge k qs.length with h | h
    · exact Or.inl ⟨h, ((S.toLBase.at (by omega)).own_ext (e1.trans e12) (hsame _ (by omega)) p).1 hp⟩
    · have : k = qs.length := by omega
      subst this
      exact Or.inr (hO p hp)

theorem stacked_ok (shape : List Nat) (qs : List (Piece T)) {w : World T} (hpos : 0 < w.store.heap.next) :
    wp True (stacked shape qs) (fun m w' => m = w.netNext ∧ Apart w w' ∧
      ∃ inp0 m0, LMade shape (standIn qs shape) (lkOf qs) m w.layerNext inp0 m0 w' ∧ (∀ q ∈ m0.ops, w.store.heap.next ≤ q) ∧
        ∀ k < qs.length, ∀ q, ownCell w' (w.layerNext + 1 + k) q → w.store.heap.next ≤ q) w := by
  unfold stacked
  refine wp_bind (wp_of_ok (r := w.netNext) (w' := { w with
    nets := fun k => if k = w.netNext then NetM.blankNet else w.nets k
    netNext := w.netNext + 1 }) rfl ?_)
  set w1 : World T := { w with
    nets := fun k => if k = w.netNext then NetM.blankNet else w.nets k
    netNext := w.netNext + 1 } with hw1
  have q1 : 0 < w1.store.heap.next := hpos
  refine wp_bind ?_
  unfold LayerM.newInput
  refine wp_bind (wp_zeros (L := fun _ => False) (C := fun _ => False) q1 fun w2 m2 g2 l2 x2 r2 s2 nd2 f2 => ?_)
  have q2 : 0 < w2.store.heap.next := lt_of_lt_of_le q1 g2.next
  refine wp_bind (wp_zeros (L := fun _ => False) (C := fun _ => False) q2 fun w3 m3 g3 l3 x3 r3 s3 nd3 f3 => ?_)
  have q3 : 0 < w3.store.heap.next := lt_of_lt_of_le q2 g3.next
  have hn3 : w3.nets w.netNext = NetM.blankNet := by rw [g3.nets, g2.nets]; simp [hw1]
  have hl3 : w3.layerNext = w.layerNext := by rw [g3.layerNext, g2.layerNext]
  have hm3 : w3.netNext = w.netNext + 1 := by rw [g3.netNext, g2.netNext]
  set x0 : Layer T := { LayerM.blank .input with input := some w1.nodeNext, dif := some w2.nodeNext } with hx0
  refine wp_of_ok (r := w3.layerNext) (w' := { w3 with
    layers := fun k => if k = w3.layerNext then x0 else w3.layers k
    layerNext := w3.layerNext + 1 }) rfl ?_
  rw [hl3]
  set w4 : World T := { w3 with
    layers := fun k => if k = w.layerNext then x0 else w3.layers k
    layerNext := w.layerNext + 1 } with hw4
  refine wp_bind (wp_of_ok (push_first (w := w4) (by show (w3.nets w.netNext).first = none; rw [hn3]; rfl)) ?_)
  set w5 : World T := updN w.netNext (fun x => { x with first := some w.layerNext, last := some w.layerNext }) w4 with hw5
  have e25 : Ext w2 w5 := g3.ext.trans (ext_of_eq (le_refl _) rfl rfl)
  have el5 : w5.layers w.layerNext = x0 := by simp [hw5, hw4]
  have S0 : LMade shape (standIn [] shape) (lkOf qs) w.netNext w.layerNext w1.nodeNext m2 w5 := by
    refine ⟨⟨q3, by rw [el5]; rfl, by rw [el5]; rfl, by rw [el5]; rfl, by rw [el5], r2.ext e25, s2, nd2,
      by rw [el5]; exact ⟨rfl, rfl⟩, by simp [standIn], by simp [standIn]⟩, ?_, rfl, ?_, ?_⟩
    · intro k hk
      simp only [standIn, List.length_nil, Nat.le_zero] at hk
      subst hk
      rw [Nat.add_zero, el5]; exact ⟨rfl, rfl⟩
    · rw [hw5, updN_same]; exact ⟨rfl, rfl⟩
    · show w.netNext < w3.netNext; omega
  have e05 : Ext w w5 := (ext_of_eq (le_refl _) rfl rfl : Ext w w1).trans (g2.ext.trans e25)
  have A0 : Apart w w5 := by
    refine ⟨e05, fun q hq => ?_, fun l hl => ?_, fun k hk => ?_, ?_, ?_⟩
    · show w3.store.heap.val q = _
      rw [g3.val q (lt_of_lt_of_le hq g2.next) (fun h => h), g2.val q hq (fun h => h)]
    · show (if l = w.layerNext then x0 else w3.layers l) = _
      rw [if_neg (by omega), g3.layers l (fun h => h), g2.layers l (fun h => h)]
    · rw [hw5, updN_ne _ _ (by omega)]
      show w3.nets k = _
      rw [g3.nets, g2.nets]
      exact if_neg (by omega)
    · show w.layerNext ≤ w.layerNext + 1; omega
    · show w.netNext ≤ w3.netNext; omega
  refine wp_bind (wp_mono (wp_each (I := fun done wd => LMade shape (standIn done shape) (lkOf qs) w.netNext w.layerNext w1.nodeNext m2 wd ∧ Apart w wd ∧
    ∀ k < done.length, ∀ q, ownCell wd (w.layerNext + 1 + k) q → w.store.heap.next ≤ q)
    ⟨S0, A0, by simp⟩ ?_) ?_)
  · rintro d i r hd wd ⟨Sd, Ad, Od⟩
    refine wp_mono (push_piece Sd (by rw [lkOf, hd]; simp)) ?_
    rintro _ we ⟨Se, x1, x2, x3, x4, x5, x6⟩
    refine ⟨Se, ⟨Ad.ext.trans x1, fun q hq => ?_, fun l hl => ?_, fun k hk => ?_, ?_, ?_⟩, fun k hk q hq => ?_⟩
    · rw [x2 q (lt_of_lt_of_le hq Ad.ext.next), Ad.val q hq]
    · rw [x3 l (by omega), Ad.layers l hl]
    · rw [x4 k (by omega), Ad.nets k hk]
    · rw [← Se.next]; omega
    · rw [x5]; exact Ad.netNext
    · rw [List.length_append, List.length_singleton] at hk
      rcases x6 k (by omega) q hq with ⟨h1, h2⟩ | h
      · exact Od k h1 q h2
      · exact le_trans Ad.ext.next h
  · rintro _ wf ⟨Sf, Af, Of⟩
    exact wp_pure ⟨rfl, Af, _, _, Sf, f2, Of⟩

/-- a model with input layers in it, compiled -/
theorem stacked_run {shape : List Nat} {qs : List (Piece T)} (hlaw : ∀ n ≤ inputs qs, eq (ones n) (zero : T) = false) {w0 : World T}
    (hpos : 0 < w0.store.heap.next) (hg : ∀ s, FFGood (s : LSpec T)) (hfit : Fits (hiddens qs) shape) :
    wp True (stacked shape qs) (fun m w => wp True (NetM.compile m) (fun _ w1 => ∃ d, MadeF False w0 w1 m shape (standIn qs shape) d) w) w0 := by
  refine wp_mono (stacked_ok shape qs hpos) ?_
  rintro m ws ⟨rfl, A, inp0, m0, S, low, own⟩
  have hsl := standIn_length qs shape
  refine wp_mono (l_compile_core (by rw [hsl, links_inputs]; exact hlaw) S hg (standIn_fits hfit)) ?_
  rintro _ w1 ⟨ops, out, outM, K, wa, wb, R⟩
  obtain ⟨x1, x2, x3, x4, x5, x6, x7⟩ := R.apart
  refine ⟨_, ⟨⟨A.ext.trans x2, fun q hq => ?_⟩, le_refl _, R.compiled S.net.2, rfl, ?_, low, ?_, ?_, ?_, fun h => h.elim, ?_,
    by rw [R.layers, R.all.input]; exact R.seq.input, fun h => h.elim⟩⟩
  · rw [x3 q (lt_of_lt_of_le hq A.ext.next), A.val q hq]
  · rw [x5, ← S.next]
  · exact le_trans A.ext.next x1.next
  · rintro q ⟨k, hk, hq⟩
    obtain ⟨bb, r, i, e⟩ := x7 (w0.layerNext + 1 + k)
    exact own k (by omega) q (((S.toLBase.at hk).own_ext x1 e q).1 hq)
  · intro k hk l1 l2 x
    simp only
    rw [R.layers, (R.all.same _).1]
    rcases Nat.eq_zero_or_pos k with h | h
    · subst h; rw [Nat.add_zero, R.seq.kind]; simp
    · have hk1 : k - 1 < (standIn qs shape).length := by omega
      have := R.seq.toLBase.at hk1
      rw [show w0.layerNext + 1 + (k - 1) = w0.layerNext + k by omega] at this
      cases h' : lkOf qs (k - 1) with
      | true => rw [(this.link h').kind]; simp
      | false =>
        have e := (this.layer h').kind
        rw [e]; cases (standIn qs shape)[k - 1] <;> simp [LSpec.kind]
  · obtain ⟨t, tM, _, _, _, _, hn⟩ := R.net
    rw [hn]; exact S.net.1

theorem Live.shapes {F : Prop} {w0 w1 : World T} {m : Nat} {shape : List Nat} {ls : List (LSpec T)} {d : CData T} {a : World T}
    (M : MadeF F w0 w1 m shape ls d) (L : Live w0 w1 m d a) {pv : List (List (STensor T))} (h : HasParams a m pv) :
    pv.length = ls.length ∧ PShapes ls pv shape := by
  have C := L.comp M
  have hall := (L.hasParams M).1 h
  refine ⟨by rw [← hall.length_eq, C.par]; simp, fun k s hs => ?_⟩
  rw [← C.pshape k s hs]
  have hk := (List.getElem?_eq_some_iff.1 hs).1
  have hl : k < pv.length := by rw [← hall.length_eq, C.par]; simpa using hk
  have hg := (List.forall₂_iff_get.1 hall).2 k (by rw [C.par]; simpa using hk) hl
  simp only [C.par, List.get_eq_getElem, List.getElem_map, List.getElem_range] at hg
  rw [List.getD_eq_getElem _ _ hl]
  generalize pv[k] = v at hg
  generalize layerParams a (d.b + 1 + k) = u at hg
  induction hg with
  | nil => rfl
  | cons h _ ih => simp only [List.map_cons, ih, h.shape]

theorem pshapes_stack {qs : List (Piece T)} {sh : List Nat} {pv : List (List (STensor T))} (hl : pv.length = (standIn qs sh).length)
    (h : PShapes (standIn qs sh) pv sh) : pv.map (fun p => p.map STensor.shape) = stackShapes qs sh := by
  rw [stackShapes_eq]
  refine List.ext_getElem (by rw [List.length_map, List.length_map, List.length_range, hl, standIn_length]) fun k h1 h2 => ?_
  rw [List.length_map] at h1
  have hk : k < (standIn qs sh).length := by omega
  have := h k _ (List.getElem?_eq_getElem hk)
  rw [List.getD_eq_getElem _ _ h1] at this
  rw [List.getElem_map, List.getElem_map, List.getElem_range, List.getD_eq_getElem _ _ hk]
  exact this

end Godeep
