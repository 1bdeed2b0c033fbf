import Verif.Lemmas.JBuild
/-
  `Compile` of a model whose input layer is connected to another model.
-/
set_option linter.unusedSectionVars false

namespace Godeep
open Spec GoNum

variable {T : Type} [GoNum T]

theorem LeafDif.ext {w w' : World T} {r : Nat} (h : LeafDif w r) (g : Ext w w') (hl : (w'.layers r).dif = (w.layers r).dif) :
    LeafDif w' r := by
  obtain ⟨d, dM, h1, h2, h3⟩ := h
  exact ⟨d, dM, by rw [hl]; exact h1, h2.ext g, by rw [g.kind d h2.lt]; exact h3⟩

theorem JBase.at {shape : List Nat} {ls : List (LSpec T)} {b r inp0 : Nat} {m0 : Mat} {w : World T}
    (S : JBase shape ls b r inp0 m0 w) {k : Nat} (hk : k < ls.length) : LayerAt ls[k] w (b + 1 + k) := S.lay k _ (by simp [hk])

theorem JBase.ext {shape : List Nat} {ls : List (LSpec T)} {b r inp0 : Nat} {m0 : Mat} {w w' : World T}
    (S : JBase shape ls b r inp0 m0 w) (g : Ext w w') (hl : ∀ k ≤ ls.length, ∃ bb r i,
      w'.layers (b + k) = { w.layers (b + k) with build := bb, ref := r, index := i })
    (hr : ∃ bb x i, w'.layers r = { w.layers r with build := bb, ref := x, index := i }) :
    JBase shape ls b r inp0 m0 w' := by
  obtain ⟨b1, r1, i1, e⟩ := hl 0 (Nat.zero_le _)
  obtain ⟨b0, r0, i0, er⟩ := hr
  simp only [Nat.add_zero] at e
  have hl' : ∀ k, k < ls.length → ∃ bb r i,
      w'.layers (b + 1 + k) = { w.layers (b + 1 + k) with build := bb, ref := r, index := i } := fun k hk => by
    have := hl (k + 1) hk
    rw [show b + (k + 1) = b + 1 + k by omega] at this
    exact this
  have hown : ∀ k, k < ls.length → ∀ q, ownCell w' (b + 1 + k) q ↔ ownCell w (b + 1 + k) q := fun k hk q => by
    obtain ⟨b2, r2, i2, e2⟩ := hl' k hk
    exact (S.at hk).own_ext g e2 q
  refine ⟨lt_of_lt_of_le S.pos g.next, by rw [e]; exact S.kind, by rw [e]; exact S.pre, S.rlt, by rw [er]; exact S.rk, by rw [er]; exact S.rff,
    by rw [er]; exact S.rout, S.rdif.ext g (by rw [er]), by rw [e]; exact S.ff, S.rin.ext g, S.shape, by rw [e]; exact S.wn, ?_, ?_⟩
  · intro k s hs
    obtain ⟨b2, r2, i2, e2⟩ := hl' k (List.getElem?_eq_some_iff.1 hs).1
    exact (S.lay k s hs).ext g e2
  · intro k hk q hq
    obtain ⟨h1, h2⟩ := S.dis k hk q ((hown k hk q).1 hq)
    exact ⟨h1, fun k' hk' hq' => h2 k' hk' ((hown k' (by omega) q).1 hq')⟩

/-- what `Compile` of such a model has done: `w1` is the world after `Build`, `w2` after `BuildFeedforward` -/
structure LinkRun (shape : List Nat) (ls : List (LSpec T)) (m b r inp0 : Nat) (m0 : Mat) (ops : List (Op T)) (out : Nat)
    (outM : Mat) (K : Ptr → T → Prop) (w w1 w2 w' : World T) : Prop where
  base : JAt shape ls b r inp0 m0 w1
  refs : ∃ wb, RefsC (fun l => b ≤ l ∧ l ≤ b + ls.length) (· = (w.layers r).ref) w wb ∧ w1 = clr wb
  ref0 : (w1.layers b).ref = (w.layers r).ref
  refval : ∀ k ≤ ls.length, 0 < k → w.store.heap.next ≤ (w1.layers (b + k)).ref
  built : ∀ k ≤ ls.length, (w1.layers (b + k)).build = true
  all : JAll shape ls b r m0 ops out outM K w1 w2
  fin : Grow (fun _ => False) (fun _ => False) [] (clr w2) { w' with nets := w2.nets }
  layers : w'.layers = w2.layers
  other : ∀ k, k ≠ m → w'.nets k = w.nets k
  net : ∃ t i, w'.nets m = { w.nets m with ff := some ops, reset := some [], input := i, output := some out, target := some t }

/-- such a model that has not been compiled; the chain of the models before it starts at layer `B` -/
structure LinkMade (shape : List Nat) (ls : List (LSpec T)) (m b r inp0 : Nat) (m0 : Mat) (B : Nat) (w : World T) : Prop
    extends JBase shape ls b r inp0 m0 w where
  rbuilt : (w.layers r).build = true
  rref : 0 < (w.layers r).ref ∧ (w.layers r).ref < w.store.heap.next
  new : ∀ k ≤ ls.length, (w.layers (b + k)).ref = 0 ∧ (w.layers (b + k)).build = false
  next : b + ls.length + 1 ≤ w.layerNext
  net : (w.nets m).first = some b ∧ (w.nets m).last = some (b + ls.length)
  ne : ls ≠ []
  ble : B ≤ b
  chain : PreChain B (b + ls.length - B) w

theorem compile_link {shape : List Nat} {ls : List (LSpec T)} {m b r inp0 B : Nat} {m0 : Mat} {w : World T}
    (hlaw : eq (add zero one) (zero : T) = false) (S : LinkMade shape ls m b r inp0 m0 B w)
    (hg : ∀ s ∈ ls, FFGood s) (hfit : Fits ls shape) :
    wp True (NetM.compile m) (fun _ w' => ∃ ops out outM K w1 w2,
      LinkRun shape ls m b r inp0 m0 ops out outM K w w1 w2 w') w := by
  have hrb := S.rlt
  have hlen : 0 < ls.length := List.length_pos_iff.2 S.ne
  unfold NetM.compile
  refine wp_bind (wp_net ?_)
  refine wp_bind (wp_deref (a := b + ls.length) S.net.2 ?_)
  obtain ⟨wa, ea, Ra, la, na, va⟩ := addRef_new S.pos (S.new _ (le_refl _)).1 one
  refine wp_bind (wp_of_ok ea ?_)
  have hfuel : Run.fuel wa = .ok (wa.layerNext + 1) wa := rfl
  refine wp_bind (wp_of_ok hfuel ?_)
  have hln : b + ls.length + 1 ≤ wa.layerNext := by rw [Ra.grow.layerNext]; exact S.next
  have hsa : ∀ l, l ≠ b + ls.length → wa.layers l = w.layers l := fun l hl => Ra.grow.layers _ hl
  have hkp : ∀ l, (wa.layers l).kind = (w.layers l).kind ∧ (wa.layers l).pre = (w.layers l).pre ∧
      (wa.layers l).build = (w.layers l).build := fun l => by
    by_cases h : l = b + ls.length
    · subst h; rw [la]; exact ⟨rfl, rfl, rfl⟩
    · rw [hsa l h]; exact ⟨rfl, rfl, rfl⟩
  have era := hsa r (by omega)
  have TB : LinkToBuild b ls.length r wa := by
    refine ⟨by omega, ?_, ?_, hrb, by rw [era]; exact S.rbuilt, by rw [era]; have := S.rref; omega, fun k k0 kn => ?_, fun k hk => ?_, fun k hk => ?_, ?_⟩
    · rw [(hkp b).1]; exact S.kind
    · rw [(hkp b).2.1]; exact S.pre
    · have hk1 : k - 1 < ls.length := by omega
      have := S.toJBase.at hk1
      rw [show b + 1 + (k - 1) = b + k by omega] at this
      rw [(hkp _).1, (hkp _).2.1]
      exact ⟨⟨_, this.kind⟩, this.pre⟩
    · rw [(hkp _).2.2]; exact (S.new k hk).2
    · rw [hsa _ (by omega)]; exact (S.new k (by omega)).1
    · rw [la, era]; exact ⟨S.pos, by simp only; omega, va, by have := S.rref; simp only; omega⟩
  refine wp_bind (wp_mono (build_links hlaw TB (by omega)) ?_)
  rintro _ wb ⟨Rb, Bb, E0, Pb⟩
  rw [era] at Rb E0
  have Rab : RefsC (fun l => b ≤ l ∧ l ≤ b + ls.length) (· = (w.layers r).ref) w wb := (Ra.toC fun l hl => by omega).trans Rb
  refine wp_bind (wp_of_ok (r := ()) (w' := clr wb) rfl ?_)
  have SA : JAt shape ls b r inp0 m0 (clr wb) := by
    refine ⟨S.toJBase.ext (Rab.grow.ext.trans (ext_clr wb)) (fun k _ => Rab.same (b + k)) (Rab.same r), fun k hk => ?_⟩
    rcases Nat.eq_zero_or_pos k with h | h
    · subst h
      refine ⟨?_, ?_, fun h => absurd h (lt_irrefl _)⟩
      · show 0 < (wb.layers b).ref
        rw [E0]; exact S.rref.1
      · show (wb.layers b).ref < wb.store.heap.next
        rw [E0]; exact lt_of_lt_of_le S.rref.2 Rab.grow.next
    · obtain ⟨x1, x2, x3, _⟩ := Pb k hk h
      refine ⟨x1, x2, fun _ => ?_⟩
      show eq (wb.store.heap.val (wb.layers (b + k)).ref) zero = false
      rw [x3]; exact hlaw
  refine wp_bind (wp_mono (jff_chain SA (by omega) hg hfit) ?_)
  rintro _ w2 ⟨ops, out, outM, K, A⟩
  refine wp_bind (wp_of_ok (r := w2.store.ctx) (w' := w2) rfl ?_)
  have hctx : w2.store.ctx = ops := by rw [A.grow.ctx]; rfl
  rw [hctx]
  refine wp_bind (wp_of_ok (r := ()) (w' := clr w2) rfl ?_)
  have hpre2 : ∀ l, (w2.layers l).pre = (w.layers l).pre := fun l => by
    obtain ⟨_, _, _, e⟩ := Rab.same l
    rw [(A.same l).2.1]
    show (wb.layers l).pre = _
    rw [e]
  have hble := S.ble
  have PC2 : PreChain B (b + ls.length - B) (clr w2) :=
    ⟨(hpre2 B).trans S.chain.first, fun k hk => (hpre2 _).trans (S.chain.pre k hk)⟩
  have hreset := reset_ok (f := wa.layerNext + 1) PC2 (by omega)
  rw [show B + (b + ls.length - B) = b + ls.length by omega] at hreset
  refine wp_bind (wp_of_ok hreset ?_)
  refine wp_bind (wp_of_ok (r := []) (w' := clr w2) rfl ?_)
  refine wp_bind (wp_of_ok (r := ()) (w' := updN m (fun x => { x with ff := some ops, reset := some [] }) (clr w2)) rfl ?_)
  set w3 := updN m (fun x => { x with ff := some ops, reset := some [] }) (clr w2) with hw3
  refine wp_bind (wp_deref (a := b) S.net.1 ?_)
  have er2 : w2.layers r = wb.layers r := A.grow.layers r (by omega)
  have hin : LayerM.getInputs (wa.layerNext + 1) b w3 = .ok (w2.layers r).output w3 := by
    show (match (w2.layers b).kind, (w2.layers b).pre with
      | .input, some p => LayerM.getOutputs (wa.layerNext + 1) p
      | _, _ => pure (w2.layers b).input : Run T (Option Nat)) w3 = _
    rw [(A.same b).1, (A.same b).2.1, SA.kind, SA.pre]
    refine delegated_ok (field := Layer.output) (fuel := wa.layerNext + 1) (p := r) (w := w3) (by omega) ?_
    show (w2.layers r).pre = none ∨ ∃ s : LSpec T, (w2.layers r).kind = s.kind
    rw [er2]; exact SA.rk
  refine wp_bind (wp_of_ok hin ?_)
  refine wp_bind (wp_of_ok (r := ()) (w' := updN m (fun x => { x with input := (w2.layers r).output }) w3) rfl ?_)
  set w4 := updN m (fun x => { x with input := (w2.layers r).output }) w3 with hw4
  have hout : LayerM.getOutputs (wa.layerNext + 1) (b + ls.length) w4 = .ok (some out) w4 := by
    obtain ⟨rl, h1, _, h3, _, h5⟩ := A.src
    have := delegated_src (field := Layer.output) (fuel := wa.layerNext + 1) (p := b + ls.length) (r := rl) (w := w4) (by omega) (h1.congr (fun _ _ => rfl) rfl)
      fun h => ⟨1, by omega, (h5 h).congr fun _ _ => rfl⟩
    rw [show w4.layers = w2.layers from rfl, h3] at this
    exact this
  refine wp_bind (wp_of_ok hout ?_)
  refine wp_bind (wp_of_ok (r := ()) (w' := updN m (fun x => { x with output := some out }) w4) rfl ?_)
  set w5 := updN m (fun x => { x with output := some out }) w4 with hw5
  refine wp_bind (wp_deref rfl ?_)
  have e25 : Ext w2 w5 := ext_of_eq (le_refl _) rfl rfl
  have q5 : 0 < w5.store.heap.next := lt_of_lt_of_le SA.pos A.grow.next
  refine wp_bind (wp_copyTensor (L := fun _ => False) (C := fun _ => False) (A.ready.ext e25) q5
    fun w6 c g6 l6 x6 r6 nd6 f6 h6 s6 _ => ?_)
  refine wp_of_ok (r := ()) (w' := updN m (fun x => { x with target := some w5.nodeNext }) w6) rfl ?_
  have hnet6 : w6.nets = w5.nets := g6.nets
  have hnw2 : w2.nets = w.nets := by rw [A.grow.nets]; exact Rab.grow.nets
  refine ⟨ops, out, outM, K, clr wb, w2, SA, ⟨wb, Rab, rfl⟩, E0, ?_, Bb, A, ?_, ?_, ?_, ?_⟩
  · intro k hk k0
    rcases (Pb k hk k0).2.2.2 with h | h
    · exact le_trans Ra.grow.next h
    · show _ ≤ (wb.layers (b + k)).ref
      rw [h, la]
  · refine ⟨g6.next, g6.val, g6.nodeNext, g6.kind, g6.frozen, fun l h => g6.layers l h, g6.layerNext, rfl, g6.netNext, g6.ctx⟩
  · exact l6
  · intro k hk
    rw [updN_ne _ _ hk, hnet6, hw5, updN_ne _ _ hk, hw4, updN_ne _ _ hk, hw3, updN_ne _ _ hk]
    show w2.nets k = _
    rw [hnw2]
  · refine ⟨w5.nodeNext, (w2.layers r).output, ?_⟩
    rw [updN_same, hnet6, hw5, updN_same, hw4, updN_same, hw3, updN_same]
    rw [show (clr w2).nets m = w.nets m by rw [← hnw2]; rfl]

end Godeep
