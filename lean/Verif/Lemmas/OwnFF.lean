import Verif.Lemmas.OwnBP
/-
  Building layers, compiling their feed-forward and fitting them keeps the invariant.
-/
set_option linter.unusedSectionVars false

namespace Godeep
open Spec GoNum

variable {T : Type} [GoNum T] {α β : Type}

namespace Own
variable {A : Nat → Prop} {B : Chg} {g g' : G T}

theorem At.modRef {l r : Nat} (h : Safe g r) : At A B g (Run.modify l fun x => { x with ref := r }) fun _ _ => True :=
  (At.modify fun hi => { LOk.refl hi l with neat := ⟨(hi.neat l).solid, (hi.neat l).apart⟩, ref := h }).mono fun _ _ _ _ => trivial

theorem At.getRef (l : Nat) : At A B g (LayerM.getRef l : Run T Nat) fun g' r => Safe g' r := by
  unfold LayerM.getRef
  refine At.bind (At.lay l) fun g1 x l1 hx => At.ite (fun _ => ?_) fun _ => At.pure _ fun _ => hx.1.ref
  exact At.bind (At.scalar _) fun g2 r l2 h2 => At.bind (At.modRef h2) fun g3 _ l3 _ => At.pure _ fun _ => h2.le l3

theorem At.addRef (l : Nat) (v : T) : At A B g (LayerM.addRef l v) fun _ _ => True := by
  unfold LayerM.addRef
  exact At.bind (At.getRef l) fun g1 r l1 h1 => At.bind (At.value r) fun g2 x l2 _ => At.setValue (h1.le l2) _

theorem own_preBuild {rec : Nat → Run T Nat} (h : ∀ p (g : G T), At A B g (rec p) fun _ _ => True) (l : Nat) :
    At A B g (LayerM.preBuild rec l) fun _ _ => True := by
  unfold LayerM.preBuild
  refine At.bind (At.getRef l) fun g1 _ l1 _ => At.bind (At.lay l) fun g2 x l2 hx => ?_
  split
  · own
  · exact At.bind (At.addRef _ _) fun _ _ _ _ => At.bind (h _ _) fun _ _ _ _ => by own

theorem own_build (f l : Nat) : At A B g (LayerM.build f l : Run T Nat) fun _ _ => True := by
  induction f generalizing l g with
  | zero => exact At.abort
  | succ f ih =>
    unfold LayerM.build
    refine At.bind (At.lay l) fun g1 x l1 hx => At.ite (fun _ => At.pure _ fun _ => trivial) fun _ => ?_
    refine At.bind (At.modSame fun _ => ⟨rfl, rfl, rfl, rfl, rfl, rfl, rfl, rfl, rfl⟩) fun g2 _ l2 _ => ?_
    split
    · refine At.bind (At.addRef _ _) fun _ _ _ _ => At.bind (At.addRef _ _) fun _ _ _ _ => At.bind (ih _) fun _ _ _ _ => At.bind (ih _) fun _ _ _ _ => ?_
      own
    all_goals refine At.bind (own_preBuild (fun p g => ih (g := g) p) l) fun g3 _ l3 _ => ?_
    · own
    · own
    · own
    · split
      · own
      · refine At.bind (At.lay l) fun _ _ _ _ => At.bind (At.value _) fun _ _ _ _ => At.bind (At.addRef _ _) fun _ _ _ _ => At.bind (At.getRef _) fun _ _ _ hr => At.bind (At.modRef hr) fun _ _ _ _ => ?_
        own
    · split
      · own
      · own

/-! ### feed-forward -/

/-- a layer may get its first weights -/
theorem At.weaken {l : Nat} {a : Run T α} {Q : G T → α → Prop} (hf : (g.w.layers l).ff = false) (h : At A (⟨fun k => B.1 k ∨ k = l, B.2⟩ : Chg) g a Q) : At A B g a Q := by
  have conv : ∀ g', Le A (⟨fun k => B.1 k ∨ k = l, B.2⟩ : Chg) g g' → Le A B g g' := fun g' h => { h with wts := fun k hB hk => h.wts k (fun hc => hc.elim hB fun e => absurd (e ▸ hk) (by rw [hf]; exact Bool.false_ne_true)) hk }
  intro hi
  have H := h hi
  cases e : a g.w with
  | ok x w' => rw [e] at H; obtain ⟨g1, h1, h2, h3, h4⟩ := H; exact ⟨g1, h1, h2, conv _ h3, h4⟩
  | err e1 w' => rw [e] at H; obtain ⟨g1, h1, h2, h3⟩ := H; exact ⟨g1, h1, h2, conv _ h3⟩
  | panic => trivial

theorem At.modInput {l : Nat} {o : Option Nat} (h : ∀ n, o = some n → g.clean n) : At A B g (Run.modify l fun x => { x with input := o }) fun _ _ => True :=
  (At.modify fun hi => { LOk.refl hi l with neat := ⟨(hi.neat l).solid, (hi.neat l).apart⟩, input := h }).mono fun _ _ _ _ => trivial

theorem At.modDif' {l : Nat} {o : Option Nat} (h : ∀ n, o = some n → g.clean n) : At A B g (Run.modify l fun x => { x with dif := o }) fun _ _ => True :=
  (At.modify fun hi => { LOk.refl hi l with neat := ⟨(hi.neat l).solid, (hi.neat l).apart⟩, dif := h }).mono fun _ _ _ _ => trivial

theorem At.modBias {l n : Nat} (hB : B.1 l) (hf : (g.w.layers l).ff = true) (h : Owned g l n ∧ Drawn g n) (hs : Solid (g.w.store.nodes n).mat) (hn : Newer g l n) :
    At A B g (Run.modify l fun x => { x with bias := some n }) fun _ _ => True :=
  (At.modify fun hi => { LOk.refl (B := B) hi l with
    wts := fun k hk => by
      rcases hk with hk | hk
      · exact hi.wts l k (.inl hk)
      · cases hk; exact h.1
    drawn := fun k hk => by
      rcases hk with hk | hk
      · exact hi.drawn l k (.inl hk)
      · cases hk; exact h.2
    neat := ⟨fun k hk => by
      rcases hk with hk | hk
      · exact (hi.neat l).solid k (.inl hk)
      · cases hk; exact hs, fun k k' hk hk' => by cases hk'; exact hn k (.inl hk)⟩
    unff := fun hx => by
      have hx' : (g.w.layers l).ff = false := hx
      rw [hf] at hx'
      cases hx'
    same := fun hc => absurd hB hc }).mono fun _ _ _ _ => trivial

theorem At.modWeights {l n : Nat} (hB : B.1 l) (hf : (g.w.layers l).ff = true) (h : Owned g l n ∧ Drawn g n) (hs : Solid (g.w.store.nodes n).mat) (hn : Newer g l n) :
    At A B g (Run.modify l fun x => { x with weights := some n }) fun _ _ => True :=
  (At.modify fun hi => { LOk.refl (B := B) hi l with
    wts := fun k hk => by
      rcases hk with hk | hk
      · cases hk; exact h.1
      · exact hi.wts l k (.inr hk)
    drawn := fun k hk => by
      rcases hk with hk | hk
      · cases hk; exact h.2
      · exact hi.drawn l k (.inr hk)
    neat := ⟨fun k hk => by
      rcases hk with hk | hk
      · cases hk; exact hs
      · exact (hi.neat l).solid k (.inr hk), fun k k' hk hk' => by cases hk; exact fun q hq hc => hn k' (.inr hk') q hc hq⟩
    unff := fun hx => by
      have hx' : (g.w.layers l).ff = false := hx
      rw [hf] at hx'
      cases hx'
    same := fun hc => absurd hB hc }).mono fun _ _ _ _ => trivial

theorem At.modConv {l e o d b w : Nat} (hB : B.1 l) (hf : (g.w.layers l).ff = true) (ho : g.clean o) (hd : g.clean d) (hb : Owned g l b ∧ Drawn g b) (hw : Owned g l w ∧ Drawn g w)
    (sb : Solid (g.w.store.nodes b).mat) (sw : Solid (g.w.store.nodes w).mat) (hbw : ∀ q ∈ (g.w.store.nodes w).mat.ops, q ∉ (g.w.store.nodes b).mat.ops) :
    At A B g (Run.modify l fun x => { x with neta := some e, output := some o, dif := some d, bias := some b, weights := some w }) fun _ _ => True :=
  (At.modify fun hi => { LOk.refl (B := B) hi l with
    output := fun k hk => by cases hk; exact ho
    dif := fun k hk => by cases hk; exact hd
    wts := fun k hk => by
      rcases hk with hk | hk
      · cases hk; exact hw.1
      · cases hk; exact hb.1
    drawn := fun k hk => by
      rcases hk with hk | hk
      · cases hk; exact hw.2
      · cases hk; exact hb.2
    neat := ⟨fun k hk => by
      rcases hk with hk | hk
      · cases hk; exact sw
      · cases hk; exact sb, fun k k' hk hk' => by cases hk; cases hk'; exact hbw⟩
    unff := fun hx => by
      have hx' : (g.w.layers l).ff = false := hx
      rw [hf] at hx'
      cases hx'
    same := fun hc => absurd hB hc }).mono fun _ _ _ _ => trivial

theorem At.modInOut {l n k : Nat} (h : g.clean n) : At A B g (Run.modify l fun x => { x with neta := some k, output := some n }) fun _ _ => True :=
  (At.modify fun hi => { LOk.refl hi l with neat := ⟨(hi.neat l).solid, (hi.neat l).apart⟩, output := fun k hk => by cases hk; exact h }).mono fun _ _ _ _ => trivial

theorem At.modOutIn {l n : Nat} (h : g.clean n) : At A B g (Run.modify l fun x => { x with output := some n, input := some n }) fun _ _ => True :=
  (At.modify fun hi => { LOk.refl hi l with neat := ⟨(hi.neat l).solid, (hi.neat l).apart⟩, output := fun k hk => by cases hk; exact h, input := fun k hk => by cases hk; exact h }).mono fun _ _ _ _ => trivial

theorem own_zeroDif (l o : Nat) : At A B g (LayerM.zeroDif l o : Run T Unit) fun _ _ => True := by unfold LayerM.zeroDif; own

macro "ownF" : tactic => `(tactic| repeat' (first
  | own1
  | refine At.bind (At.modInput (by cl)) fun _ _ _ _ => ?_
  | refine At.bind (At.modInOut (by cl)) fun _ _ _ _ => ?_
  | refine At.bind (At.modOutIn (by cl)) fun _ _ _ _ => ?_
  | refine At.bind (At.addRef _ _) fun _ _ _ _ => ?_
  | refine At.bind (At.getRef _) fun _ _ _ _ => ?_
  | refine At.bind (At.modRef (by cl)) fun _ _ _ _ => ?_
  | exact At.modDif' (by assumption)
  | exact own_zeroDif _ _))

theorem own_denseNeuron (x : Layer T) (w b : Nat) {neta out : Nat} (h1 : g.clean neta) (h2 : g.clean out) (inp n i : Nat) :
    At A B g (LayerM.denseNeuron x w b neta out inp n i) fun _ _ => True := by
  unfold LayerM.denseNeuron; ownF

theorem own_denseFF {l : Nat} (hB : B.1 l) (hf : (g.w.layers l).ff = true) : At A B g (LayerM.denseFF l : Run T Unit) fun _ _ => True := by
  unfold LayerM.denseFF
  refine At.bind (At.lay l) fun g1 x l1 hx => ?_
  have f1 := l1.ff l hf
  split
  · exact At.fail _
  · next inp _ =>
    refine At.bind (At.mat _) fun g2 _ l2 _ => At.bind (At.opt _) fun g3 out l3 ho => At.bind (At.mat _) fun g4 _ l4 _ => At.bind (At.zeros _) fun g5 neta l5 h5 => ?_
    have co : g5.clean out := l5.clean _ (l4.clean _ (l3.clean _ (l2.clean _ (hx.1.output _ ho))))
    have f5 := l5.ff l (l4.ff l (l3.ff l (l2.ff l f1)))
    refine At.bind (At.modSame fun _ => ⟨rfl, rfl, rfl, rfl, rfl, rfl, rfl, rfl, rfl⟩) fun g6 _ l6 _ => At.bind (At.zeros _) fun g7 dif l7 h7 => At.bind (At.modDif h7) fun g8 _ l8 _ => ?_
    refine At.bind (At.normNew l _) fun g9 b l9 h9 => ?_
    have f9 := l9.ff l (l8.ff l (l7.ff l (l6.ff l f5)))
    refine At.bind (At.modBias hB f9 h9.1 h9.2.1 h9.2.2.1) fun g10 _ l10 _ => At.bind (At.normNew l _) fun g11 w l11 h11 => At.bind (At.modWeights hB (l11.ff l (l10.ff l f9)) h11.1 h11.2.1 h11.2.2.1) fun g12 _ l12 _ => ?_
    refine At.each fun i g13 l13 => own_denseNeuron x w b ?_ ?_ inp _ i
    · exact l13.clean _ (l12.clean _ (l11.clean _ (l10.clean _ (l9.clean _ (l8.clean _ (l7.clean _ (l6.clean _ h5)))))))
    · exact l13.clean _ (l12.clean _ (l11.clean _ (l10.clean _ (l9.clean _ (l8.clean _ (l7.clean _ (l6.clean _ co)))))))

theorem own_flattenFF (f l p : Nat) : At A B g (LayerM.flattenFF f l p : Run T Unit) fun _ _ => True := by
  unfold LayerM.flattenFF
  ownF

theorem own_softMaxFF (f l p : Nat) : At A B g (LayerM.softMaxFF f l p : Run T Unit) fun _ _ => True := by unfold LayerM.softMaxFF; ownF

theorem own_normFF (mn mx : T) (l : Nat) : At A B g (LayerM.normFF mn mx l : Run T Unit) fun _ _ => True := by
  unfold LayerM.normFF
  ownF

theorem own_subFF (d s e f l p : Nat) : At A B g (LayerM.subFF d s e f l p : Run T Unit) fun _ _ => True := by
  unfold LayerM.subFF
  ownF

theorem own_concatFF (l1 l2 d f l : Nat) : At A B g (LayerM.concatFF l1 l2 d f l : Run T Unit) fun _ _ => True := by 
  unfold LayerM.concatFF
  refine At.bind (At.getOutputs _ _) fun g1 o1 a1 h1 => At.bind (At.opt _) fun g2 n1 a2 h2 => At.bind (At.getOutputs _ _) fun g3 o2 a3 h3 => At.bind (At.opt _) fun g4 n2 a4 h4 => ?_
  have c1 : g4.clean n1 := a4.clean _ (a3.clean _ (a2.clean _ (h1 n1 h2)))
  have c2 : g4.clean n2 := a4.clean _ (h3 n2 h4)
  refine At.bind (At.lazy (by intro t ht; cases ht)) fun g5 o a5 h5 => ?_
  have c5 : g5.clean o := h5 (by
    intro t ht
    simp only [Kind.views, List.mem_cons, List.not_mem_nil, or_false] at ht
    rcases ht with rfl | rfl
    · exact c1
    · exact c2)
  refine At.bind (At.modOutIn c5) fun g6 _ a6 _ => At.bind (At.buildGraph _) fun g7 _ a7 _ => ?_
  refine At.bind (At.getDif _ _) fun g1 o1 a1 h1 => At.bind (At.opt _) fun g2 n1 a2 h2 => At.bind (At.getDif _ _) fun g3 o2 a3 h3 => At.bind (At.opt _) fun g4 n2 a4 h4 => ?_
  have c1 : g4.clean n1 := a4.clean _ (a3.clean _ (a2.clean _ (h1 n1 h2)))
  have c2 : g4.clean n2 := a4.clean _ (h3 n2 h4)
  refine At.bind (At.lazy (by intro t ht; cases ht)) fun g5 o a5 h5 => At.modDif (h5 (by
    intro t ht
    simp only [Kind.views, List.mem_cons, List.not_mem_nil, or_false] at ht
    rcases ht with rfl | rfl
    · exact c1
    · exact c2))

theorem own_convCell (w row kw kh sy c f x y : Nat) {neta : Nat} (h : g.clean neta) : At A B g (LayerM.convCell w neta row kw kh sy c f x y : Run T Unit) fun _ _ => True := by
  unfold LayerM.convCell; ownF

theorem own_convFF (nf kw kh sx sy : Nat) {l : Nat} (hB : B.1 l) (hf : (g.w.layers l).ff = true) : At A B g (LayerM.convFF nf kw kh sx sy l : Run T Unit) fun _ _ => True := by
  unfold LayerM.convFF
  refine At.bind (At.lay l) fun g1 x l1 hx => ?_
  have f1 := l1.ff l hf
  split
  · exact At.fail _
  · next inp _ =>
    refine At.bind (At.mat _) fun g2 _ l2 _ => At.ite (fun _ => At.fail _) fun _ => ?_
    refine At.bind (At.lift _ fun _ _ _ => trivial) fun g3 _ l3 (_ : True) => At.bind (At.lift _ fun _ _ _ => trivial) fun g4 _ l4 (_ : True) => ?_
    refine At.bind (At.zeros _) fun g5 neta l5 h5 => At.bind (At.zeros _) fun g6 o l6 h6 => At.bind (At.zeros _) fun g7 d l7 h7 =>
      At.bind (At.normNew l _) fun g8 b l8 h8 => At.bind (At.normNew l _) fun g9 w l9 h9 => ?_
    have f9 := l9.ff l (l8.ff l (l7.ff l (l6.ff l (l5.ff l (l4.ff l (l3.ff l (l2.ff l f1)))))))
    have n9 : g9.clean neta := l9.clean _ (l8.clean _ (l7.clean _ (l6.clean _ h5)))
    refine At.bind (At.modConv hB f9 (l9.clean _ (l8.clean _ (l7.clean _ h6))) (l9.clean _ (l8.clean _ h7)) ⟨h8.1.1.le l9, h8.1.2.le h8.1.1 l9⟩ h9.1 (by rw [l9.leaf b h8.1.1.lt h8.1.1.leaf]; exact h8.2.1) h9.2.1 (fun q hq hc => by
      rw [l9.leaf b h8.1.1.lt h8.1.1.leaf] at hc
      have h1 := (h8.1.1.ops q hc).1
      have h2 := h9.2.2.2 q hq
      omega)) fun g10 _ l10 _ => ?_
    have n10 := l10.clean _ n9
    refine At.bind (At.transfer _ n10) fun g11 _ l11 _ => ?_
    have n11 := l11.clean _ n10
    refine At.bind (Q := fun _ _ => True) (At.each fun f g12 l12 => At.each fun px g13 l13 => At.bind (At.lazy (by intro t ht; cases ht)) fun g14 row l14 _ =>
      At.each fun py g15 l15 => own_convCell _ _ _ _ _ _ _ _ _ (l15.clean _ (l14.clean _ (l13.clean _ (l12.clean _ n11))))) fun g16 _ l16 _ => ?_
    own

theorem own_deconvFF (nf kw kh sx sy : Nat) {l : Nat} (hB : B.1 l) (hf : (g.w.layers l).ff = true) : At A B g (LayerM.deconvFF nf kw kh sx sy l : Run T Unit) fun _ _ => True := by
  unfold LayerM.deconvFF
  refine At.bind (At.lay l) fun g1 x l1 hx => ?_
  have f1 := l1.ff l hf
  split
  · exact At.fail _
  · next inp _ =>
    refine At.bind (At.mat _) fun g2 _ l2 _ => At.ite (fun _ => At.fail _) fun _ => ?_
    refine At.bind (At.zeros _) fun g5 neta l5 h5 => At.bind (At.zeros _) fun g6 o l6 h6 => At.bind (At.zeros _) fun g7 d l7 h7 =>
      At.bind (At.normNew l _) fun g8 b l8 h8 => At.bind (At.normNew l _) fun g9 w l9 h9 => ?_
    have f9 := l9.ff l (l8.ff l (l7.ff l (l6.ff l (l5.ff l (l2.ff l f1)))))
    have n9 : g9.clean neta := l9.clean _ (l8.clean _ (l7.clean _ (l6.clean _ h5)))
    refine At.bind (At.modConv hB f9 (l9.clean _ (l8.clean _ (l7.clean _ h6))) (l9.clean _ (l8.clean _ h7)) ⟨h8.1.1.le l9, h8.1.2.le h8.1.1 l9⟩ h9.1 (by rw [l9.leaf b h8.1.1.lt h8.1.1.leaf]; exact h8.2.1) h9.2.1 (fun q hq hc => by
      rw [l9.leaf b h8.1.1.lt h8.1.1.leaf] at hc
      have h1 := (h8.1.1.ops q hc).1
      have h2 := h9.2.2.2 q hq
      omega)) fun g10 _ l10 _ => ?_
    have n10 := l10.clean _ n9
    refine At.bind (At.transfer _ n10) fun g11 _ l11 _ => ?_
    have n11 := l11.clean _ n10
    refine At.bind (At.transfer _ n11) fun g12 _ l12 _ => ?_
    have n12 := l12.clean _ n11
    clear n11 n10 n9 h8 h9 f9 h5
    own

theorem own_poolWindow (inp sx sy h w f x y : Nat) : At A B g (LayerM.poolWindow inp sx sy h w f x y : Run T _) fun _ _ => True := by
  unfold LayerM.poolWindow; own

theorem own_maxPoolFF (sx sy l : Nat) : At A B g (LayerM.maxPoolFF sx sy l : Run T Unit) fun _ _ => True := by
  unfold LayerM.maxPoolFF
  repeat' (first | own1 | exact own_zeroDif _ _ | refine At.bind (own_poolWindow _ _ _ _ _ _ _ _) fun _ _ _ _ => ?_)

theorem own_upSamplingFF (sx sy l : Nat) : At A B g (LayerM.upSamplingFF sx sy l : Run T Unit) fun _ _ => True := by
  unfold LayerM.upSamplingFF
  ownF

theorem own_inputFF (l : Nat) : At A B g (LayerM.inputFF l : Run T Unit) fun _ _ => True := by
  unfold LayerM.inputFF
  ownF

theorem own_ffBody (f : Nat) {l : Nat} (k : LKind T) (pre : Option Nat) (hB : B.1 l) (hf : (g.w.layers l).ff = true) :
    At A B g (LayerM.ffBody f l k pre) fun _ _ => True := by
  cases k with
  | input => exact own_inputFF l
  | dense => exact own_denseFF hB hf
  | flatten => exact At.bind (At.opt _) fun _ _ _ _ => own_flattenFF _ _ _
  | softMax => exact At.bind (At.opt _) fun _ _ _ _ => own_softMaxFF _ _ _
  | norm mn mx => exact own_normFF _ _ _
  | sub d s e => exact At.bind (At.opt _) fun _ _ _ _ => own_subFF _ _ _ _ _ _
  | concat a b d => exact own_concatFF _ _ _ _ _
  | conv nf kw kh sx sy => exact own_convFF _ _ _ _ _ hB hf
  | deconv nf kw kh sx sy => exact own_deconvFF _ _ _ _ _ hB hf
  | maxPool sx sy => exact own_maxPoolFF _ _ _
  | upSampling sx sy => exact own_upSamplingFF _ _ _

theorem own_feedForward (f : Nat) {l : Nat} (hl : l < g.w.layerNext) : At A B g (LayerM.feedForward f l : Run T Unit) fun _ _ => True := by
  induction f generalizing l g B with
  | zero => exact At.abort
  | succ f ih =>
    unfold LayerM.feedForward
    refine At.bind (At.lay l) fun g1 x l1 hx => At.ite (fun _ => At.pure _ fun _ => trivial) fun hff => ?_
    have hf1 : (g1.w.layers l).ff = false := by rw [← hx.2]; simpa using hff
    have hl1 : l < g1.w.layerNext := lt_of_lt_of_le hl l1.layer
    refine At.weaken hf1 ?_
    refine At.bind (At.value _) fun g2 v l2 _ => At.ite (fun _ => At.pure _ fun _ => trivial) fun _ => ?_
    have hl2 : l < g2.w.layerNext := lt_of_lt_of_le hl1 l2.layer
    refine At.bind (Q := fun g' _ => (g'.w.layers l).ff = true) ?_ fun g3 _ l3 h3 => ?_
    · refine (At.modify fun hi => { LOk.refl (B := (⟨fun k => B.1 k ∨ k = l, B.2⟩ : Chg)) hi l with
        neat := ⟨(hi.neat l).solid, (hi.neat l).apart⟩
        unff := fun h => by cases h
        unused := fun h => absurd hl2 (not_lt.2 h)
        ff := fun _ => rfl }).mono fun g' _ _ h => by rw [h]
    have l13 : g1.w.layerNext ≤ g3.w.layerNext := le_trans l2.layer l3.layer
    have body : ∀ g4 : G T, (g4.w.layers l).ff = true → At A (⟨fun k => B.1 k ∨ k = l, B.2⟩ : Chg) g4 (LayerM.ffBody f l x.kind x.pre) fun _ _ => True :=
      fun g4 h4 => own_ffBody f _ _ (.inr rfl) h4
    have rec' : ∀ (g4 : G T) p, p < g4.w.layerNext → At A (⟨fun k => B.1 k ∨ k = l, B.2⟩ : Chg) g4 (LayerM.feedForward f p) fun _ _ => True := fun g4 p hp => ih hp
    split
    · split
      · next p hp => exact rec' _ _ (lt_of_lt_of_le (hx.1.pre p hp) l13)
      · exact body g3 h3
    · next a b d hk =>
      have hab := hx.1.cat a b d hk
      exact At.bind (rec' _ _ (lt_of_lt_of_le hab.1 l13)) fun g4 _ l4 _ => At.bind (rec' _ _ (lt_of_lt_of_le hab.2 (le_trans l13 l4.layer))) fun g5 _ l5 _ =>
        body g5 (l5.ff l (l4.ff l h3))
    · split
      · next p hp =>
        exact At.bind (rec' _ _ (lt_of_lt_of_le (hx.1.pre p hp) l13)) fun g4 _ l4 _ => At.bind (At.getOutputs _ _) fun g5 o l5 h5 => At.bind (At.modInput h5) fun g6 _ l6 _ =>
          body g6 (l6.ff l (l5.ff l (l4.ff l h3)))
      · exact body g3 h3

/-! ### fit -/

theorem own_fitOwn (l : Nat) (hB : ¬ B.2.1) (hA : Tr A g l) : At A B g (LayerM.fitOwn l : Run T Unit) fun _ _ => True := by
  unfold LayerM.fitOwn
  refine At.bind (At.lay l) fun g1 x l1 hx => At.ite (fun _ => At.pure _ fun _ => trivial) fun ht => ?_
  have hAl : A l := (hA.le hB l1) l (.refl l) (by rw [← hx.2]; simpa using ht)
  have wr : ∀ (g2 : G T) n, Le A B g1 g2 → x.weights = some n ∨ x.bias = some n → Inv g2 → ∀ q ∈ (g2.w.store.nodes n).mat.ops, MayWrite A g2 q := by
    intro g2 n l2 hn _ q hq k hk
    have := ((hx.1.wts n hn).le l2).ops q hq
    rw [this.2] at hk
    cases hk
    exact hAl
  have bias : ∀ g2 : G T, Le A B g1 g2 → At A B g2 (match x.bias, x.nBias with
      | none, none => pure ()
      | some b, some nb => LayerM.loadFrom b nb
      | _, _ => Run.abort : Run T Unit) fun _ _ => True := by
    intro g2 l2
    split
    · own
    · next _ _ b nb hb _ => exact At.loadFrom (wr g2 b l2 (.inr hb))
    · own
  dsimp only
  split
  · next w nw hw _ => exact fun hi => At.bind (At.loadFrom (wr g1 w (Le.refl hi) (.inl hw))) (fun g2 _ l2 _ => bias g2 l2) hi
  · exact fun hi => bias g1 (Le.refl hi) hi

theorem own_fit (f l : Nat) (hB : ¬ B.2.1) (hA : Tr A g l) : At A B g (LayerM.fit f l : Run T Unit) fun _ _ => True := by
  induction f generalizing l g with
  | zero => exact At.abort
  | succ f ih =>
    unfold LayerM.fit
    refine At.bind (At.lay l) fun g1 x l1 hx => ?_
    have h1 := hA.le hB l1
    split
    · next p hp =>
      have hp' : (g1.w.layers l).pre = some p := by rw [← hx.2]; exact hp
      exact At.bind (At.ignoreErr (ih _ fun k hk ht => h1 k (.step hp' hk) ht)) fun g2 _ l2 _ => own_fitOwn l hB (h1.le hB l2)
    · exact own_fitOwn l hB h1

end Own
end Godeep
