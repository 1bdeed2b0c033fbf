import Verif.Lemmas.SideLayer
/-
  Feed-forward and derivatives stay in the part.
-/
set_option linter.unusedSectionVars false

namespace Godeep
open Spec GoNum

variable {T : Type} [GoNum T] {α β : Type}

namespace Side

variable {b b1 b2 : Bool} {g g' : Sd} {w w' : World T}

theorem cl_denseNeuron (x : Layer T) {w b neta out inp : Nat} (h1 : g.node w) (h2 : g.node b) (h3 : g.node neta) (h4 : g.node out) (h5 : g.node inp) (n i : Nat) :
    Cl true g (LayerM.denseNeuron x w b neta out inp n i) fun _ _ => True := by
  unfold LayerM.denseNeuron
  st

theorem cl_denseFF {l : Nat} (hl : g.layer l) : Cl true g (LayerM.denseFF l : Run T Unit) fun _ _ => True := by
  unfold LayerM.denseFF
  refine Cl.bind (Cl.layer hl) fun g1 x l1 hx => ?_
  split
  · st
  · next e =>
    have hi := hx.input _ e
    st
    exact cl_denseNeuron x (by sd) (by sd) (by sd) (by sd) (by sd) _ _

theorem cl_zeroDif {l o : Nat} (hl : g.layer l) (ho : g.node o) : Cl b g (LayerM.zeroDif l o : Run T Unit) fun _ _ => True := by
  unfold LayerM.zeroDif
  st

theorem cl_flattenFF (f : Nat) {l p : Nat} (hl : g.layer l) (hp : g.layer p) : Cl true g (LayerM.flattenFF f l p : Run T Unit) fun _ _ => True := by
  unfold LayerM.flattenFF
  refine Cl.bind (cl_getOutputs f hp) fun _ _ _ _ => ?_
  st
  refine Cl.bind (cl_addRef (by sd) _) fun _ _ _ _ => ?_
  refine Cl.bind (cl_getRef (by sd)) fun _ _ _ _ => ?_
  st
  exact cl_zeroDif (by sd) (by sd)

theorem cl_softMaxFF (f : Nat) {l p : Nat} (hl : g.layer l) (hp : g.layer p) : Cl true g (LayerM.softMaxFF f l p : Run T Unit) fun _ _ => True := by
  unfold LayerM.softMaxFF
  st
  refine Cl.bind (cl_getDif f (by sd)) fun _ _ _ _ => ?_
  st

theorem cl_normFF (mn mx : T) {l : Nat} (hl : g.layer l) : Cl true g (LayerM.normFF mn mx l : Run T Unit) fun _ _ => True := by
  unfold LayerM.normFF
  st
  exact cl_zeroDif (by sd) (by sd)

theorem cl_subFF (d s e f : Nat) {l p : Nat} (hl : g.layer l) (hp : g.layer p) : Cl true g (LayerM.subFF d s e f l p : Run T Unit) fun _ _ => True := by
  unfold LayerM.subFF
  refine Cl.bind (cl_getOutputs f hp) fun _ _ _ _ => ?_
  st
  exact cl_zeroDif (by sd) (by sd)

theorem cl_concatFF (d f : Nat) {l k1 k2 : Nat} (hl : g.layer l) (h1 : g.layer k1) (h2 : g.layer k2) :
    Cl true g (LayerM.concatFF k1 k2 d f l : Run T Unit) fun _ _ => True := by
  unfold LayerM.concatFF
  refine Cl.bind (cl_getOutputs f h1) fun _ _ _ _ => ?_
  st
  refine Cl.bind (cl_getOutputs f (by sd)) fun _ _ _ _ => ?_
  st
  refine Cl.bind (cl_getDif f (by sd)) fun _ _ _ _ => ?_
  st
  refine Cl.bind (cl_getDif f (by sd)) fun _ _ _ _ => ?_
  st

theorem cl_convCell {w neta row : Nat} (h1 : g.node w) (h2 : g.node neta) (h3 : g.node row) (kw kh sy c f x y : Nat) :
    Cl true g (LayerM.convCell w neta row kw kh sy c f x y : Run T Unit) fun _ _ => True := by
  unfold LayerM.convCell
  st

set_option maxHeartbeats 1000000 in
theorem cl_convFF (nf kw kh sx sy : Nat) {l : Nat} (hl : g.layer l) : Cl true g (LayerM.convFF nf kw kh sx sy l : Run T Unit) fun _ _ => True := by
  unfold LayerM.convFF
  refine Cl.bind (Cl.layer hl) fun g1 x l1 hx => ?_
  split
  · st
  · next e =>
    have hi := hx.input _ e
    st
    exact cl_convCell (by sd) (by sd) (by sd) _ _ _ _ _ _ _

set_option maxHeartbeats 1000000 in
theorem cl_deconvFF (nf kw kh sx sy : Nat) {l : Nat} (hl : g.layer l) : Cl true g (LayerM.deconvFF nf kw kh sx sy l : Run T Unit) fun _ _ => True := by
  unfold LayerM.deconvFF
  refine Cl.bind (Cl.layer hl) fun g1 x l1 hx => ?_
  split
  · st
  · next e =>
    have hi := hx.input _ e
    st

theorem cl_poolWindow {inp : Nat} (h : g.node inp) (sx sy hh ww f x y : Nat) :
    Cl b g (LayerM.poolWindow inp sx sy hh ww f x y : Run T (List Nat)) fun g' l => ∀ p ∈ l, g'.cell p := by
  unfold LayerM.poolWindow
  st

theorem cl_maxPoolFF (sx sy : Nat) {l : Nat} (hl : g.layer l) : Cl true g (LayerM.maxPoolFF sx sy l : Run T Unit) fun _ _ => True := by
  unfold LayerM.maxPoolFF
  st
  · refine Cl.bind (cl_poolWindow (by sd) _ _ _ _ _ _ _) fun _ _ _ _ => ?_
    st
  · exact cl_zeroDif (by sd) (by sd)

theorem cl_upSamplingFF (sx sy : Nat) {l : Nat} (hl : g.layer l) : Cl true g (LayerM.upSamplingFF sx sy l : Run T Unit) fun _ _ => True := by
  unfold LayerM.upSamplingFF
  st
  exact cl_zeroDif (by sd) (by sd)

theorem cl_inputFF {l : Nat} (hl : g.layer l) : Cl b g (LayerM.inputFF l : Run T Unit) fun _ _ => True := by
  unfold LayerM.inputFF
  st
  exact cl_zeroDif (by sd) (by sd)

theorem cl_ffBody (f : Nat) {l : Nat} {k : LKind T} {pre : Option Nat} (hl : g.layer l) (hk : KindIn g k) (hp : Opt g.layer pre) :
    Cl true g (LayerM.ffBody f l k pre) fun _ _ => True := by
  have dp : ∀ {F : Nat → Run T Unit}, (∀ (g' : Sd) (p : Nat), g'.layer l → g'.layer p → Cl true g' (F p) fun _ _ => True) →
      Cl true g (Run.bind (Run.deref pre) F) fun _ _ => True := fun h =>
    Cl.bind (Cl.deref (P := fun g n => g.layer n) hp) fun g1 p l1 h1 => h g1 p (l1.layer _ hl) h1
  unfold LayerM.ffBody
  cases k with
  | input => exact cl_inputFF hl
  | dense => exact cl_denseFF hl
  | flatten => exact dp fun _ _ h1 h2 => cl_flattenFF f h1 h2
  | softMax => exact dp fun _ _ h1 h2 => cl_softMaxFF f h1 h2
  | norm a c => exact cl_normFF a c hl
  | sub d s e => exact dp fun _ _ h1 h2 => cl_subFF d s e f h1 h2
  | concat a c d => exact cl_concatFF d f hl hk.1 hk.2
  | conv => exact cl_convFF _ _ _ _ _ hl
  | deconv => exact cl_deconvFF _ _ _ _ _ hl
  | maxPool => exact cl_maxPoolFF _ _ hl
  | upSampling => exact cl_upSamplingFF _ _ hl

theorem cl_feedForward (f : Nat) {l : Nat} (hl : g.layer l) : Cl true g (LayerM.feedForward f l : Run T Unit) fun _ _ => True := by
  induction f generalizing l g with
  | zero => exact Cl.abort
  | succ f ih =>
    unfold LayerM.feedForward
    refine Cl.bind (Cl.layer hl) fun g1 x l1 hx => Cl.ite (fun _ => Cl.pure _ trivial) fun _ => ?_
    refine Cl.bind (Cl.value _) fun g2 v l2 _ => Cl.ite (fun _ => Cl.pure _ trivial) fun _ => ?_
    refine Cl.bind (Cl.modify (by sd) (by md)) fun g3 _ l3 _ => ?_
    have hx3 : LayerIn g3 x := by sd
    have h3 : g3.layer l := by sd
    have body : ∀ {g' : Sd}, Le g3 g' → Cl true g' (LayerM.ffBody f l x.kind x.pre) fun _ _ => True := fun hle =>
      cl_ffBody f (hle.layer _ h3) (hx3.kind.le hle) (hx3.pre.mono hle.layer)
    split
    · split
      · exact ih (by sd)
      · exact body (Le.refl _)
    · next e =>
      obtain ⟨k1, k2⟩ := kind_concat hx3.kind e
      refine Cl.bind (ih k1) fun g4 _ l4 _ => ?_
      refine Cl.bind (ih (by sd)) fun g5 _ l5 _ => ?_
      exact body (l4.trans l5)
    · dsimp only
      split
      · refine Cl.bind (ih (by sd)) fun g4 _ l4 _ => ?_
        refine Cl.bind (cl_getOutputs f (by sd)) fun g5 _ l5 _ => ?_
        refine Cl.bind (Cl.modify (by sd) (by md)) fun g6 _ l6 _ => ?_
        exact body ((l4.trans l5).trans l6)
      · exact body (Le.refl _)

/-! ### derivatives -/

theorem cl_baseDer {l : Nat} (hl : g.layer l) : Cl true g (LayerM.baseDer l : Run T Nat) fun g' n => g'.node n := by
  unfold LayerM.baseDer
  st

theorem cl_maxPoolDer {rec : Nat → Run T Nat} (h : ∀ {g : Sd} {p}, g.layer p → Cl true g (rec p) fun g' n => g'.node n) (sx sy : Nat) {l : Nat} (hl : g.layer l) :
    Cl true g (LayerM.maxPoolDer rec sx sy l) fun g' n => g'.node n := by
  unfold LayerM.maxPoolDer
  st
  refine Cl.bind (h (by sd)) fun _ _ _ _ => ?_
  st
  refine Cl.bind (Cl.foldlM (P := fun g l => ∀ p ∈ l, g.cell p) (fun _ _ _ l h => cells_le l h) _ all_nil fun _ _ _ _ _ => ?_) fun _ _ _ _ => Cl.pure _ trivial
  st

theorem cl_upSamplingDer {rec : Nat → Run T Nat} (h : ∀ {g : Sd} {p}, g.layer p → Cl true g (rec p) fun g' n => g'.node n) (sx sy : Nat) {l : Nat} (hl : g.layer l) :
    Cl true g (LayerM.upSamplingDer rec sx sy l) fun g' n => g'.node n := by
  unfold LayerM.upSamplingDer
  st
  refine Cl.bind (h (by sd)) fun _ _ _ _ => ?_
  st

theorem cl_buildDer (f : Nat) {l : Nat} (hl : g.layer l) : Cl true g (LayerM.buildDer f l : Run T Nat) fun g' n => g'.node n := by
  induction f generalizing l g with
  | zero => exact Cl.abort
  | succ f ih =>
    unfold LayerM.buildDer
    refine Cl.bind (Cl.layer hl) fun g1 x l1 hx => ?_
    have hl1 : g1.layer l := by sd
    have hp := hx.pre
    split
    · exact ih (by sd)
    · split
      · next e => exact Cl.pure _ (hx.der _ e)
      · split
        all_goals first
          | exact cl_baseDer hl1
          | exact cl_maxPoolDer ih _ _ hl1
          | exact cl_upSamplingDer ih _ _ hl1
          | skip
        · st
          refine Cl.bind (ih (by sd)) fun _ _ _ _ => ?_
          st
        · st
          refine Cl.bind (ih (by sd)) fun _ _ _ _ => ?_
          st
        · st
          refine Cl.bind (ih (by sd)) fun _ _ _ _ => ?_
          st
        · st
          refine Cl.bind (ih (by sd)) fun _ _ _ _ => ?_
          st
        · obtain ⟨k1, k2⟩ := kind_concat hx.kind (by assumption)
          refine Cl.bind (ih k1) fun _ _ _ _ => ?_
          refine Cl.bind (ih (by sd)) fun _ _ _ _ => ?_
          st

end Side
end Godeep
