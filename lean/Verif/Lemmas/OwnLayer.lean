import Verif.Lemmas.OwnBP
/-
  Compiling the back-propagation of each layer, and the feed-forward, keeps the invariant.
-/
set_option linter.unusedSectionVars false

namespace Godeep
open Spec GoNum

variable {T : Type} [GoNum T] {α β : Type}

namespace Own
variable {A : Nat → Prop} {B : Chg} {g g' : G T}

macro "ownBP" : tactic => `(tactic| repeat' (first
  | own1
  | refine At.bind (own_scaledDif _) fun _ _ _ _ => ?_
  | refine At.bind (own_buildDer _ _) fun _ _ _ _ => ?_
  | refine At.bind (own_convPre _ _ _ _ _ _ _ _ (by cl)) fun _ _ _ _ => ?_
  | refine At.bind (own_deconvPre _ _ _ _ _ _ _ _ _ (by cl)) fun _ _ _ _ => ?_
  | refine At.bind (own_convBias _ _ _ _ (by cl) _ _) fun _ _ _ _ => ?_
  | exact own_convUpdate _ _ _ _ _ _ _ _ (by cl) (by cl)
  | exact own_deconvUpdate _ _ _ _ _ _ _ _ _ (by cl) (by cl)
  | exact own_densePre _ _ _ _ _ (by cl)
  | exact own_denseUpdate _ _ _ _ _ _ (by cl) (by cl) _ _ _ _
  | split))

theorem own_flattenBP (f l : Nat) : At A B g (LayerM.flattenBP f l : Run T Unit) fun _ _ => True := by unfold LayerM.flattenBP; ownBP
theorem own_softMaxBP (l : Nat) : At A B g (LayerM.softMaxBP l : Run T Unit) fun _ _ => True := by unfold LayerM.softMaxBP; ownBP
theorem own_concatBP (l : Nat) : At A B g (LayerM.concatBP l : Run T Unit) fun _ _ => True := by unfold LayerM.concatBP; ownBP
theorem own_normBP (mn mx : T) (f l : Nat) : At A B g (LayerM.normBP mn mx f l : Run T Unit) fun _ _ => True := by unfold LayerM.normBP; ownBP
theorem own_subBP (d s e f l : Nat) : At A B g (LayerM.subBP d s e f l : Run T Unit) fun _ _ => True := by unfold LayerM.subBP; ownBP
set_option maxHeartbeats 4000000 in
theorem own_denseBP (f l : Nat) (a m : Nat) : At A B g (LayerM.denseBP f l a m : Run T Unit) fun _ _ => True := by
  unfold LayerM.denseBP
  ownBP
theorem own_maxPoolBP (sx sy f l : Nat) : At A B g (LayerM.maxPoolBP sx sy f l : Run T Unit) fun _ _ => True := by unfold LayerM.maxPoolBP; ownBP
theorem own_upSamplingBP (sx sy f l : Nat) : At A B g (LayerM.upSamplingBP sx sy f l : Run T Unit) fun _ _ => True := by unfold LayerM.upSamplingBP; ownBP

set_option maxHeartbeats 4000000 in
theorem own_convBP (kw kh sx sy f l : Nat) (a m : Nat) : At A B g (LayerM.convBP kw kh sx sy f l a m : Run T Unit) fun _ _ => True := by
  unfold LayerM.convBP
  ownBP
set_option maxHeartbeats 4000000 in
theorem own_deconvBP (kw kh sx sy f l : Nat) (a m : Nat) : At A B g (LayerM.deconvBP kw kh sx sy f l a m : Run T Unit) fun _ _ => True := by
  unfold LayerM.deconvBP
  ownBP

set_option maxHeartbeats 4000000 in
theorem own_backProp (a m : Nat) (f l : Nat) : At A B g (LayerM.backProp a m f l : Run T Unit) fun _ _ => True := by
  induction f generalizing l g with
  | zero => exact At.abort
  | succ f ih =>
    unfold LayerM.backProp
    refine At.bind (At.lay l) fun g1 x l1 hx => At.ite (fun _ => At.pure _ fun _ => trivial) fun _ => ?_
    refine At.bind (At.value _) fun g2 v l2 _ => At.ite (fun _ => At.pure _ fun _ => trivial) fun _ => ?_
    refine At.bind (At.modSame fun _ => ⟨rfl, rfl, rfl, rfl, rfl, rfl, rfl, rfl, rfl⟩) fun g3 _ l3 _ => ?_
    split <;> dsimp only <;> split <;> repeat' (first
      | with_reducible exact ih _
      | with_reducible exact own_denseBP _ _ _ _
      | with_reducible exact own_flattenBP _ _
      | with_reducible exact own_softMaxBP _
      | with_reducible exact own_normBP _ _ _ _
      | with_reducible exact own_subBP _ _ _ _ _
      | with_reducible exact own_convBP _ _ _ _ _ _ _ _
      | with_reducible exact own_deconvBP _ _ _ _ _ _ _ _
      | with_reducible exact own_maxPoolBP _ _ _ _
      | with_reducible exact own_upSamplingBP _ _ _ _
      | with_reducible exact own_concatBP _
      | own1
      | refine At.bind (Q := fun _ _ => True) ?_ fun _ _ _ _ => ?_)

theorem own_resetFit (f l : Nat) : At A B g (LayerM.resetFit f l : Run T Unit) fun _ _ => True := by
  induction f generalizing l g with
  | zero => exact At.abort
  | succ f ih =>
    unfold LayerM.resetFit
    refine At.bind (At.lay l) fun g1 x l1 hx => ?_
    split
    · exact At.bind (ih _) fun _ _ _ _ => by own
    · own

theorem own_reset (f l : Nat) : At A B g (LayerM.reset f l : Run T Unit) fun _ _ => True := by
  induction f generalizing l g with
  | zero => exact At.abort
  | succ f ih =>
    unfold LayerM.reset
    refine At.bind (At.lay l) fun g1 x l1 hx => ?_
    split
    · exact ih _
    · own

end Own
end Godeep
