import Verif.Lemmas.SideFF
/-
  Back-propagation, fitting and resetting stay in the part.
-/
set_option linter.unusedSectionVars false

namespace Godeep
open Spec GoNum

variable {T : Type} [GoNum T] {α β : Type}

namespace Side

variable {b b1 b2 : Bool} {g g' : Sd} {w w' : World T}

theorem cl_scaledDif {x : Layer T} (hx : LayerIn g x) : Cl b g (LayerM.scaledDif x) fun g' n => g'.node n := by
  unfold LayerM.scaledDif
  st

macro "bp1" : tactic => `(tactic| first
  | st1
  | ((with_reducible refine Cl.bind (cl_getDif _ ?_) fun _ _ _ _ => ?_); (· sd))
  | ((with_reducible refine Cl.bind (cl_scaledDif ?_) fun _ _ _ _ => ?_); (· sd))
  | ((with_reducible refine Cl.bind (cl_buildDer _ ?_) fun _ _ _ _ => ?_); (· sd))
  | with_reducible refine Cl.bind (Cl.collect (P := fun g l => ∀ k ∈ l, ∀ m ∈ k, ∀ p ∈ m, g.cell p) (fun _ _ _ l h => cells3_le l h) fun _ _ _ _ => ?_) fun _ _ _ _ => ?_
  | with_reducible refine Cl.bind (Q := fun g p => g.cell p) (Cl.ite (fun _ => ?_) (fun _ => ?_)) fun _ _ _ _ => ?_)

macro "bp" : tactic => `(tactic| ((try dsimp only); repeat' bp1))

theorem cl_densePre {dif w der pdif : Nat} (h1 : g.node dif) (h2 : g.node w) (h3 : g.node der) (h4 : g.node pdif) (o i : Nat) :
    Cl true g (LayerM.densePre dif w der pdif o i : Run T Unit) fun _ _ => True := by
  unfold LayerM.densePre
  bp

set_option maxHeartbeats 1000000 in
theorem cl_denseUpdate {dif w b nw mw nb mb inp a m : Nat} (h1 : g.node dif) (h2 : g.node w) (h3 : g.node b) (h4 : g.node nw) (h5 : g.node mw)
    (h6 : g.node nb) (h7 : g.node mb) (h8 : g.node inp) (h9 : g.cell a) (h10 : g.cell m) (n i : Nat) :
    Cl true g (LayerM.denseUpdate dif w b nw mw nb mb inp a m n i : Run T Unit) fun _ _ => True := by
  unfold LayerM.denseUpdate
  bp

set_option maxHeartbeats 1000000 in
theorem cl_denseBP (f : Nat) {l a m : Nat} (hl : g.layer l) (ha : g.cell a) (hm : g.cell m) :
    Cl true g (LayerM.denseBP f l a m : Run T Unit) fun _ _ => True := by
  unfold LayerM.denseBP
  refine Cl.bind (Cl.layer hl) fun g1 x l1 hx => ?_
  have hp := hx.pre
  bp
  split
  · bp
    exact cl_denseUpdate (by sd) (by sd) (by sd) (by sd) (by sd) (by sd) (by sd) (by sd) (by sd) (by sd) _ _
  · next e =>
    have hp := hp _ e
    bp
    · exact cl_densePre (by sd) (by sd) (by sd) (by sd) _ _
    · exact cl_denseUpdate (by sd) (by sd) (by sd) (by sd) (by sd) (by sd) (by sd) (by sd) (by sd) (by sd) _ _

theorem cl_flattenBP (f : Nat) {l : Nat} (hl : g.layer l) : Cl true g (LayerM.flattenBP f l : Run T Unit) fun _ _ => True := by
  unfold LayerM.flattenBP
  bp

theorem cl_softMaxBP {l : Nat} (hl : g.layer l) : Cl true g (LayerM.softMaxBP l : Run T Unit) fun _ _ => True := by
  unfold LayerM.softMaxBP
  bp

theorem cl_normBP (mn mx : T) (f : Nat) {l : Nat} (hl : g.layer l) : Cl true g (LayerM.normBP mn mx f l : Run T Unit) fun _ _ => True := by
  unfold LayerM.normBP
  bp

theorem cl_subBP (d s e f : Nat) {l : Nat} (hl : g.layer l) : Cl true g (LayerM.subBP d s e f l : Run T Unit) fun _ _ => True := by
  unfold LayerM.subBP
  bp

theorem cl_concatBP {l : Nat} (hl : g.layer l) : Cl true g (LayerM.concatBP l : Run T Unit) fun _ _ => True := by
  unfold LayerM.concatBP
  bp

set_option maxHeartbeats 1000000 in
theorem cl_convPre (kw sx sy : Nat) (si so : List Nat) {dif w der pdif : Nat} (h1 : g.node dif) (h2 : g.node w) (h3 : g.node der) (h4 : g.node pdif) :
    Cl true g (LayerM.convPre kw sx sy si so dif w der pdif : Run T Unit) fun _ _ => True := by
  unfold LayerM.convPre
  bp

set_option maxHeartbeats 1000000 in
theorem cl_deconvPre (kw kh sx sy : Nat) (si so : List Nat) {dif w der pdif : Nat} (h1 : g.node dif) (h2 : g.node w) (h3 : g.node der) (h4 : g.node pdif) :
    Cl true g (LayerM.deconvPre kw kh sx sy si so dif w der pdif : Run T Unit) fun _ _ => True := by
  unfold LayerM.deconvPre
  bp

theorem cl_convBias {l : Nat} {x : Layer T} {b mb mw a m : Nat} (hl : g.layer l) (hx : LayerIn g x) (h1 : g.node b) (h2 : g.node mb) (h3 : g.node mw)
    (ha : g.cell a) (hm : g.cell m) : Cl true g (LayerM.convBias l x b mb mw a m) fun g' r => g'.node r.1 ∧ g'.node r.2 := by
  unfold LayerM.convBias
  bp
  exact Cl.pure _ ⟨by sd, by sd⟩

set_option maxHeartbeats 1000000 in
theorem cl_convUpdate (kw kh sy : Nat) (si so : List Nat) {inp dif w wm nw : Nat} (h1 : g.node inp) (h2 : g.node dif) (h3 : g.node w) (h4 : g.node wm) (h5 : g.node nw) :
    Cl true g (LayerM.convUpdate kw kh sy si so inp dif w wm nw : Run T Unit) fun _ _ => True := by
  unfold LayerM.convUpdate
  bp

set_option maxHeartbeats 1000000 in
theorem cl_deconvUpdate (kw kh sx sy : Nat) (si so : List Nat) {inp dif w wm nw : Nat} (h1 : g.node inp) (h2 : g.node dif) (h3 : g.node w) (h4 : g.node wm) (h5 : g.node nw) :
    Cl true g (LayerM.deconvUpdate kw kh sx sy si so inp dif w wm nw : Run T Unit) fun _ _ => True := by
  unfold LayerM.deconvUpdate
  bp

set_option maxHeartbeats 1000000 in
theorem cl_convBP (kw kh sx sy f : Nat) {l a m : Nat} (hl : g.layer l) (ha : g.cell a) (hm : g.cell m) :
    Cl true g (LayerM.convBP kw kh sx sy f l a m : Run T Unit) fun _ _ => True := by
  unfold LayerM.convBP
  refine Cl.bind (Cl.layer hl) fun g1 x l1 hx => ?_
  have hp := hx.pre
  bp
  split
  · refine Cl.bind (cl_convBias (by sd) (by sd) (by sd) (by sd) (by sd) (by sd) (by sd)) fun g2 r l2 hr => ?_
    obtain ⟨hr1, hr2⟩ := hr
    exact cl_convUpdate _ _ _ _ _ (by sd) (by sd) (by sd) (by sd) (by sd)
  · next e =>
    have hp := hp _ e
    repeat' bp1
    refine Cl.bind (cl_convBias (by sd) (by sd) (by sd) (by sd) (by sd) (by sd) (by sd)) fun g2 r l2 hr => ?_
    obtain ⟨hr1, hr2⟩ := hr
    exact cl_convUpdate _ _ _ _ _ (by sd) (by sd) (by sd) (by sd) (by sd)

set_option maxHeartbeats 1000000 in
theorem cl_deconvBP (kw kh sx sy f : Nat) {l a m : Nat} (hl : g.layer l) (ha : g.cell a) (hm : g.cell m) :
    Cl true g (LayerM.deconvBP kw kh sx sy f l a m : Run T Unit) fun _ _ => True := by
  unfold LayerM.deconvBP
  refine Cl.bind (Cl.layer hl) fun g1 x l1 hx => ?_
  have hp := hx.pre
  bp
  split
  · refine Cl.bind (cl_convBias (by sd) (by sd) (by sd) (by sd) (by sd) (by sd) (by sd)) fun g2 r l2 hr => ?_
    obtain ⟨hr1, hr2⟩ := hr
    exact cl_deconvUpdate _ _ _ _ _ _ (by sd) (by sd) (by sd) (by sd) (by sd)
  · next e =>
    have hp := hp _ e
    bp
    refine Cl.bind (cl_convBias (by sd) (by sd) (by sd) (by sd) (by sd) (by sd) (by sd)) fun g2 r l2 hr => ?_
    obtain ⟨hr1, hr2⟩ := hr
    exact cl_deconvUpdate _ _ _ _ _ _ (by sd) (by sd) (by sd) (by sd) (by sd)

set_option maxHeartbeats 1000000 in
theorem cl_maxPoolBP (sx sy f : Nat) {l : Nat} (hl : g.layer l) : Cl true g (LayerM.maxPoolBP sx sy f l : Run T Unit) fun _ _ => True := by
  unfold LayerM.maxPoolBP
  bp

theorem cl_upSamplingBP (sx sy f : Nat) {l : Nat} (hl : g.layer l) : Cl true g (LayerM.upSamplingBP sx sy f l : Run T Unit) fun _ _ => True := by
  unfold LayerM.upSamplingBP
  bp

theorem cl_backProp {a m : Nat} (f : Nat) {l : Nat} (hl : g.layer l) (ha : g.cell a) (hm : g.cell m) :
    Cl true g (LayerM.backProp a m f l : Run T Unit) fun _ _ => True := by
  induction f generalizing l g with
  | zero => exact Cl.abort
  | succ f ih =>
    unfold LayerM.backProp
    refine Cl.bind (Cl.layer hl) fun g1 x l1 hx => Cl.ite (fun _ => Cl.pure _ trivial) fun _ => ?_
    refine Cl.bind (Cl.value _) fun g2 v l2 _ => Cl.ite (fun _ => Cl.pure _ trivial) fun _ => ?_
    refine Cl.bind (Cl.modify (by sd) (by md)) fun g3 _ l3 _ => ?_
    have hx3 : LayerIn g3 x := by sd
    have h3 : g3.layer l := by sd
    have ha3 : g3.cell a := by sd
    have hm3 : g3.cell m := by sd
    have rest : ∀ {g' : Sd}, Le g3 g' → Cl true g' (T := T) (match x.pre with
        | some p => LayerM.backProp a m f p
        | none => pure ()) fun _ _ => True := by
      intro g' hle
      split
      · next e => exact ih (hle.layer _ (hx3.pre _ e)) (hle.cell _ ha3) (hle.cell _ hm3)
      · exact Cl.pure _ trivial
    dsimp only
    split
    · exact rest (Le.refl _)
    · exact Cl.bind (cl_denseBP f h3 ha3 hm3) fun _ _ l4 _ => rest l4
    · exact Cl.bind (cl_flattenBP f h3) fun _ _ l4 _ => rest l4
    · exact Cl.bind (cl_softMaxBP h3) fun _ _ l4 _ => rest l4
    · exact Cl.bind (cl_normBP _ _ f h3) fun _ _ l4 _ => rest l4
    · exact Cl.bind (cl_subBP _ _ _ f h3) fun _ _ l4 _ => rest l4
    · obtain ⟨k1, k2⟩ := kind_concat hx3.kind (by assumption)
      refine Cl.bind (cl_concatBP h3) fun g4 _ l4 _ => ?_
      refine Cl.bind (ih (by sd) (by sd) (by sd)) fun g5 _ l5 _ => ?_
      refine Cl.bind (ih (by sd) (by sd) (by sd)) fun g6 _ l6 _ => ?_
      exact rest ((l4.trans l5).trans l6)
    · exact Cl.bind (cl_convBP _ _ _ _ f h3 ha3 hm3) fun _ _ l4 _ => rest l4
    · exact Cl.bind (cl_deconvBP _ _ _ _ f h3 ha3 hm3) fun _ _ l4 _ => rest l4
    · exact Cl.bind (cl_maxPoolBP _ _ f h3) fun _ _ l4 _ => rest l4
    · exact Cl.bind (cl_upSamplingBP _ _ f h3) fun _ _ l4 _ => rest l4

/-! ### fitting and resetting -/

theorem cl_fitOwn {l : Nat} (hl : g.layer l) : Cl b g (LayerM.fitOwn l : Run T Unit) fun _ _ => True := by
  unfold LayerM.fitOwn
  refine Cl.bind (Cl.layer hl) fun g1 x l1 hx => Cl.ite (fun _ => Cl.pure _ trivial) fun _ => ?_
  have hb : ∀ {g' : Sd}, Le g1 g' → Cl b g' (T := T) (match x.bias, x.nBias with
      | none, none => pure ()
      | some b, some nb => LayerM.loadFrom b nb
      | _, _ => Run.abort) fun _ _ => True := by
    intro g' hle
    split
    · exact Cl.pure _ trivial
    · next e1 e2 => exact Cl.loadFrom _ (hle.node _ (hx.bias _ e1))
    · exact Cl.abort
  dsimp only
  split
  · next e1 e2 => exact Cl.bind (Cl.loadFrom _ (hx.weights _ e1)) fun _ _ l2 _ => hb l2
  · exact hb (Le.refl _)

theorem cl_fit (f : Nat) {l : Nat} (hl : g.layer l) : Cl false g (LayerM.fit f l : Run T Unit) fun _ _ => True := by
  induction f generalizing l g with
  | zero => exact Cl.abort
  | succ f ih =>
    unfold LayerM.fit
    refine Cl.bind (Cl.layer hl) fun g1 x l1 hx => ?_
    dsimp only
    split
    · next e => exact Cl.bind (Cl.ignoreErr (ih (hx.pre _ e))) fun _ _ l2 _ => cl_fitOwn (by sd)
    · exact cl_fitOwn (by sd)

theorem cl_setTrainable {l : Nat} (hl : g.layer l) (t : Bool) : Cl b g (LayerM.setTrainable l t : Run T Unit) fun _ _ => True := by
  unfold LayerM.setTrainable
  exact Cl.modify hl (by md)

theorem cl_connect {l p : Nat} (hl : g.layer l) (hp : g.layer p) : Cl b g (LayerM.connect l p : Run T Unit) fun _ _ => True := by
  unfold LayerM.connect
  exact Cl.modify hl (by md)

theorem cl_resetFit (f : Nat) {l : Nat} (hl : g.layer l) : Cl true g (LayerM.resetFit f l : Run T Unit) fun _ _ => True := by
  induction f generalizing l g with
  | zero => exact Cl.abort
  | succ f ih =>
    unfold LayerM.resetFit
    refine Cl.bind (Cl.layer hl) fun g1 x l1 hx => ?_
    dsimp only
    split
    · next e =>
      refine Cl.bind (ih (hx.pre _ e)) fun _ _ l2 _ => ?_
      st
    · st

theorem cl_reset (f : Nat) {l : Nat} (hl : g.layer l) : Cl b g (LayerM.reset f l : Run T Unit) fun _ _ => True := by
  induction f generalizing l g with
  | zero => exact Cl.abort
  | succ f ih =>
    unfold LayerM.reset
    refine Cl.bind (Cl.layer hl) fun g1 x l1 hx => ?_
    split
    · next e => exact ih (hx.pre _ e)
    · exact Cl.pure _ trivial

theorem cl_resetSave (f : Nat) {l : Nat} (hl : g.layer l) : Cl b g (LayerM.resetSave f l : Run T Unit) fun _ _ => True := by
  induction f generalizing l g with
  | zero => exact Cl.abort
  | succ f ih =>
    unfold LayerM.resetSave
    refine Cl.bind (Cl.modify hl (by md)) fun _ _ _ _ => Cl.bind (Cl.layer (by sd)) fun g1 x l1 hx => ?_
    split
    · next e => exact ih (hx.pre _ e)
    · exact Cl.pure _ trivial

theorem cl_resetLoad (f : Nat) {l : Nat} (hl : g.layer l) : Cl b g (LayerM.resetLoad f l : Run T Unit) fun _ _ => True := by
  induction f generalizing l g with
  | zero => exact Cl.abort
  | succ f ih =>
    unfold LayerM.resetLoad
    refine Cl.bind (Cl.modify hl (by md)) fun _ _ _ _ => Cl.bind (Cl.layer (by sd)) fun g1 x l1 hx => ?_
    split
    · next e => exact ih (hx.pre _ e)
    · exact Cl.pure _ trivial

end Side
end Godeep
