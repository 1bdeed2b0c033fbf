import Verif.Lemmas.SideBP
/-
  The methods of models stay in the part.
-/
set_option linter.unusedSectionVars false

namespace Godeep
open Spec GoNum

variable {T : Type} [GoNum T] {α β : Type}

namespace Side

variable {b b1 b2 : Bool} {g g' : Sd} {w w' : World T}

theorem cl_pushLayer {m l : Nat} (hm : g.net m) (hl : g.layer l) : Cl b g (NetM.pushLayer m l : Run T Unit) fun _ _ => True := by
  unfold NetM.pushLayer
  refine Cl.bind (Cl.net hm) fun g1 x l1 hx => ?_
  split
  · exact Cl.modifyNet (by sd) (by mn)
  · refine Cl.bind (Cl.derefLayer hx.last) fun g2 p l2 hp => Cl.bind (cl_connect (by sd) (by sd)) fun g3 _ l3 _ => ?_
    exact Cl.modifyNet (by sd) (by mn)

theorem blank_net (h0 : g.cell 0) : NetIn g (NetM.blankNet : Net T) := by
  constructor <;> first | exact opt_none | exact h0 | (intro l hl; cases hl)

theorem cl_newModel : Cl b g (NetM.newModel : Run T Nat) fun g' m => g'.net m := Cl.nil fun h0 => Cl.newNet (blank_net h0)

theorem cl_fromInOut {i o : Nat} (h1 : g.layer i) (h2 : g.layer o) : Cl b g (NetM.fromInOut i o : Run T Nat) fun g' m => g'.net m :=
  Cl.nil fun h0 => Cl.newNet { blank_net h0 with first := opt_some h1, last := opt_some h2 }

theorem cl_compile {m : Nat} (hm : g.net m) : Cl2 b true g (NetM.compile m : Run T Unit) fun _ _ => True := by
  unfold NetM.compile
  refine Cl2.bind (Cl.net hm) fun g1 x l1 hx => Cl2.bind (Cl.derefLayer hx.last) fun g2 last l2 h2 => Cl2.bind (cl_addRef h2 _) fun g3 _ l3 _ => Cl2.bind Cl.fuel fun g4 n l4 _ =>
    Cl2.bind (cl_build _ (by sd)) fun g5 _ l5 _ => Cl2.bind Cl.newCtx fun g6 _ l6 _ => ?_
  have hl6 : g6.layer last := by sd
  refine Cl2.bind (cl_feedForward _ hl6) fun g7 _ l7 _ => Cl2.bind Cl.ops fun g8 ff l8 h8 => Cl2.bind Cl.newCtx fun g9 _ l9 _ => Cl2.bind (cl_reset _ (by sd)) fun g10 _ l10 _ =>
    Cl2.bind Cl.ops fun g11 rs l11 h11 => ?_
  have h8' : OpsIn g11 ff := by sd
  refine Cl2.bind (Cl.modifyNet (by sd) (by mn)) fun g12 _ l12 _ => ?_
  refine Cl2.bind (Cl.derefLayer (o := x.first) (by sd)) fun g13 first l13 h13 => Cl2.bind (cl_getInputs _ (by sd)) fun g14 i l14 h14 => Cl2.bind (Cl.modifyNet (by sd) (by mn)) fun g15 _ l15 _ =>
    Cl2.bind (cl_getOutputs _ (by sd)) fun g16 o l16 h16 => Cl2.bind (Cl.modifyNet (by sd) (by mn)) fun g17 _ l17 _ =>
    Cl2.bind (Cl.derefNode (o := o) (by sd)) fun g18 on l18 h18 => Cl2.bind (Cl.copyTensor _) fun g19 t l19 h19 => Cl.modifyNet (by sd) (by mn)

theorem cl_calDif {d t o : Nat} (h1 : g.node d) (h2 : g.node t) (h3 : g.node o) : Cl true g (NetM.calDif d t o : Run T Unit) fun _ _ => True := by
  unfold NetM.calDif
  refine Cl.bind (Cl.mat h3) fun g1 om l1 k1 => Cl.bind (Cl.mat (by sd)) fun g2 tm l2 k2 => Cl.bind (Cl.mat (by sd)) fun g3 dm l3 k3 => Cl.each fun i _ g4 l4 => ?_
  refine Cl.bind (Cl.lift (P := fun g q => g.cell q) _ fun q hq => l4.cell _ (k3 q (Own.index_mem hq))) fun g5 q l5 h5 => ?_
  refine Cl.bind (Cl.lift (P := fun g q => g.cell q) _ fun q hq => l5.cell _ (l4.cell _ (l3.cell _ (k2 q (Own.index_mem hq))))) fun g6 q l6 h6 => ?_
  refine Cl.bind (Cl.lift (P := fun g q => g.cell q) _ fun q hq => l6.cell _ (l5.cell _ (l4.cell _ (l3.cell _ (l2.cell _ (k1 q (Own.index_mem hq))))))) fun g7 q l7 h7 => ?_
  exact Cl.push (by sd)

set_option maxHeartbeats 1000000 in
theorem cl_compileBP {m : Nat} (hm : g.net m) : Cl2 b true g (NetM.compileBP m : Run T Unit) fun _ _ => True := by
  unfold NetM.compileBP
  refine Cl2.bind Cl.newCtx fun g1 _ l1 _ => Cl2.bind (Cl.net (by sd)) fun g2 x l2 hx => Cl2.bind (Cl.derefLayer hx.last) fun g3 last l3 h3 => Cl2.bind Cl.fuel fun g4 n l4 _ =>
    Cl2.bind (cl_getDif _ (by sd)) fun g5 d l5 h5 => Cl2.bind (Cl.derefNode h5) fun g6 dif l6 h6 => ?_
  refine Cl2.bind (Cl.setBuild h6 _) fun g7 _ l7 _ => Cl2.bind (Cl.buildMat (by sd)) fun g8 _ l8 _ => Cl2.bind (Cl.derefNode (o := x.output) (by sd)) fun g9 out l9 h9 =>
    Cl2.bind (Cl.mat h9) fun g10 om l10 h10 => Cl2.bind (Cl.zeros _) fun g11 tg l11 h11 => Cl2.bind (Cl.modifyNet (by sd) (by mn)) fun g12 _ l12 _ => ?_
  have hm12 : g12.net m := by sd
  have hd12 : g12.node dif := by sd
  have ho12 : g12.node out := by sd
  have hl12 : g12.layer last := by sd
  refine Cl2.bind (cl_calDif hd12 (by sd) ho12) fun g13 _ l13 _ => Cl2.bind (Cl.matNode (n := dif) (by sd)) fun g14 dm l14 h14 =>
    Cl2.bind (Cl.lazy (by sd) (by sd)) fun g15 a l15 h15 => Cl2.bind (Cl.lazy (by sd) (by sd)) fun g16 s l16 h16 => Cl2.bind (Cl.ignoreBuild h16) fun g17 _ l17 _ =>
    Cl2.bind (Cl.operandAt (by sd) _) fun g18 loss l18 h18 => ?_
  have hm18 : g18.net m := by sd
  have hl18 : g18.layer last := by sd
  have hd18 : g18.node dif := by sd
  refine Cl2.bind (Cl.modifyNet hm18 (by mn)) fun g19 _ l19 _ => Cl2.bind Cl.ops fun g20 cd l20 h20 =>
    Cl2.bind (Cl.modifyNet (by sd) (by mn)) fun g21 _ l21 _ =>
    Cl2.bind Cl.newCtx fun g22 _ l22 _ => Cl2.bind (Cl.scalar _) fun g23 al l23 h23 => Cl2.bind (Cl.scalar _) fun g24 mo l24 h24 => ?_
  have hm24 : g24.net m := by sd
  have hl24 : g24.layer last := by sd
  have hd24 : g24.node dif := by sd
  have ha24 : g24.cell al := by sd
  refine Cl2.bind (Cl.modifyNet hm24 (by mn)) fun g25 _ l25 _ => Cl2.bind (Cl.setBuild (n := dif) (by sd) _) fun g26 _ l26 _ =>
    Cl2.bind (cl_backProp _ (by sd) (by sd) (by sd)) fun g27 _ l27 _ => Cl2.bind Cl.ops fun g28 bp l28 h28 => Cl2.bind Cl.newCtx fun g29 _ l29 _ =>
    Cl2.bind (cl_resetFit _ (by sd)) fun g30 _ l30 _ => Cl2.bind Cl.ops fun g31 rf l31 h31 => ?_
  have h28' : OpsIn g31 bp := by sd
  exact Cl.modifyNet (by sd) (by mn)

theorem cl_resetIS {m : Nat} (hm : g.net m) : Cl false g (NetM.resetIS m : Run T Unit) fun _ _ => True := by
  unfold NetM.resetIS
  refine Cl.bind (Cl.net hm) fun g1 x l1 hx => ?_
  have tail : ∀ g2 : Sd, g2.net m → Cl false g2 (do let x ← Run.net m; NetM.run x.reset : Run T Unit) fun _ _ => True := fun g2 h2 =>
    Cl.bind (Cl.net h2) fun g3 y l3 hy => Cl.run hy.reset
  dsimp only
  split
  · exact Cl.bind (cl_compile (by sd)).forget fun g2 _ _ _ => tail g2 (by sd)
  · exact tail g1 (by sd)

theorem cl_execFit {m : Nat} (hm : g.net m) (x y : Nat) : Cl false g (NetM.execFit m x y : Run T Unit) fun _ _ => True := by
  unfold NetM.execFit
  refine Cl.bind (Cl.net hm) fun g1 p l1 hp => ?_
  refine Cl.bind (Cl.run hp.resetFit) fun g2 _ l2 _ => Cl.bind (Cl.derefNode (o := p.input) (by sd)) fun g3 i l3 h3 => Cl.bind (Cl.loadFrom _ h3) fun g4 _ l4 _ =>
    Cl.bind (Cl.derefNode (o := p.target) (by sd)) fun g5 t l5 h5 => Cl.bind (Cl.loadFrom _ h5) fun g6 _ l6 _ => ?_
  have hp6 : NetIn g6 p := by sd
  refine Cl.bind (Cl.run hp6.ff) fun g7 _ l7 _ => Cl.bind (Cl.run (hp6.calDif.le l7)) fun g8 _ l8 _ => Cl.bind (Cl.run ((hp6.bp.le l7).le l8)) fun g9 _ l9 _ =>
    Cl.bind (Cl.derefLayer (o := p.last) (by sd)) fun g10 last l10 hlast => Cl.bind Cl.fuel fun g11 n l11 _ => cl_fit n (by sd)

theorem cl_trainOne {m : Nat} (hm : g.net m) (u y : Nat) (a mo : T) : Cl false g (NetM.trainOne m u y a mo) fun _ _ => True := by
  unfold NetM.trainOne
  refine Cl.bind (Cl.net hm) fun g1 x l1 hx => ?_
  have tail : ∀ g2 : Sd, g2.net m → Cl false g2 (do
      let p ← Run.net m
      Run.setValue p.alpha a
      Run.setValue p.momentum mo
      NetM.execFit m u y
      let p ← Run.net m
      Run.value p.loss : Run T T) fun _ _ => True := fun g2 h2 =>
    Cl.bind (Cl.net h2) fun g3 p l3 hp => Cl.bind (Cl.setValue hp.alpha _) fun g4 _ l4 _ => Cl.bind (Cl.setValue (hp.le l4).momentum _) fun g5 _ l5 _ =>
      Cl.bind (cl_execFit (by sd) _ _) fun g6 _ l6 _ => Cl.bind (Cl.net (m := m) (by sd)) fun _ _ _ _ => Cl.value _
  dsimp only
  split
  · exact Cl.bind (cl_compileBP (by sd)).forget fun g2 _ l2 _ => tail g2 (by sd)
  · exact tail g1 (by sd)

theorem cl_trainLoop {m : Nat} (hm : g.net m) (i t p : List Nat) : Cl false g (NetM.trainLoop m i t p : Run T Unit) fun _ _ => True := by
  unfold NetM.trainLoop
  exact Cl.each fun k _ g1 h1 => Cl.bind (Cl.lift _ fun _ _ => trivial) fun g2 _ l2 (_ : True) => Cl.bind (Cl.lift _ fun _ _ => trivial) fun g3 _ l3 (_ : True) =>
    cl_execFit (by sd) _ _

theorem cl_train {m : Nat} (hm : g.net m) (i t : List Nat) (e b : Nat) (a mo : T) (d : Nat → Nat) : Cl false g (NetM.train m i t e b a mo d) fun _ _ => True := by
  unfold NetM.train
  refine Cl.ite (fun _ => Cl.fail _) fun _ => Cl.bind (Cl.net hm) fun g1 x l1 hx => ?_
  have tail : ∀ g2 : Sd, g2.net m → Cl false g2 (do
      let p ← Run.net m
      Run.setValue p.alpha a
      Run.setValue p.momentum mo
      let batch := if b = 0 then i.length else b
      if i.length = 0 ∧ e * batch ≠ 0 then Run.abort
      else
        NetM.trainLoop m i t ((List.range (e * batch)).map fun k => d k % i.length)
        let _ ← Run.value p.loss
        return () : Run T Unit) fun _ _ => True := fun g2 h2 => by
    refine Cl.bind (Cl.net h2) fun g3 p l3 hp => Cl.bind (Cl.setValue hp.alpha _) fun g4 _ l4 _ => Cl.bind (Cl.setValue (hp.le l4).momentum _) fun g5 _ l5 _ => ?_
    refine Cl.ite (fun _ => Cl.abort) fun _ => ?_
    exact Cl.bind (cl_trainLoop (by sd) _ _ _) fun g6 _ l6 _ => Cl.bind (Cl.value _) fun _ _ _ _ => Cl.pure _ trivial
  dsimp only at tail ⊢
  cases x.bp
  · exact Cl.bind (cl_compileBP (by sd)).forget fun g2 _ l2 _ => tail g2 (by sd)
  · exact tail g1 (by sd)

theorem cl_need {m : Nat} (hm : g.net m) (f : Net T → Option (List (Op T))) (hf : ∀ (g : Sd) x, NetIn g x → OptOps g (f x)) :
    Cl b g (do
      let x ← Run.net m
      match f x with
      | some g => return g
      | none => Run.fail (.other "not compiled") : Run T (List (Op T))) fun g' l => OpsIn g' l := by
  refine Cl.bind (Cl.net hm) fun g1 x l1 hx => ?_
  split
  · next l hl => exact Cl.pure _ (hf g1 x hx l hl)
  · exact Cl.fail _

theorem ops_flatten {l : List (List (Op T))} (h : ∀ x ∈ l, OpsIn g x) : OpsIn g l.flatten := fun o ho => by
  obtain ⟨x, hx, hox⟩ := List.mem_flatten.1 ho
  exact h x hx o hox

theorem cl_needs {ms : List Nat} (hm : ∀ m ∈ ms, g.net m) (f : Net T → Option (List (Op T))) (hf : ∀ (g : Sd) x, NetIn g x → OptOps g (f x)) :
    Cl b g (Run.collect ms (fun i => do
      let x ← Run.net i
      match f x with
      | some g => return g
      | none => Run.fail (.other "not compiled")) : Run T (List (List (Op T)))) fun g' l => OpsIn g' l.flatten :=
  (Cl.collect (P := fun g l => OpsIn g l) (fun _ _ _ l h => h.le l) fun i hi g' hl => cl_need (hl.net _ (hm i hi)) f hf).mono fun _ _ _ h => ops_flatten h

theorem index_mem' {l : List Nat} {i : Nat} {x : Nat} (h : Res.index l i = .ok x) : x ∈ l := Own.index_mem h

theorem cl_fromModels {ms : List Nat} (hm : ∀ m ∈ ms, g.net m) : Cl false g (NetM.fromModels ms : Run T Nat) fun g' m => g'.net m := by
  unfold NetM.fromModels
  split
  · exact Cl.fail _
  · next m0 tl =>
    dsimp only
    refine Cl.bind (Q := fun _ _ => True) (Cl.each fun i _ g1 l1 => ?_) fun g2 _ l2 _ => Cl.bind (Q := fun _ _ => True) (Cl.each fun i hi g1 l1 => ?_) fun g3 _ l3 _ =>
      Cl.bind (Q := fun _ _ => True) (Cl.each fun i hi g1 l1 => ?_) fun g4 _ l4 _ => ?_
    · refine Cl.bind (Cl.lift (P := fun g q => g.net q) _ fun q hq => l1.net _ (hm q (index_mem' hq))) fun g2 a l2 ha =>
        Cl.bind (Cl.lift (P := fun g q => g.net q) _ fun q hq => l2.net _ (l1.net _ (hm q (index_mem' hq)))) fun g3 c l3 hc =>
        Cl.bind (Cl.net (by sd)) fun g4 xa l4 hxa => Cl.bind (Cl.net (by sd)) fun g5 xb l5 hxb => Cl.bind (Cl.derefLayer hxb.first) fun g6 fb l6 h6 =>
        Cl.bind (Cl.layer h6) fun g7 y l7 hy => Cl.ite (fun _ => Cl.pure _ trivial) fun _ => ?_
      have hl : Opt g7.layer xa.last := by sd
      exact Cl.modify (by sd) (by md)
    · have hi := hm i hi
      refine Cl.bind (Cl.net (by sd)) fun g2 x l2 hx => ?_
      split
      · exact Cl.ignoreErr (cl_compile (b := false) (by sd))
      · exact Cl.pure _ trivial
    · have hi := hm i (List.mem_reverse.1 hi)
      refine Cl.bind (Cl.net (by sd)) fun g2 x l2 hx => ?_
      split
      · exact Cl.ignoreErr (cl_compileBP (b := false) (by sd))
      · exact Cl.pure _ trivial
    · have hm4 : ∀ m ∈ m0 :: tl, g4.net m := fun m h => l4.net _ (l3.net _ (l2.net _ (hm m h)))
      have hz : (m0 :: tl).getLast?.getD m0 ∈ m0 :: tl := by
        rw [List.getLast?_eq_getLast_of_ne_nil (by simp)]
        exact List.getLast_mem _
      refine Cl.bind (Cl.net (hm4 _ List.mem_cons_self)) fun g5 x0 l5 h0 => Cl.bind (Cl.net (l5.net _ (hm4 _ hz))) fun g6 xz l6 hz => ?_
      have hm6 : ∀ m ∈ m0 :: tl, g6.net m := fun m h => l6.net _ (l5.net _ (hm4 m h))
      refine Cl.bind (cl_needs hm6 _ fun _ x hx => hx.ff) fun g7 ff l7 h7 => ?_
      refine Cl.bind (cl_needs (fun m h => l7.net _ (hm6 m h)) _ fun _ x hx => hx.reset) fun g8 rs l8 h8 => ?_
      refine Cl.bind (cl_needs (fun m h => l8.net _ (l7.net _ (hm6 m h))) _ fun _ x hx => hx.resetFit) fun g9 rf l9 h9 => ?_
      refine Cl.bind (Cl.deref (P := fun g l => OpsIn g l) (((hz.le l7).le l8).le l9).calDif) fun g10 cd l10 h10 => ?_
      refine Cl.bind (cl_needs (fun m h => l10.net _ (l9.net _ (l8.net _ (l7.net _ (hm6 m (List.mem_reverse.1 h)))))) _ fun _ x hx => hx.bp) fun g11 bp l11 h11 => ?_
      have z11 : NetIn g11 xz := ((((hz.le l7).le l8).le l9).le l10).le l11
      have o11 : NetIn g11 x0 := (((((h0.le l6).le l7).le l8).le l9).le l10).le l11
      have f11 := (((h7.le l8).le l9).le l10).le l11
      have s11 := ((h8.le l9).le l10).le l11
      have r11 := (h9.le l10).le l11
      have c11 := h10.le l11
      exact Cl.newNet { o11 with
        last := z11.last
        output := z11.output
        target := z11.target
        alpha := z11.alpha
        momentum := z11.momentum
        loss := z11.loss
        ff := fun l h => by cases h; exact f11
        reset := fun l h => by cases h; exact s11
        resetFit := fun l h => by cases h; exact r11
        calDif := fun l h => by cases h; exact c11
        bp := fun l h => by cases h; exact h11 }

theorem cl_setGo (x : Net T) (t : Bool) (k : Nat) (c : Option Nat) (hc : Opt g.layer c) : Cl b g (NetM.setTrainable.go t x k c : Run T Unit) fun _ _ => True := by
  induction k generalizing c g with
  | zero => unfold NetM.setTrainable.go; exact Cl.abort
  | succ k ih =>
    cases c with
    | none => unfold NetM.setTrainable.go; exact Cl.pure _ trivial
    | some cur =>
      have h := hc cur rfl
      unfold NetM.setTrainable.go
      exact Cl.ite (fun _ => Cl.pure _ trivial) fun _ => Cl.bind (cl_setTrainable h t) fun _ _ _ _ => Cl.bind (Cl.layer (l := cur) (by sd)) fun _ y _ hy => ih _ hy.pre

theorem cl_setTrainableNet {m : Nat} (hm : g.net m) (t : Bool) : Cl b g (NetM.setTrainable m t : Run T Unit) fun _ _ => True := by
  unfold NetM.setTrainable
  exact Cl.bind (Cl.net hm) fun _ _ _ hx => Cl.bind Cl.fuel fun _ _ l _ => cl_setGo _ _ _ _ (hx.last.mono l.layer)

theorem cl_netResetSave {m : Nat} (hm : g.net m) : Cl b g (NetM.resetSave m : Run T Unit) fun _ _ => True := by
  unfold NetM.resetSave
  exact Cl.bind (Cl.net hm) fun _ _ _ hx => Cl.bind (Cl.derefLayer hx.last) fun _ _ _ _ => Cl.bind Cl.fuel fun _ _ _ _ => cl_resetSave _ (by sd)

theorem cl_netResetLoad {m : Nat} (hm : g.net m) : Cl b g (NetM.resetLoad m : Run T Unit) fun _ _ => True := by
  unfold NetM.resetLoad
  exact Cl.bind (Cl.net hm) fun _ _ _ hx => Cl.bind (Cl.derefLayer hx.last) fun _ _ _ _ => Cl.bind Cl.fuel fun _ _ _ _ => cl_resetLoad _ (by sd)

/-- the part of `Predict` before the result is copied; it returns the output tensor of the model -/
def predictOut (m t : Nat) : Run T Nat := do
  let x ← Run.net m
  match x.ff with
  | none => NetM.compile m
  | some _ => pure ()
  let x ← Run.net m
  let i ← Run.deref x.input
  LayerM.loadFrom i t
  NetM.run x.ff
  Run.deref x.output

theorem cl_predictOut {m : Nat} (hm : g.net m) (t : Nat) : Cl false g (predictOut m t : Run T Nat) fun g' n => g'.node n := by
  unfold predictOut
  refine Cl.bind (Cl.net hm) fun g1 x l1 hx => ?_
  have tail : ∀ g2 : Sd, g2.net m → Cl false g2 (do
      let x ← Run.net m
      let i ← Run.deref x.input
      LayerM.loadFrom i t
      NetM.run x.ff
      Run.deref x.output : Run T Nat) fun g' n => g'.node n := fun g2 h2 =>
    Cl.bind (Cl.net h2) fun g3 y l3 hy => Cl.bind (Cl.derefNode hy.input) fun g4 i l4 h4 => Cl.bind (Cl.loadFrom t h4) fun g5 _ l5 _ =>
      Cl.bind (Cl.run ((hy.le l4).le l5).ff) fun g6 _ l6 _ => Cl.derefNode (((hy.le l4).le l5).le l6).output
  dsimp only
  split
  · exact Cl.bind (cl_compile (by sd)).forget fun g2 _ _ _ => tail g2 (by sd)
  · exact tail g1 (by sd)

/-! ### new layers -/

theorem cl_newInput (sh : List Nat) : Cl b g (LayerM.newInput sh : Run T Nat) fun g' l => g'.layer l := by
  unfold LayerM.newInput
  exact Cl.nil fun h0 => Cl.bind (Cl.zeros _) fun g1 i l1 h1 => Cl.bind (Cl.zeros _) fun g2 d l2 h2 =>
    Cl.newLayer { (blank_in (l2.cell _ (l1.cell _ h0)) trivial : LayerIn g2 (LayerM.blank (T := T) .input)) with input := opt_some (l2.node _ h1), dif := opt_some h2 }

theorem cl_newDense (o : Nat) (act : Activation T) : Cl b g (LayerM.newDense o act : Run T Nat) fun g' l => g'.layer l := by
  unfold LayerM.newDense
  exact Cl.nil fun h0 => Cl.bind (Cl.zeros _) fun g1 i l1 h1 =>
    Cl.newLayer { (blank_in (l1.cell _ h0) trivial : LayerIn g1 (LayerM.blank (T := T) .dense)) with output := opt_some h1 }

theorem cl_newInDense (i o : Nat) (act : Activation T) : Cl b g (LayerM.newInDense i o act : Run T Nat) fun g' l => g'.layer l := by
  unfold LayerM.newInDense
  exact Cl.nil fun h0 => Cl.bind (Cl.zeros _) fun g1 i l1 h1 => Cl.bind (Cl.zeros _) fun g2 d l2 h2 =>
    Cl.newLayer { (blank_in (l2.cell _ (l1.cell _ h0)) trivial : LayerIn g2 (LayerM.blank (T := T) .dense)) with input := opt_some (l2.node _ h1), output := opt_some h2 }

theorem cl_newBlank {k : LKind T} (hk : KindIn g k) : Cl b g (Run.newLayer (LayerM.blank k) : Run T Nat) fun g' l => g'.layer l :=
  Cl.nil fun h0 => Cl.newLayer (blank_in h0 hk)

theorem cl_newConv2D (nf kw kh sx sy : Nat) (act : Activation T) : Cl b g (LayerM.newConv2D nf kw kh sx sy act : Run T Nat) fun g' l => g'.layer l :=
  Cl.nil fun h0 => Cl.newLayer { (blank_in h0 trivial : LayerIn g (LayerM.blank (T := T) (.conv nf kw kh sx sy))) with }

theorem cl_newDeconv2D (nf kw kh sx sy : Nat) (act : Activation T) : Cl b g (LayerM.newDeconv2D nf kw kh sx sy act : Run T Nat) fun g' l => g'.layer l :=
  Cl.nil fun h0 => Cl.newLayer { (blank_in h0 trivial : LayerIn g (LayerM.blank (T := T) (.deconv nf kw kh sx sy))) with }

end Side
end Godeep
