import Verif.Lemmas.OwnLayer
import Verif.Lemmas.OwnFF
/-
  The methods of models keep the invariant.
-/
set_option linter.unusedSectionVars false

namespace Godeep
open Spec GoNum

variable {T : Type} [GoNum T] {α β : Type}

namespace Own
variable {A : Nat → Prop} {B : Chg} {g g' : G T}

/-- the model object that was read satisfies what model objects must -/
theorem At.netm (m : Nat) : At A B g (Run.net m) fun g' x => NOk g' x := fun hi => ⟨g, rfl, hi, Le.refl hi, NOk.refl hi m⟩

theorem own_connect (hB : B.2.1) (l : Nat) {p : Nat} (hp : p < g.w.layerNext) : At A B g (LayerM.connect l p : Run T Unit) fun _ _ => True :=
  (At.modify (fun hi => { LOk.refl hi l with neat := ⟨(hi.neat l).solid, (hi.neat l).apart⟩, pre := fun q hq => by cases hq; exact hp }) fun _ => .inl ⟨hB, .inr (by exact fun h => h)⟩).mono fun _ _ _ _ => trivial

theorem own_pushLayer (hB : B.2.1) (m : Nat) {l : Nat} (hl : l < g.w.layerNext) : At A B g (NetM.pushLayer m l : Run T Unit) fun _ _ => True := by
  unfold NetM.pushLayer
  refine At.bind (At.netm m) fun g1 x l1 hx => ?_
  have h1 : l < g1.w.layerNext := lt_of_lt_of_le hl l1.layer
  split
  · exact At.modifyNet (fun hi => { NOk.refl hi m with first := fun q hq => by cases hq; exact h1, last := fun q hq => by cases hq; exact h1 }) (fun _ => .inl hB) fun _ => .inl hB
  · refine At.bind (At.opt _) fun g2 p l2 hp => At.bind (own_connect hB l (lt_of_lt_of_le (hx.last p hp) l2.layer)) fun g3 _ l3 _ => ?_
    have h3 : l < g3.w.layerNext := lt_of_lt_of_le (lt_of_lt_of_le h1 l2.layer) l3.layer
    exact At.modifyNet (fun hi => { NOk.refl hi m with last := fun q hq => by cases hq; exact h3 }) fun _ => .inl hB

theorem nok_blank (hi : Inv g) : NOk g (NetM.blankNet : Net T) := by
  refine ⟨?_, ?_, ?_, ⟨hi.next, hi.zero⟩, ⟨hi.next, hi.zero⟩, ?_, ?_, ?_, ?_, ?_, ?_, ?_⟩ <;> intro _ h <;> cases h

theorem own_newModel (hB : B.2.1) : At A B g (NetM.newModel : Run T Nat) fun g' m => m < g'.w.netNext := At.newNet hB nok_blank

theorem own_fromInOut (hB : B.2.1) {i o : Nat} (h1 : i < g.w.layerNext) (h2 : o < g.w.layerNext) : At A B g (NetM.fromInOut i o : Run T Nat) fun g' m => m < g'.w.netNext :=
  At.newNet hB fun hi => { nok_blank hi with first := fun q hq => by cases hq; exact h1, last := fun q hq => by cases hq; exact h2 }

theorem own_compile (m : Nat) : At A B g (NetM.compile m : Run T Unit) fun _ _ => True := by
  unfold NetM.compile
  refine At.bind (At.netm m) fun g1 x l1 hx => At.bind (At.opt _) fun g2 last l2 h2 => At.bind (At.addRef _ _) fun g3 _ l3 _ => At.bind At.fuel fun g4 n l4 _ =>
    At.bind (own_build _ _) fun g5 _ l5 _ => At.bind At.newCtx fun g6 _ l6 _ => ?_
  have hl : last < g6.w.layerNext := lt_of_lt_of_le (hx.last last h2) (le_trans l2.layer (le_trans l3.layer (le_trans l4.layer (le_trans l5.layer l6.layer))))
  refine At.bind (own_feedForward _ hl) fun g7 _ l7 _ => At.bind At.ops fun g8 ff l8 h8 => At.bind At.newCtx fun g9 _ l9 _ => At.bind (own_reset _ _) fun g10 _ l10 _ =>
    At.bind At.ops fun g11 rs l11 h11 => ?_
  have h8' := (((h8.le l9).le l10).le l11)
  refine At.bind (At.modifyNet fun hi => { NOk.refl hi m with ff := fun q hq => by cases hq; exact h8', reset := fun q hq => by cases hq; exact h11 }) fun g12 _ l12 _ => ?_
  refine At.bind (At.opt _) fun g13 first l13 h13 => At.bind (At.getInputs _ _) fun g14 i l14 h14 => At.bind (At.modifyNet fun hi => { NOk.refl hi m with input := h14 }) fun g15 _ l15 _ =>
    At.bind (At.getOutputs _ _) fun g16 o l16 h16 => At.bind (At.modifyNet fun hi => { NOk.refl hi m with output := h16 }) fun g17 _ l17 _ =>
    At.bind (At.opt _) fun g18 on l18 h18 => At.bind (At.copyTensor _) fun g19 t l19 h19 => At.modifyNet fun hi => { NOk.refl hi m with target := fun q hq => by cases hq; exact h19 }

theorem own_calDif {d : Nat} (h : g.clean d) (t o : Nat) : At A B g (NetM.calDif d t o : Run T Unit) fun _ _ => True := by
  unfold NetM.calDif
  refine At.bind (At.mat _) fun g1 om l1 _ => At.bind (At.mat _) fun g2 tm l2 _ => At.bind (At.mat _) fun g3 dm l3 h3 => ?_
  have hc : ∀ q ∈ dm.ops, Safe g3 q := by
    rw [h3.2]
    exact h3.1.sound d (l3.clean _ (l2.clean _ (l1.clean _ h)))
  refine At.each fun i g4 l4 => At.bind (At.lift _ fun q hq _ => (?_ : Safe g4 q)) fun g5 q l5 h5 => ?_
  · exact (hc q (index_mem hq)).le l4
  · exact At.bind (At.lift _ fun _ _ _ => trivial) fun g6 _ l6 (_ : True) => At.bind (At.lift _ fun _ _ _ => trivial) fun g7 _ l7 (_ : True) => At.push ((h5.le l6).le l7)

theorem own_compileBP (m : Nat) : At A B g (NetM.compileBP m : Run T Unit) fun _ _ => True := by
  unfold NetM.compileBP
  refine At.bind At.newCtx fun g1 _ l1 _ => At.bind (At.netm m) fun g2 x l2 hx => At.bind (At.opt _) fun g3 last l3 _ => At.bind At.fuel fun g4 n l4 _ =>
    At.bind (At.getDif _ _) fun g5 d l5 h5 => At.bind (At.opt _) fun g6 dif l6 h6 => ?_
  have c6 := l6.clean _ (h5 dif h6)
  refine At.bind (At.setBuild _ _) fun g7 _ l7 _ => At.bind (At.buildMat _) fun g8 _ l8 _ => At.bind (At.opt _) fun g9 out l9 _ => At.bind (At.mat _) fun g10 om l10 _ =>
    At.bind (At.zeros _) fun g11 tg l11 h11 => At.bind (At.modifyNet fun hi => { NOk.refl hi m with target := fun q hq => by cases hq; exact h11 }) fun g12 _ l12 _ => ?_
  have c12 := l12.clean _ (l11.clean _ (l10.clean _ (l9.clean _ (l8.clean _ (l7.clean _ c6)))))
  refine At.bind (own_calDif c12 _ _) fun g13 _ l13 _ => At.bind (At.matNode (l13.clean _ c12)) fun g14 dm l14 h14 => At.bind (At.lazy (by intro t ht; cases ht)) fun g15 a l15 _ =>
    At.bind (At.lazy (by intro t ht; cases ht)) fun g16 s l16 _ => At.bind (At.ignoreErr (At.buildGraph _)) fun g17 _ l17 _ => At.bind (At.operandAt _ _) fun g18 loss l18 _ =>
    At.bind (At.modifyNet fun hi => { NOk.refl hi m with }) fun g19 _ l19 _ => At.bind At.ops fun g20 cd l20 h20 =>
    At.bind (At.modifyNet fun hi => { NOk.refl hi m with calDif := fun q hq => by cases hq; exact h20 }) fun g21 _ l21 _ =>
    At.bind At.newCtx fun g22 _ l22 _ => At.bind (At.scalar _) fun g23 al l23 h23 => At.bind (At.scalar _) fun g24 mo l24 h24 =>
    At.bind (At.modifyNet fun hi => { NOk.refl hi m with alpha := h23.le l24, momentum := h24 }) fun g25 _ l25 _ =>
    At.bind (At.setBuild _ _) fun g26 _ l26 _ => At.bind (own_backProp _ _ _ _) fun g27 _ l27 _ => At.bind At.ops fun g28 bp l28 h28 => At.bind At.newCtx fun g29 _ l29 _ =>
    At.bind (own_resetFit _ _) fun g30 _ l30 _ => At.bind At.ops fun g31 rf l31 h31 => ?_
  have h28' := ((h28.le l29).le l30).le l31
  exact At.modifyNet fun hi => { NOk.refl hi m with bp := fun q hq => by cases hq; exact h28', resetFit := fun q hq => by cases hq; exact h31 }

theorem own_loadClean {i : Nat} (t : Nat) (h : g.clean i) : At A B g (LayerM.loadFrom i t : Run T Unit) fun _ _ => True :=
  At.loadFrom fun hi q hq => safe_write (hi.sound i h q hq)

theorem own_resetIS (m : Nat) : At A B g (NetM.resetIS m : Run T Unit) fun _ _ => True := by
  unfold NetM.resetIS
  refine At.bind (At.netm m) fun g1 x l1 hx => ?_
  have tail : ∀ g2 : G T, At A B g2 (do let x ← Run.net m; NetM.run x.reset : Run T Unit) fun _ _ => True := fun g2 =>
    At.bind (At.netm m) fun g3 y l3 hy => At.run hy.reset
  split
  · exact At.bind (own_compile m) fun g2 _ _ _ => tail g2
  · exact tail g1

theorem own_predict (m t : Nat) : At A B g (NetM.predict m t : Run T Nat) fun g' n => g'.clean n := by
  unfold NetM.predict
  refine At.bind (At.netm m) fun g1 x l1 hx => ?_
  have tail : ∀ g2 : G T, At A B g2 (do
      let x ← Run.net m
      let i ← Run.deref x.input
      LayerM.loadFrom i t
      NetM.run x.ff
      let o ← Run.deref x.output
      NetM.copyTensor o : Run T Nat) fun g' n => g'.clean n := fun g2 =>
    At.bind (At.netm m) fun g3 y l3 hy => At.bind (At.opt _) fun g4 i l4 h4 => At.bind (own_loadClean t (l4.clean _ (hy.input i h4))) fun g5 _ l5 _ =>
      At.bind (At.run ((hy.le l4).le l5).ff) fun g6 _ l6 _ => At.bind (At.opt _) fun g7 o l7 _ => At.copyTensor _
  split
  · exact At.bind (own_compile m) fun g2 _ _ _ => tail g2
  · exact tail g1

/-- the trainable layers of a model are in `A` -/
def TrN (A : Nat → Prop) (g : G T) (m : Nat) : Prop := ∀ l, (g.w.nets m).last = some l → Tr A g l

theorem TrN.le {m : Nat} (h : TrN A g m) (hB : ¬ B.2.1) (hl : Le A B g g') : TrN A g' m := fun l hm =>
  (h l (by rw [← (hl.same hB).2 m]; exact hm)).le hB hl

theorem own_execFit (m x y : Nat) (hB : ¬ B.2.1) (hA : TrN A g m) : At A B g (NetM.execFit m x y : Run T Unit) fun _ _ => True := by
  unfold NetM.execFit
  refine At.bind (At.net m) fun g1 p l1 hn => ?_
  have hp : NOk g1 p := by rw [hn.2]; exact NOk.refl hn.1 m
  refine At.bind (At.run hp.resetFit) fun g2 _ l2 _ => At.bind (At.opt _) fun g3 i l3 h3 => ?_
  have hp3 := (hp.le l2).le l3
  refine At.bind (own_loadClean x (hp3.input i h3)) fun g4 _ l4 _ => At.bind (At.opt _) fun g5 t l5 h5 => ?_
  have hp5 := (hp3.le l4).le l5
  refine At.bind (own_loadClean y (hp5.target t h5)) fun g6 _ l6 _ => ?_
  have hp6 := hp5.le l6
  refine At.bind (At.run hp6.ff) fun g7 _ l7 _ => At.bind (At.run (hp6.le l7).calDif) fun g8 _ l8 _ => At.bind (At.run ((hp6.le l7).le l8).bp) fun g9 _ l9 _ =>
    At.bind (At.opt _) fun g10 last l10 hlast => At.bind At.fuel fun g11 n l11 _ => own_fit n last hB ?_
  have h1 : Tr A g1 last := (hA.le hB l1) last (by rw [← hn.2]; exact hlast)
  exact (((((((((h1.le hB l2).le hB l3).le hB l4).le hB l5).le hB l6).le hB l7).le hB l8).le hB l9).le hB l10).le hB l11

theorem own_trainOne (m u y : Nat) (a mo : T) (hB : ¬ B.2.1) (hA : TrN A g m) : At A B g (NetM.trainOne m u y a mo) fun _ _ => True := by
  unfold NetM.trainOne
  refine At.bind (At.netm m) fun g1 x l1 hx => ?_
  have tail : ∀ g2 : G T, TrN A g2 m → At A B g2 (do
      let p ← Run.net m
      Run.setValue p.alpha a
      Run.setValue p.momentum mo
      NetM.execFit m u y
      let p ← Run.net m
      Run.value p.loss : Run T T) fun _ _ => True := fun g2 hA =>
    At.bind (At.netm m) fun g3 p l3 hp => At.bind (At.setValue hp.alpha _) fun g4 _ l4 _ => At.bind (At.setValue (hp.le l4).momentum _) fun g5 _ l5 _ =>
      At.bind (own_execFit _ _ _ hB (((hA.le hB l3).le hB l4).le hB l5)) fun g6 _ l6 _ => At.bind (At.netm m) fun _ _ _ _ => At.value _
  split
  · exact At.bind (own_compileBP m) fun g2 _ l2 _ => tail g2 ((hA.le hB l1).le hB l2)
  · exact tail g1 (hA.le hB l1)

theorem own_each {ι : Type} {l : List ι} {f : ι → Run T Unit} {m : Nat} (hB : ¬ B.2.1) (hA : TrN A g m) (h : ∀ i (g' : G T), TrN A g' m → At A B g' (f i) fun _ _ => True) :
    At A B g (Run.each l f) fun _ _ => True := At.each fun i g' hl => h i g' (hA.le hB hl)

theorem own_trainLoop (m : Nat) (i t p : List Nat) (hB : ¬ B.2.1) (hA : TrN A g m) : At A B g (NetM.trainLoop m i t p : Run T Unit) fun _ _ => True := by
  unfold NetM.trainLoop
  exact own_each hB hA fun k g1 h1 => At.bind (At.lift _ fun _ _ _ => trivial) fun g2 _ l2 (_ : True) => At.bind (At.lift _ fun _ _ _ => trivial) fun g3 _ l3 (_ : True) =>
    own_execFit _ _ _ hB ((h1.le hB l2).le hB l3)

theorem own_train (m : Nat) (i t : List Nat) (e b : Nat) (a mo : T) (d : Nat → Nat) (hB : ¬ B.2.1) (hA : TrN A g m) : At A B g (NetM.train m i t e b a mo d) fun _ _ => True := by
  unfold NetM.train
  refine At.ite (fun _ => At.fail _) fun _ => At.bind (At.netm m) fun g1 x l1 hx => ?_
  have tail : ∀ g2 : G T, TrN A g2 m → At A B g2 (do
      let p ← Run.net m
      Run.setValue p.alpha a
      Run.setValue p.momentum mo
      let batch := if b = 0 then i.length else b
      if i.length = 0 ∧ e * batch ≠ 0 then Run.abort
      else
        NetM.trainLoop m i t ((List.range (e * batch)).map fun k => d k % i.length)
        let _ ← Run.value p.loss
        return () : Run T Unit) fun _ _ => True := fun g2 hA => by
    refine At.bind (At.netm m) fun g3 p l3 hp => At.bind (At.setValue hp.alpha _) fun g4 _ l4 _ => At.bind (At.setValue (hp.le l4).momentum _) fun g5 _ l5 _ => ?_
    refine At.ite (fun _ => At.abort) fun _ => ?_
    exact At.bind (own_trainLoop _ _ _ _ hB (((hA.le hB l3).le hB l4).le hB l5)) fun g6 _ l6 _ => At.bind (At.value _) fun _ _ _ _ => At.pure _ fun _ => trivial
  dsimp only at tail ⊢
  cases x.bp
  · exact At.bind (own_compileBP m) fun g2 _ l2 _ => tail g2 ((hA.le hB l1).le hB l2)
  · exact tail g1 (hA.le hB l1)

theorem own_need (m : Nat) (f : Net T → Option (List (Op T))) (hf : ∀ (g : G T) x, NOk g x → ∀ l, f x = some l → SafeOps g l) :
    At A B g (do
      let x ← Run.net m
      match f x with
      | some g => return g
      | none => Run.fail (.other "not compiled") : Run T (List (Op T))) fun g' l => SafeOps g' l := by
  refine At.bind (At.netm m) fun g1 x l1 hx => ?_
  split
  · next l hl => exact At.pure _ fun _ => hf g1 x hx l hl
  · exact At.fail _

theorem At.collectSafe {ι : Type} {l : List ι} {f : ι → Run T (List (Op T))} (h : ∀ i (g' : G T), At A B g' (f i) fun g'' x => SafeOps g'' x) :
    At A B g (Run.collect l f) fun g' x => SafeOps g' x.flatten := by
  induction l generalizing g with
  | nil => exact At.pure [] fun _ o ho => absurd ho List.not_mem_nil
  | cons i l ih =>
    exact At.bind (h i g) fun g1 x l1 h1 => At.bind (Q := fun g' x => SafeOps g' x.flatten) ih fun g2 y l2 h2 => At.pure (x :: y) fun _ o ho q hq => by
      rcases List.mem_append.1 ho with ho | ho
      · exact (h1.le l2) o ho q hq
      · exact h2 o ho q hq

theorem own_fromModels (hB : B.2.1) (ms : List Nat) : At A B g (NetM.fromModels ms : Run T Nat) fun g' m => m < g'.w.netNext := by
  unfold NetM.fromModels
  split
  · exact At.fail _
  · next m0 tl =>
    dsimp only
    refine At.bind (Q := fun _ _ => True) (At.each fun i g1 l1 => ?_) fun g2 _ l2 _ => At.bind (Q := fun _ _ => True) (At.each fun i g1 l1 => ?_) fun g3 _ l3 _ =>
      At.bind (Q := fun _ _ => True) (At.each fun i g1 l1 => ?_) fun g4 _ l4 _ => ?_
    · refine At.bind (At.lift _ fun _ _ _ => trivial) fun g2 a l2 (_ : True) => At.bind (At.lift _ fun _ _ _ => trivial) fun g3 b l3 (_ : True) =>
        At.bind (At.netm a) fun g4 xa l4 ha => At.bind (At.netm b) fun g5 xb l5 hb => At.bind (At.opt _) fun g6 fb l6 _ => At.bind (At.lay fb) fun g7 y l7 _ =>
        At.ite (fun _ => At.pure _ fun _ => trivial) fun _ => ?_
      have hl := (((ha.le l5).le l6).le l7).last
      exact (At.modify (fun hi => { LOk.refl hi fb with neat := ⟨(hi.neat fb).solid, (hi.neat fb).apart⟩, pre := hl }) fun _ => .inl ⟨hB, .inr (by exact fun h => h)⟩).mono fun _ _ _ _ => trivial
    · refine At.bind (At.netm i) fun g2 x l2 hx => ?_
      split
      · exact At.ignoreErr (own_compile i)
      · own
    · refine At.bind (At.netm i) fun g2 x l2 hx => ?_
      split
      · exact At.ignoreErr (own_compileBP i)
      · own
    · refine At.bind (At.netm _) fun g5 x0 l5 h0 => At.bind (At.netm _) fun g6 xz l6 hz => ?_
      refine At.bind (At.collectSafe fun i g' => own_need i _ fun _ x hx => hx.ff) fun g7 ff l7 h7 => ?_
      refine At.bind (At.collectSafe fun i g' => own_need i _ fun _ x hx => hx.reset) fun g8 rs l8 h8 => ?_
      refine At.bind (At.collectSafe fun i g' => own_need i _ fun _ x hx => hx.resetFit) fun g9 rf l9 h9 => ?_
      refine At.bind (At.opt _) fun g10 cd l10 h10 => ?_
      refine At.bind (At.collectSafe fun i g' => own_need i _ fun _ x hx => hx.bp) fun g11 bp l11 h11 => ?_
      have z11 := ((((hz.le l7).le l8).le l9).le l10).le l11
      have o11 := (((((h0.le l6).le l7).le l8).le l9).le l10).le l11
      have f11 := (((h7.le l8).le l9).le l10).le l11
      have s11 := ((h8.le l9).le l10).le l11
      have r11 := (h9.le l10).le l11
      exact At.newNet hB fun hi => { o11 with
        last := z11.last
        output := z11.output
        target := z11.target
        alpha := z11.alpha
        momentum := z11.momentum
        ff := fun l h => by cases h; exact f11
        reset := fun l h => by cases h; exact s11
        resetFit := fun l h => by cases h; exact r11
        calDif := fun l h => z11.calDif l (h10.trans h)
        bp := fun l h => by cases h; exact h11 }

/-! ### which layers are trainable -/

theorem own_setOne (hB : B.2.1) (l : Nat) (t : Bool) (ht : t = true → B.2.2) : At A B g (LayerM.setTrainable l t : Run T Unit) fun _ _ => True :=
  At.modSame (fun _ => ⟨rfl, rfl, rfl, rfl, rfl, rfl, rfl, rfl, rfl⟩) fun _ => .inl ⟨hB, (by cases t; exact .inr fun _ => rfl; exact .inl (ht rfl))⟩

theorem own_setGo (hB : B.2.1) (x : Net T) (t : Bool) (ht : t = true → B.2.2) (k : Nat) (c : Option Nat) : At A B g (NetM.setTrainable.go t x k c : Run T Unit) fun _ _ => True := by
  induction k generalizing c g with
  | zero => unfold NetM.setTrainable.go; exact At.abort
  | succ k ih =>
    unfold NetM.setTrainable.go
    split
    · cases ‹_›
    · exact At.pure _ fun _ => trivial
    · refine At.ite (fun _ => At.pure _ fun _ => trivial) fun _ => At.bind (own_setOne hB _ _ ht) fun _ _ _ _ => At.bind (At.lay _) fun _ _ _ _ => ?_
      rename_i hk _ _ _ _ _ _ _ _ _
      cases hk
      exact ih _

theorem own_setTrainable (hB : B.2.1) (m : Nat) (t : Bool) (ht : t = true → B.2.2) : At A B g (NetM.setTrainable m t : Run T Unit) fun _ _ => True := by
  unfold NetM.setTrainable
  exact At.bind (At.netm m) fun _ _ _ _ => At.bind At.fuel fun _ _ _ _ => own_setGo hB _ _ ht _ _

theorem own_resetSave (f l : Nat) : At A B g (LayerM.resetSave f l : Run T Unit) fun _ _ => True := by
  induction f generalizing l g with
  | zero => exact At.abort
  | succ f ih =>
    unfold LayerM.resetSave
    refine At.bind (At.modSame fun _ => ⟨rfl, rfl, rfl, rfl, rfl, rfl, rfl, rfl, rfl⟩) fun _ _ _ _ => At.bind (At.lay l) fun _ _ _ _ => ?_
    split
    · exact ih _
    · own

theorem own_resetLoad (f l : Nat) : At A B g (LayerM.resetLoad f l : Run T Unit) fun _ _ => True := by
  induction f generalizing l g with
  | zero => exact At.abort
  | succ f ih =>
    unfold LayerM.resetLoad
    refine At.bind (At.modSame fun _ => ⟨rfl, rfl, rfl, rfl, rfl, rfl, rfl, rfl, rfl⟩) fun _ _ _ _ => At.bind (At.lay l) fun _ _ _ _ => ?_
    split
    · exact ih _
    · own

theorem own_netResetSave (m : Nat) : At A B g (NetM.resetSave m : Run T Unit) fun _ _ => True := by
  unfold NetM.resetSave
  exact At.bind (At.netm m) fun _ _ _ _ => At.bind (At.opt _) fun _ _ _ _ => At.bind At.fuel fun _ _ _ _ => own_resetSave _ _

theorem own_netResetLoad (m : Nat) : At A B g (NetM.resetLoad m : Run T Unit) fun _ _ => True := by
  unfold NetM.resetLoad
  exact At.bind (At.netm m) fun _ _ _ _ => At.bind (At.opt _) fun _ _ _ _ => At.bind At.fuel fun _ _ _ _ => own_resetLoad _ _

end Own
end Godeep
