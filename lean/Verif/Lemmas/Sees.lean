import Verif.Spec.Nested
/-
  A method of a model depends on, and changes, no other model object.
-/
set_option linter.unusedSectionVars false

namespace Godeep
open Spec GoNum

variable {T : Type} [GoNum T] {α β : Type} {m : Nat}

theorem sees_refl (w : World T) : Same m w w := ⟨rfl, rfl, rfl, rfl, rfl, rfl, rfl⟩

/-- the same outcome, in states that agree on everything but models other than `m` -/
def SameOut (m : Nat) : Out (World T) α → Out (World T) α → Prop
  | .ok a w, .ok a' w' => a' = a ∧ Same m w w'
  | .err e w, .err e' w' => e' = e ∧ Same m w w'
  | .panic, .panic => True
  | _, _ => False

/-- the program does not see models other than `m` -/
def Sees (m : Nat) (c : Run T α) : Prop := ∀ w w', Same m w w' → SameOut m (c w) (c w')

/-- states that agree on everything but models -/
theorem Same.with {w w' : World T} (h : Same m w w') : w' = { w with nets := w'.nets, netNext := w'.netNext } := by
  obtain ⟨h1, h2, h3, h4, h5, h6, _⟩ := h
  cases w; cases w'
  simp only at h1 h2 h3 h4 h5 h6
  subst h1; subst h2; subst h3; subst h4; subst h5; subst h6
  rfl

namespace Sees

theorem pure (a : α) : Sees m (Pure.pure a : Run T α) := fun _ _ h => ⟨rfl, h⟩

theorem bind {a : Run T α} {f : α → Run T β} (h : Sees m a) (hf : ∀ x, Sees m (f x)) : Sees m (a >>= f) := by
  intro w w' hw
  have H := h w w' hw
  show SameOut m ((a w).bind f) ((a w').bind f)
  cases e : a w with
  | ok x v =>
    cases e' : a w' with
    | ok x' v' => rw [e, e'] at H; obtain ⟨rfl, H⟩ := H; exact hf _ _ _ H
    | err _ _ => rw [e, e'] at H; exact H.elim
    | panic => rw [e, e'] at H; exact H.elim
  | err x v =>
    cases e' : a w' with
    | err x' v' => rw [e, e'] at H; exact H
    | ok _ _ => rw [e, e'] at H; exact H.elim
    | panic => rw [e, e'] at H; exact H.elim
  | panic =>
    cases e' : a w' with
    | panic => trivial
    | ok _ _ => rw [e, e'] at H; exact H.elim
    | err _ _ => rw [e, e'] at H; exact H.elim

theorem bind' {a : Run T α} {f : α → Run T β} (h : Sees m a) (hf : ∀ x, Sees m (f x)) : Sees m (Run.bind a f) := h.bind hf

theorem each {ι : Type} {l : List ι} {f : ι → Run T Unit} (h : ∀ i, Sees m (f i)) : Sees m (Run.each l f) := by
  induction l with
  | nil => exact pure ()
  | cons i l ih => exact bind (h i) fun _ => ih

theorem collect {ι : Type} {l : List ι} {f : ι → Run T α} (h : ∀ i, Sees m (f i)) : Sees m (Run.collect l f) := by
  induction l with
  | nil => exact pure []
  | cons i l ih => exact bind (h i) fun a => bind ih fun as => pure (a :: as)

theorem foldlM {ι : Type} {l : List ι} {f : β → ι → Run T β} (h : ∀ b i, Sees m (f b i)) (b : β) : Sees m (l.foldlM f b) := by
  induction l generalizing b with
  | nil => exact pure b
  | cons i l ih => exact bind (h b i) fun b' => ih b'

theorem ite {c : Prop} [Decidable c] {a b : Run T α} (ha : Sees m a) (hb : Sees m b) : Sees m (if c then a else b) := by
  split
  · exact ha
  · exact hb

theorem layer (l : Nat) : Sees m (Run.layer l : Run T (Layer T)) := fun _ _ h => ⟨by rw [h.layers], h⟩
theorem net : Sees m (Run.net m : Run T (Net T)) := fun _ _ h => ⟨h.net, h⟩
theorem mat (l : Nat) : Sees m (Run.mat l : Run T Mat) := fun _ _ h => ⟨by rw [h.store], h⟩
theorem fuel : Sees m (Run.fuel : Run T Nat) := fun _ _ h => ⟨by rw [h.layerNext], h⟩
theorem ops : Sees m (Run.ops : Run T (List (Op T))) := fun _ _ h => ⟨by rw [h.store], h⟩
theorem abort : Sees m (Run.abort : Run T α) := fun _ _ _ => trivial
theorem fail (e : Err) : Sees m (Run.fail e : Run T α) := fun _ _ h => ⟨rfl, h⟩

theorem lift (r : Res α) : Sees m (Run.lift r : Run T α) := fun _ _ h => by
  cases r with
  | ok _ => exact ⟨rfl, h⟩
  | err _ => exact ⟨rfl, h⟩
  | panic => trivial

theorem heap (f : Heap T → Out (Heap T) α) : Sees m (Run.heap f) := fun w w' h => by
  obtain ⟨h1, h2, h3, h4, h5, h6, h7⟩ := h
  unfold Run.heap
  rw [h1]
  cases f w.store.heap with
  | ok a k => exact ⟨rfl, rfl, h2, h3, h4, h5, h6, h7⟩
  | err a k => exact ⟨rfl, rfl, h2, h3, h4, h5, h6, h7⟩
  | panic => trivial

theorem store (f : Store T → Out (Store T) α) : Sees m (Run.store f) := fun w w' h => by
  obtain ⟨h1, h2, h3, h4, h5, h6, h7⟩ := h
  unfold Run.store
  rw [h1]
  cases f w.store with
  | ok a k => exact ⟨rfl, rfl, h2, h3, h4, h5, h6, h7⟩
  | err a k => exact ⟨rfl, rfl, h2, h3, h4, h5, h6, h7⟩
  | panic => trivial

theorem value (p : Ptr) : Sees m (Run.value p : Run T T) := fun w w' h => by
  unfold Run.value
  rw [h.store]
  cases w.store.heap.load p with
  | ok _ => exact ⟨rfl, h⟩
  | err _ => exact ⟨rfl, h⟩
  | panic => trivial

theorem deref (o : Option α) : Sees m (Run.deref o : Run T α) := by
  cases o with
  | none => exact abort
  | some a => exact pure a

theorem modify (l : Nat) (f : Layer T → Layer T) : Sees m (Run.modify l f) := fun w w' h => by
  obtain ⟨h1, h2, h3, h4, h5, h6, h7⟩ := h
  exact ⟨rfl, h1, h2, by simp only [h3], h4, h5, h6, h7⟩

theorem modifyNet (f : Net T → Net T) : Sees m (Run.modifyNet m f) := fun w w' h => by
  obtain ⟨h1, h2, h3, h4, h5, h6, h7⟩ := h
  exact ⟨rfl, h1, h2, h3, h4, h5, h6, by simp only [if_true, h7]⟩

theorem newLayer (x : Layer T) : Sees m (Run.newLayer x) := fun w w' h => by
  obtain ⟨h1, h2, h3, h4, h5, h6, h7⟩ := h
  exact ⟨h4, h1, h2, by simp only [h3, h4], by simp only [h4], h5, h6, h7⟩

theorem newNode (x : Node T) : Sees m (Run.newNode x) := fun w w' h => by
  obtain ⟨h1, h2, h3, h4, h5, h6, h7⟩ := h
  exact ⟨h2, by simp only [h1, h2], by simp only [h2], h3, h4, h5, h6, h7⟩

theorem push (o : Op T) : Sees m (Run.push o) := fun w w' h => by
  obtain ⟨h1, h2, h3, h4, h5, h6, h7⟩ := h
  exact ⟨rfl, by simp only [h1], h2, h3, h4, h5, h6, h7⟩

theorem newCtx : Sees m (Run.newCtx : Run T Unit) := fun w w' h => by
  obtain ⟨h1, h2, h3, h4, h5, h6, h7⟩ := h
  exact ⟨rfl, by simp only [h1], h2, h3, h4, h5, h6, h7⟩

theorem setValue (p : Ptr) (v : T) : Sees m (Run.setValue p v) := heap _
theorem scalar (v : T) : Sees m (Run.scalar v) := heap _
theorem leaf (f : Heap T → Out (Heap T) Mat) : Sees m (Run.leaf f) := bind (heap f) fun _ => newNode _
theorem zeros (s : List Nat) : Sees m (Run.zeros s : Run T Nat) := leaf _

theorem normRand (s : List Nat) : Sees m (Run.normRand s : Run T Nat) := fun w w' h => by
  obtain ⟨h1, h2, h3, h4, h5, h6, h7⟩ := h
  unfold Run.normRand
  rw [h5, h6]
  exact leaf _ _ _ ⟨h1, h2, h3, h4, by first | exact h5 | rfl, by first | rfl | exact congrArg (· + 1) h6, h7⟩

theorem lazy (k : Kind T) : Sees m (Run.lazy k) := newNode _
theorem reshape (t : Nat) (s : List Nat) : Sees m (Run.reshape t s : Run T Nat) := newNode _
theorem flatten (t : Nat) : Sees m (Run.flatten t : Run T Nat) := bind (mat t) fun _ => newNode _
theorem buildGraph (n : Nat) : Sees m (Run.buildGraph n : Run T Unit) := store _
theorem transfer (f t : Nat) : Sees m (Run.transfer f t : Run T Unit) := bind (lazy _) fun n => buildGraph n
theorem fill (t : Nat) (v : Ptr) : Sees m (Run.fill t v : Run T Unit) := bind (lazy _) fun n => buildGraph n
theorem operand (n : Nat) (idx : List Nat) : Sees m (Run.operand n idx : Run T Ptr) := bind (mat n) fun _ => lift _
theorem operandAt (n i : Nat) : Sees m (Run.operandAt n i : Run T Ptr) := bind (mat n) fun _ => lift _
theorem emit (r : Rhs T) : Sees m (Run.emit r) := bind (scalar _) fun o => bind (push _) fun _ => pure o

theorem ignoreErr {a : Run T Unit} (h : Sees m a) : Sees m (LayerM.ignoreErr a) := fun w w' hw => by
  have H := h w w' hw
  unfold LayerM.ignoreErr
  cases e : a w <;> cases e' : a w' <;> rw [e, e'] at H <;> first | exact H.elim | exact ⟨rfl, H.2⟩ | trivial

theorem setBuild (n : Nat) (b : Bool) : Sees m (NetM.setBuild n b : Run T Unit) := fun w w' h => by
  obtain ⟨h1, h2, h3, h4, h5, h6, h7⟩ := h
  exact ⟨rfl, by simp only [h1], h2, h3, h4, h5, h6, h7⟩

theorem buildMat (n : Nat) : Sees m (NetM.buildMat n : Run T Unit) := fun w w' h => by
  obtain ⟨h1, h2, h3, h4, h5, h6, h7⟩ := h
  unfold NetM.buildMat
  rw [h1]
  dsimp only
  split
  · exact ⟨rfl, h1, h2, h3, h4, h5, h6, h7⟩
  · exact ⟨rfl, by simp only [h1], h2, h3, h4, h5, h6, h7⟩

theorem matNode (n : Nat) : Sees m (NetM.matNode n : Run T Nat) := fun w w' h => by
  unfold NetM.matNode
  rw [h.store]
  exact newNode _ _ _ h

end Sees

/-- one step of a proof that a program does not see other models -/
macro "see1" : tactic => `(tactic| first
  | with_reducible exact Sees.layer _
  | with_reducible exact Sees.net
  | with_reducible exact Sees.mat _
  | with_reducible exact Sees.fuel
  | with_reducible exact Sees.ops
  | with_reducible exact Sees.abort
  | with_reducible exact Sees.fail _
  | with_reducible exact Sees.lift _
  | with_reducible exact Sees.value _
  | with_reducible exact Sees.deref _
  | with_reducible exact Sees.modify _ _
  | with_reducible exact Sees.modifyNet _
  | with_reducible exact Sees.push _
  | with_reducible exact Sees.newCtx
  | with_reducible exact Sees.scalar _
  | with_reducible exact Sees.setValue _ _
  | with_reducible exact Sees.zeros _
  | with_reducible exact Sees.normRand _
  | with_reducible exact Sees.lazy _
  | with_reducible exact Sees.reshape _ _
  | with_reducible exact Sees.flatten _
  | with_reducible exact Sees.buildGraph _
  | with_reducible exact Sees.transfer _ _
  | with_reducible exact Sees.fill _ _
  | with_reducible exact Sees.operand _ _
  | with_reducible exact Sees.operandAt _ _
  | with_reducible exact Sees.emit _
  | with_reducible exact Sees.setBuild _ _
  | with_reducible exact Sees.buildMat _
  | with_reducible exact Sees.matNode _
  | with_reducible exact Sees.heap _
  | with_reducible exact Sees.leaf _
  | with_reducible exact Sees.pure _
  | with_reducible refine Sees.bind ?_ fun _ => ?_
  | with_reducible refine Sees.bind' ?_ fun _ => ?_
  | with_reducible refine Sees.each fun _ => ?_
  | with_reducible refine Sees.collect fun _ => ?_
  | with_reducible refine Sees.foldlM (fun _ _ => ?_) _
  | with_reducible refine Sees.ignoreErr ?_
  | with_reducible refine Sees.ite ?_ ?_
  | split)

macro "see" : tactic => `(tactic| repeat' see1)

theorem sees_delegated (field : Layer T → Option Nat) (f l : Nat) : Sees m (LayerM.delegated field f l) := by
  induction f generalizing l with
  | zero => exact Sees.abort
  | succ f ih => unfold LayerM.delegated; repeat' (first | exact ih _ | see1)

theorem sees_getOutputs (f l : Nat) : Sees m (LayerM.getOutputs f l : Run T _) := sees_delegated _ f l
theorem sees_getDif (f l : Nat) : Sees m (LayerM.getDif f l : Run T _) := sees_delegated _ f l
theorem sees_getInputs (f l : Nat) : Sees m (LayerM.getInputs f l : Run T _) := by
  unfold LayerM.getInputs; repeat' (first | with_reducible exact sees_getOutputs _ _ | see1)
theorem sees_getRef (l : Nat) : Sees m (LayerM.getRef l : Run T _) := by unfold LayerM.getRef; see
theorem sees_addRef (l : Nat) (v : T) : Sees m (LayerM.addRef l v) := by
  unfold LayerM.addRef; repeat' (first | with_reducible exact sees_getRef _ | see1)
theorem sees_preBuild {rec : Nat → Run T Nat} (h : ∀ p, Sees m (rec p)) (l : Nat) : Sees m (LayerM.preBuild rec l) := by
  unfold LayerM.preBuild; repeat' (first | with_reducible exact sees_getRef _ | with_reducible exact sees_addRef _ _ | exact h _ | see1)

theorem sees_build (f l : Nat) : Sees m (LayerM.build f l : Run T Nat) := by
  induction f generalizing l with
  | zero => exact Sees.abort
  | succ f ih =>
    unfold LayerM.build
    repeat' (first | with_reducible exact sees_getRef _ | with_reducible exact sees_addRef _ _ | with_reducible exact sees_preBuild ih _ | with_reducible exact ih _ | see1)

macro "see2" : tactic => `(tactic| repeat' (first
  | with_reducible exact sees_getRef _ | with_reducible exact sees_addRef _ _ | with_reducible exact sees_getOutputs _ _
  | with_reducible exact sees_getInputs _ _ | with_reducible exact sees_getDif _ _ | see1))

theorem sees_denseNeuron (x : Layer T) (w b neta out inp inputs i : Nat) : Sees m (LayerM.denseNeuron x w b neta out inp inputs i) := by
  unfold LayerM.denseNeuron; see2
theorem sees_zeroDif (l out : Nat) : Sees m (LayerM.zeroDif l out : Run T Unit) := by unfold LayerM.zeroDif; see2
theorem sees_denseFF (l : Nat) : Sees m (LayerM.denseFF l : Run T Unit) := by
  unfold LayerM.denseFF; repeat' (first | with_reducible exact sees_denseNeuron _ _ _ _ _ _ _ _ | with_reducible exact sees_zeroDif _ _ | see1)

macro "seeFF" : tactic => `(tactic| repeat' (first
  | with_reducible exact sees_getRef _ | with_reducible exact sees_addRef _ _ | with_reducible exact sees_getOutputs _ _
  | with_reducible exact sees_getInputs _ _ | with_reducible exact sees_getDif _ _ | with_reducible exact sees_zeroDif _ _ | see1))

theorem sees_flattenFF (f l p : Nat) : Sees m (LayerM.flattenFF f l p : Run T Unit) := by unfold LayerM.flattenFF; seeFF
theorem sees_softMaxFF (f l p : Nat) : Sees m (LayerM.softMaxFF f l p : Run T Unit) := by unfold LayerM.softMaxFF; seeFF
theorem sees_normFF (a b : T) (l : Nat) : Sees m (LayerM.normFF a b l : Run T Unit) := by unfold LayerM.normFF; seeFF
theorem sees_subFF (d a b f l p : Nat) : Sees m (LayerM.subFF d a b f l p : Run T Unit) := by unfold LayerM.subFF; seeFF
theorem sees_concatFF (a b d f l : Nat) : Sees m (LayerM.concatFF a b d f l : Run T Unit) := by unfold LayerM.concatFF; seeFF
theorem sees_convCell (w neta row kw kh sy inCh f x y : Nat) : Sees m (LayerM.convCell w neta row kw kh sy inCh f x y : Run T Unit) := by
  unfold LayerM.convCell; seeFF
theorem sees_convFF (nf kw kh sx sy l : Nat) : Sees m (LayerM.convFF nf kw kh sx sy l : Run T Unit) := by
  unfold LayerM.convFF
  repeat' (first | with_reducible exact sees_convCell _ _ _ _ _ _ _ _ _ _ | with_reducible exact sees_zeroDif _ _ | see1)
theorem sees_deconvFF (nf kw kh sx sy l : Nat) : Sees m (LayerM.deconvFF nf kw kh sx sy l : Run T Unit) := by unfold LayerM.deconvFF; seeFF
theorem sees_poolWindow (inp sx sy h w f x y : Nat) : Sees m (LayerM.poolWindow inp sx sy h w f x y : Run T (List Ptr)) := by
  unfold LayerM.poolWindow; seeFF
theorem sees_maxPoolFF (sx sy l : Nat) : Sees m (LayerM.maxPoolFF sx sy l : Run T Unit) := by
  unfold LayerM.maxPoolFF
  repeat' (first | with_reducible exact sees_poolWindow _ _ _ _ _ _ _ _ | with_reducible exact sees_zeroDif _ _ | see1)
theorem sees_upSamplingFF (sx sy l : Nat) : Sees m (LayerM.upSamplingFF sx sy l : Run T Unit) := by unfold LayerM.upSamplingFF; seeFF
theorem sees_inputFF (l : Nat) : Sees m (LayerM.inputFF l : Run T Unit) := by unfold LayerM.inputFF; seeFF

theorem sees_ffBody (f l : Nat) (k : LKind T) (p : Option Nat) : Sees m (LayerM.ffBody f l k p) := by
  unfold LayerM.ffBody
  repeat' (first
    | with_reducible exact sees_inputFF _ | with_reducible exact sees_denseFF _ | with_reducible exact sees_flattenFF _ _ _
    | with_reducible exact sees_softMaxFF _ _ _ | with_reducible exact sees_normFF _ _ _ | with_reducible exact sees_subFF _ _ _ _ _ _
    | with_reducible exact sees_concatFF _ _ _ _ _ | with_reducible exact sees_convFF _ _ _ _ _ _ | with_reducible exact sees_deconvFF _ _ _ _ _ _
    | with_reducible exact sees_maxPoolFF _ _ _ | with_reducible exact sees_upSamplingFF _ _ _ | see1)

theorem sees_feedForward (f l : Nat) : Sees m (LayerM.feedForward f l : Run T Unit) := by
  induction f generalizing l with
  | zero => exact Sees.abort
  | succ f ih =>
    unfold LayerM.feedForward
    repeat' (first | with_reducible exact ih _ | with_reducible exact sees_ffBody _ _ _ _ | with_reducible exact sees_getOutputs _ _ | see1)

theorem sees_scaledDif (x : Layer T) : Sees m (LayerM.scaledDif x) := by unfold LayerM.scaledDif; see2
theorem sees_baseDer (l : Nat) : Sees m (LayerM.baseDer l : Run T Nat) := by unfold LayerM.baseDer; see2
theorem sees_maxPoolDer {rec : Nat → Run T Nat} (h : ∀ p, Sees m (rec p)) (sx sy l : Nat) : Sees m (LayerM.maxPoolDer rec sx sy l) := by
  unfold LayerM.maxPoolDer; repeat' (first | exact h _ | see1)
theorem sees_upSamplingDer {rec : Nat → Run T Nat} (h : ∀ p, Sees m (rec p)) (sx sy l : Nat) : Sees m (LayerM.upSamplingDer rec sx sy l) := by
  unfold LayerM.upSamplingDer; repeat' (first | exact h _ | see1)

theorem sees_buildDer (f l : Nat) : Sees m (LayerM.buildDer f l : Run T Nat) := by
  induction f generalizing l with
  | zero => exact Sees.abort
  | succ f ih =>
    unfold LayerM.buildDer
    repeat' (first
      | with_reducible exact ih _ | with_reducible exact sees_maxPoolDer ih _ _ _ | with_reducible exact sees_upSamplingDer ih _ _ _
      | with_reducible exact sees_baseDer _ | see1)

theorem sees_densePre (dif w der pdif o i : Nat) : Sees m (LayerM.densePre dif w der pdif o i : Run T Unit) := by unfold LayerM.densePre; see2
theorem sees_denseUpdate (dif w b nw mw nb mb inp : Nat) (a p : Ptr) (n i : Nat) :
    Sees m (LayerM.denseUpdate dif w b nw mw nb mb inp a p n i : Run T Unit) := by unfold LayerM.denseUpdate; see2
theorem sees_convPre (kw sx sy : Nat) (si so : List Nat) (dif w der pdif : Nat) :
    Sees m (LayerM.convPre kw sx sy si so dif w der pdif : Run T Unit) := by unfold LayerM.convPre; see2
theorem sees_convBias (l : Nat) (x : Layer T) (b mb mw : Nat) (a p : Ptr) : Sees m (LayerM.convBias l x b mb mw a p) := by
  unfold LayerM.convBias; see2
theorem sees_convUpdate (kw kh sy : Nat) (si so : List Nat) (inp dif w wm nw : Nat) :
    Sees m (LayerM.convUpdate kw kh sy si so inp dif w wm nw : Run T Unit) := by unfold LayerM.convUpdate; see2
theorem sees_deconvPre (kw kh sx sy : Nat) (si so : List Nat) (dif w der pdif : Nat) :
    Sees m (LayerM.deconvPre kw kh sx sy si so dif w der pdif : Run T Unit) := by unfold LayerM.deconvPre; see2
theorem sees_deconvUpdate (kw kh sx sy : Nat) (si so : List Nat) (inp dif w wm nw : Nat) :
    Sees m (LayerM.deconvUpdate kw kh sx sy si so inp dif w wm nw : Run T Unit) := by unfold LayerM.deconvUpdate; see2

macro "seeBP" : tactic => `(tactic| repeat' (first
  | with_reducible exact sees_scaledDif _
  | with_reducible exact sees_buildDer _ _
  | with_reducible exact sees_densePre _ _ _ _ _ _
  | with_reducible exact sees_denseUpdate _ _ _ _ _ _ _ _ _ _ _ _
  | with_reducible exact sees_convPre _ _ _ _ _ _ _ _ _
  | with_reducible exact sees_convBias _ _ _ _ _ _ _
  | with_reducible exact sees_convUpdate _ _ _ _ _ _ _ _ _ _
  | with_reducible exact sees_deconvPre _ _ _ _ _ _ _ _ _ _
  | with_reducible exact sees_deconvUpdate _ _ _ _ _ _ _ _ _ _ _
  | with_reducible exact sees_getDif _ _
  | with_reducible exact sees_getOutputs _ _
  | with_reducible exact sees_getRef _
  | see1))

theorem sees_denseBP (f l : Nat) (a p : Ptr) : Sees m (LayerM.denseBP f l a p : Run T Unit) := by unfold LayerM.denseBP; seeBP
theorem sees_flattenBP (f l : Nat) : Sees m (LayerM.flattenBP f l : Run T Unit) := by unfold LayerM.flattenBP; seeBP
theorem sees_softMaxBP (l : Nat) : Sees m (LayerM.softMaxBP l : Run T Unit) := by unfold LayerM.softMaxBP; seeBP
theorem sees_normBP (mn mx : T) (f l : Nat) : Sees m (LayerM.normBP mn mx f l : Run T Unit) := by unfold LayerM.normBP; seeBP
theorem sees_subBP (d s e f l : Nat) : Sees m (LayerM.subBP d s e f l : Run T Unit) := by unfold LayerM.subBP; seeBP
theorem sees_concatBP (l : Nat) : Sees m (LayerM.concatBP l : Run T Unit) := by unfold LayerM.concatBP; seeBP
theorem sees_convBP (kw kh sx sy f l : Nat) (a p : Ptr) : Sees m (LayerM.convBP kw kh sx sy f l a p : Run T Unit) := by
  unfold LayerM.convBP; seeBP
theorem sees_deconvBP (kw kh sx sy f l : Nat) (a p : Ptr) : Sees m (LayerM.deconvBP kw kh sx sy f l a p : Run T Unit) := by
  unfold LayerM.deconvBP; seeBP
theorem sees_maxPoolBP (sx sy f l : Nat) : Sees m (LayerM.maxPoolBP sx sy f l : Run T Unit) := by unfold LayerM.maxPoolBP; seeBP
theorem sees_upSamplingBP (sx sy f l : Nat) : Sees m (LayerM.upSamplingBP sx sy f l : Run T Unit) := by unfold LayerM.upSamplingBP; seeBP

theorem sees_backProp (a p : Ptr) (f l : Nat) : Sees m (LayerM.backProp a p f l : Run T Unit) := by
  induction f generalizing l with
  | zero => exact Sees.abort
  | succ f ih =>
    unfold LayerM.backProp
    repeat' (first
      | with_reducible exact ih _
      | with_reducible exact sees_denseBP _ _ _ _
      | with_reducible exact sees_flattenBP _ _
      | with_reducible exact sees_softMaxBP _
      | with_reducible exact sees_normBP _ _ _ _
      | with_reducible exact sees_subBP _ _ _ _ _
      | with_reducible exact sees_convBP _ _ _ _ _ _ _ _
      | with_reducible exact sees_deconvBP _ _ _ _ _ _ _ _
      | with_reducible exact sees_maxPoolBP _ _ _ _
      | with_reducible exact sees_upSamplingBP _ _ _ _
      | with_reducible exact sees_concatBP _
      | see1)

theorem sees_loadFrom (p t : Nat) : Sees m (LayerM.loadFrom p t : Run T Unit) := by unfold LayerM.loadFrom; see
theorem sees_fitOwn (l : Nat) : Sees m (LayerM.fitOwn l : Run T Unit) := by
  unfold LayerM.fitOwn; repeat' (first | with_reducible exact sees_loadFrom _ _ | see1)
theorem sees_fit (f l : Nat) : Sees m (LayerM.fit f l : Run T Unit) := by
  induction f generalizing l with
  | zero => exact Sees.abort
  | succ f ih => unfold LayerM.fit; repeat' (first | with_reducible exact ih _ | with_reducible exact sees_fitOwn _ | see1)
theorem sees_resetFit (f l : Nat) : Sees m (LayerM.resetFit f l : Run T Unit) := by
  induction f generalizing l with
  | zero => exact Sees.abort
  | succ f ih => unfold LayerM.resetFit; repeat' (first | with_reducible exact ih _ | see1)
theorem sees_reset (f l : Nat) : Sees m (LayerM.reset f l : Run T Unit) := by
  induction f generalizing l with
  | zero => exact Sees.abort
  | succ f ih => unfold LayerM.reset; repeat' (first | with_reducible exact ih _ | see1)
theorem sees_resetSave (f l : Nat) : Sees m (LayerM.resetSave f l : Run T Unit) := by
  induction f generalizing l with
  | zero => exact Sees.abort
  | succ f ih => unfold LayerM.resetSave; repeat' (first | with_reducible exact ih _ | see1)
theorem sees_resetLoad (f l : Nat) : Sees m (LayerM.resetLoad f l : Run T Unit) := by
  induction f generalizing l with
  | zero => exact Sees.abort
  | succ f ih => unfold LayerM.resetLoad; repeat' (first | with_reducible exact ih _ | see1)

/-! ### models -/

theorem sees_run (g : Option (List (Op T))) : Sees m (NetM.run g) := by unfold NetM.run; see
theorem sees_copyTensor (n : Nat) : Sees m (NetM.copyTensor n : Run T Nat) := by unfold NetM.copyTensor; see
theorem sees_calDif (d t o : Nat) : Sees m (NetM.calDif d t o : Run T Unit) := by unfold NetM.calDif; see

macro "seeNet" : tactic => `(tactic| repeat' (first
  | with_reducible exact sees_addRef _ _ | with_reducible exact sees_build _ _ | with_reducible exact sees_feedForward _ _
  | with_reducible exact sees_reset _ _ | with_reducible exact sees_getInputs _ _ | with_reducible exact sees_getOutputs _ _
  | with_reducible exact sees_getDif _ _ | with_reducible exact sees_copyTensor _ | with_reducible exact sees_calDif _ _ _
  | with_reducible exact sees_backProp _ _ _ _ | with_reducible exact sees_resetFit _ _ | with_reducible exact sees_run _
  | with_reducible exact sees_loadFrom _ _ | with_reducible exact sees_fit _ _ | with_reducible exact sees_resetSave _ _
  | with_reducible exact sees_resetLoad _ _ | see1))

theorem sees_compile : Sees m (NetM.compile m : Run T Unit) := by unfold NetM.compile; seeNet
theorem sees_compileBP : Sees m (NetM.compileBP m : Run T Unit) := by unfold NetM.compileBP; seeNet
theorem sees_resetIS : Sees m (NetM.resetIS m : Run T Unit) := by
  unfold NetM.resetIS; repeat' (first | with_reducible exact sees_compile | with_reducible exact sees_run _ | see1)
theorem sees_predict (t : Nat) : Sees m (NetM.predict m t : Run T Nat) := by
  unfold NetM.predict
  repeat' (first | with_reducible exact sees_compile | with_reducible exact sees_run _ | with_reducible exact sees_loadFrom _ _ | with_reducible exact sees_copyTensor _ | see1)
theorem sees_execFit (x y : Nat) : Sees m (NetM.execFit m x y : Run T Unit) := by unfold NetM.execFit; seeNet
theorem sees_trainOne (x y : Nat) (a p : T) : Sees m (NetM.trainOne m x y a p) := by
  unfold NetM.trainOne; repeat' (first | with_reducible exact sees_compileBP | with_reducible exact sees_execFit _ _ | see1)
theorem sees_train (xs ys : List Nat) (n b : Nat) (a p : T) (draw : Nat → Nat) : Sees m (NetM.train m xs ys n b a p draw) := by
  unfold NetM.train NetM.trainLoop
  repeat' (first | with_reducible exact sees_compileBP | with_reducible exact sees_execFit _ _ | see1)
theorem sees_netResetSave : Sees m (NetM.resetSave m : Run T Unit) := by unfold NetM.resetSave; seeNet
theorem sees_netResetLoad : Sees m (NetM.resetLoad m : Run T Unit) := by unfold NetM.resetLoad; seeNet
theorem sees_shapeText (t : Option Nat) : Sees m (LayerM.shapeText t : Run T (List Char)) := by unfold LayerM.shapeText; see
theorem sees_pushToString (f l : Nat) : Sees m (LayerM.pushToString f l : Run T (List Char)) := by
  induction f generalizing l with
  | zero => exact Sees.abort
  | succ f ih => unfold LayerM.pushToString; repeat' (first | with_reducible exact ih _ | with_reducible exact sees_shapeText _ | see1)
theorem sees_string : Sees m (NetM.string m : Run T (List Char)) := by
  unfold NetM.string; repeat' (first | with_reducible exact sees_pushToString _ _ | see1)

end Godeep
