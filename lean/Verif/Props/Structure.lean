import Verif.Props.Frozen
/-
  C94: how layers are connected.
-/
set_option linter.unusedSectionVars false

namespace Godeep.Props
open Godeep Spec GoNum

variable {T : Type} [GoNum T] [Bin T]

/-- the calls whose purpose is to connect layers or to say which layers are trainable -/
def restructures : Act T → Prop
  | .connect _ _ | .push _ _ | .fromModels _ | .setTrainable _ _ | .setLayerTrainable _ _ => True
  | _ => False

/-- the layers that were there have the same connections and kinds and are trainable or not as before, and the models that were there have the same first and last layers -/
structure SameNets (w w' : World T) : Prop where
  grow : w.layerNext ≤ w'.layerNext
  layers : ∀ l < w.layerNext, (w'.layers l).pre = (w.layers l).pre ∧ (w'.layers l).trainable = (w.layers l).trainable ∧ (w'.layers l).kind = (w.layers l).kind
  models : ∀ m < w.netNext, (w'.nets m).last = (w.nets m).last ∧ (w'.nets m).first = (w.nets m).first
  more : w.netNext ≤ w'.netNext

/-- … of all models -/
structure SameAll (w w' : World T) : Prop where
  grow : w.layerNext ≤ w'.layerNext
  more : w.netNext ≤ w'.netNext
  layers : ∀ l < w.layerNext, (w'.layers l).pre = (w.layers l).pre ∧ (w'.layers l).trainable = (w.layers l).trainable ∧ (w'.layers l).kind = (w.layers l).kind
  models : ∀ m, (w'.nets m).last = (w.nets m).last ∧ (w'.nets m).first = (w.nets m).first

omit [Bin T] in
theorem SameAll.trans {w w1 w2 : World T} (h1 : SameAll w w1) (h2 : SameAll w1 w2) : SameAll w w2 :=
  ⟨le_trans h1.grow h2.grow, le_trans h1.more h2.more, fun l hl =>
    ⟨((h2.layers l (lt_of_lt_of_le hl h1.grow)).1).trans (h1.layers l hl).1, ((h2.layers l (lt_of_lt_of_le hl h1.grow)).2.1).trans (h1.layers l hl).2.1,
      ((h2.layers l (lt_of_lt_of_le hl h1.grow)).2.2).trans (h1.layers l hl).2.2⟩,
    fun m => ⟨(h2.models m).1.trans (h1.models m).1, (h2.models m).2.trans (h1.models m).2⟩⟩

omit [Bin T] in
theorem same_le {A : Nat → Prop} {B : Own.Chg} {g g' : Own.G T} (hB : ¬ B.2.1) (h : Own.Le A B g g') : SameAll g.w g'.w :=
  ⟨h.layer, h.net, fun l hl => ⟨((h.same hB).1 l).2, ((h.same hB).1 l).1, h.kinds l hl⟩, fun m => ⟨(h.same hB).2 m, h.first hB m⟩⟩

/-- ends in a state with the same connections -/
def Ends {α : Type} (w : World T) (o : Out (World T) α) : Prop :=
  match o with
  | .ok _ w' | .err _ w' => SameAll w w'
  | .panic => True

omit [Bin T] in
theorem ends_new (w : World T) (x : Layer T) : Ends w (Run.newLayer x w) :=
  ⟨Nat.le_succ _, le_refl _, fun l hl => (by
    show (if l = w.layerNext then x else w.layers l).pre = _ ∧ (if l = w.layerNext then x else w.layers l).trainable = _ ∧ (if l = w.layerNext then x else w.layers l).kind = _
    rw [if_neg (Nat.ne_of_lt hl)]
    exact ⟨rfl, rfl, rfl⟩), fun _ => ⟨rfl, rfl⟩⟩

omit [Bin T] in
theorem ends_zeros {α : Type} {g : Own.G T} (hi : Own.Inv g) (s : List Nat) {f : Nat → Run T α} (hf : ∀ (g1 : Own.G T) n, Own.Inv g1 → Ends g1.w (f n g1.w)) :
    Ends g.w ((Run.zeros s >>= f) g.w) := by
  have H := Own.At.zeros (A := fun _ => False) (B := ⟨fun _ => False, False, False⟩) (g := g) s hi
  show Ends g.w (Out.bind (Run.zeros s g.w) f)
  cases e : Run.zeros s g.w with
  | ok n w1 =>
    rw [e] at H
    obtain ⟨g1, rfl, i1, l1, _⟩ := H
    have h1 := same_le (fun h => h) l1
    have h2 := hf g1 n i1
    show Ends g.w (f n g1.w)
    cases e2 : f n g1.w with
    | ok x w2 => rw [e2] at h2; exact h1.trans h2
    | err x w2 => rw [e2] at h2; exact h1.trans h2
    | panic => trivial
  | err x w1 =>
    rw [e] at H
    obtain ⟨g1, rfl, i1, l1⟩ := H
    exact same_le (fun h => h) l1
  | panic => trivial

omit [Bin T] in
theorem ends_layer {w : World T} {a : Run T Nat} (h : Ends w (a w)) : Ends w (Act.layerOf a w) := by
  show Ends w (Out.bind (a w) fun n => fun w => .ok (Ret.layer n) w)
  cases e : a w with
  | ok x w2 => rw [e] at h; exact h
  | err x w2 => rw [e] at h; exact h
  | panic => trivial

/-- C94: In any state that a program reaches let it make any call but `Connect`, `Push`, `FromModels` and `SetTrainable`.  All layers that were there are still connected to
the same layers, of the same kind (with its numbers: sizes of kernels, dimensions, …) and trainable or not as before, and all models that were there have the same first and last layer, whether the call returns or returns an error. -/
theorem C94_structure_stays {e : Env} {w w' : World T} (hr : Reached e w) (c : Act T) (hu : c.uses e) (hc : ¬ restructures c)
    (hw : (∃ r, c.run w = .ok r w') ∨ ∃ x, c.run w = .err x w') : SameNets w w' := by
  obtain ⟨g, rfl, hi, he⟩ := Own.reached_inv hr
  by_cases hl : Own.links c
  · have fin : Ends g.w (c.run g.w) → SameNets g.w w' := fun h => by
      rcases hw with ⟨r, hw⟩ | ⟨r, hw⟩ <;> rw [hw] at h <;> exact ⟨h.grow, h.layers, fun m _ => h.models m, h.more⟩
    have net : ∀ y : Net T, c.run g.w = Act.modelOf (NetM.newNet y) g.w → SameNets g.w w' := fun y h => by
      have h1 : Act.modelOf (NetM.newNet y) g.w = .ok (.model g.w.netNext) { g.w with nets := fun k => if k = g.w.netNext then y else g.w.nets k, netNext := g.w.netNext + 1 } := rfl
      rw [h1] at h
      rw [h] at hw
      rcases hw with ⟨r, hw⟩ | ⟨r, hw⟩
      · cases hw
        exact ⟨le_refl _, fun _ _ => ⟨rfl, rfl, rfl⟩, fun m hm => (by
          show (if m = g.w.netNext then y else g.w.nets m).last = _ ∧ (if m = g.w.netNext then y else g.w.nets m).first = _
          rw [if_neg (Nat.ne_of_lt hm)]
          exact ⟨rfl, rfl⟩), Nat.le_succ _⟩
      · cases hw
    cases c with
    | input s => exact fin (ends_layer (ends_zeros hi _ fun g1 _ i1 => ends_zeros i1 _ fun g2 _ _ => ends_new _ _))
    | dense n a => exact fin (ends_layer (ends_zeros hi _ fun g1 _ i1 => ends_new _ _))
    | inDense i n a => exact fin (ends_layer (ends_zeros hi _ fun g1 _ i1 => ends_zeros i1 _ fun g2 _ _ => ends_new _ _))
    | connect | push | fromModels | setTrainable | setLayerTrainable => exact absurd trivial hc
    | newModel => exact net _ rfl
    | fromInOut => exact net _ rfl
    | _ => first | exact hl.elim | exact fin (ends_layer (ends_new _ _))
  · have H := Own.own_act c hu he hi
    have h0 : ∀ g2 : Own.G T, Own.Le _ ⟨fun _ => False, Own.links c, Own.marks c⟩ g g2 → SameNets g.w g2.w := fun g2 l2 =>
      have h := same_le (A := fun l => c.mayChange g.w l) (B := ⟨fun _ => False, Own.links c, Own.marks c⟩) hl l2
      ⟨h.grow, h.layers, fun m _ => h.models m, h.more⟩
    rcases hw with ⟨r, hw⟩ | ⟨r, hw⟩
    · rw [hw] at H
      obtain ⟨g2, rfl, _, l2, _⟩ := H
      exact h0 g2 l2
    · rw [hw] at H
      obtain ⟨g2, rfl, _, l2⟩ := H
      exact h0 g2 l2

/-- C94, kinds: no call at all changes the kind of a layer, nor the numbers it was made with. -/
theorem C94_kinds_stay {e : Env} {w w' : World T} (hr : Reached e w) (c : Act T) (hu : c.uses e)
    (hw : (∃ r, c.run w = .ok r w') ∨ ∃ x, c.run w = .err x w') (l : Nat) (hl : l ∈ e.layers) : (w'.layers l).kind = (w.layers l).kind := by
  obtain ⟨g, rfl, hi, he⟩ := Own.reached_inv hr
  have H := Own.own_act c hu he hi
  rcases hw with ⟨r, hw⟩ | ⟨r, hw⟩
  · rw [hw] at H
    obtain ⟨g2, rfl, _, l2, _⟩ := H
    exact l2.kinds l (he.layers l hl)
  · rw [hw] at H
    obtain ⟨g2, rfl, _, l2⟩ := H
    exact l2.kinds l (he.layers l hl)

omit [Bin T] in
theorem same_trans {w w1 w2 : World T} (h1 : SameNets w w1) (h2 : SameNets w1 w2) : SameNets w w2 :=
  ⟨le_trans h1.grow h2.grow, fun l hl =>
    ⟨((h2.layers l (lt_of_lt_of_le hl h1.grow)).1).trans (h1.layers l hl).1, ((h2.layers l (lt_of_lt_of_le hl h1.grow)).2.1).trans (h1.layers l hl).2.1,
      ((h2.layers l (lt_of_lt_of_le hl h1.grow)).2.2).trans (h1.layers l hl).2.2⟩,
    fun m hm => ⟨(h2.models m (lt_of_lt_of_le hm h1.more)).1.trans (h1.models m hm).1, (h2.models m (lt_of_lt_of_le hm h1.more)).2.trans (h1.models m hm).2⟩, le_trans h1.more h2.more⟩

/-- C94, for histories: … after any number of such calls, for all layers and models that the program has. -/
theorem C94_history {e e' : Env} {w w' : World T} (hr : Reached e w) (h : Calls (fun _ c => ¬ restructures c) e w e' w') :
    (∀ l ∈ e.layers, (w'.layers l).pre = (w.layers l).pre ∧ (w'.layers l).trainable = (w.layers l).trainable ∧ (w'.layers l).kind = (w.layers l).kind) ∧ ∀ m ∈ e.models, (w'.nets m).last = (w.nets m).last ∧ (w'.nets m).first = (w.nets m).first := by
  have H : SameNets w w' := by
    induction h with
    | refl => exact ⟨le_refl _, fun _ _ => ⟨rfl, rfl, rfl⟩, fun _ _ => ⟨rfl, rfl⟩, le_refl _⟩
    | ok hs hu hp hc ih => exact same_trans (ih hr) (C94_structure_stays (reached_calls hr hs) _ hu hp (.inl ⟨_, hc⟩))
    | err hs hu hp hc ih => exact same_trans (ih hr) (C94_structure_stays (reached_calls hr hs) _ hu hp (.inr ⟨_, hc⟩))
  obtain ⟨g, rfl, _, he⟩ := Own.reached_inv hr
  exact ⟨fun l hl => H.layers l (he.layers l hl), fun m hm => H.models m (he.models m hm)⟩

/-- C94 is not empty: in the state that `joining` reaches the layers 0 to 3 and the models 0 to 2 are there, and training the joined model is such a call. -/
theorem C94_example : ∃ (e e' : Env) (w w' : World (BitVec 16)), Reached e w ∧ Calls (fun _ c => ¬ restructures c) e w e' w' ∧ e.layers.length = 4 ∧ e.models.length = 3 ∧
    numbers w' (w'.layers 1).weights ≠ numbers w (w.layers 1).weights := by
  have hc : (match joined0 with
    | some (e, w) => e.layers.length == 4 && e.models.length == 3 && usesB e (Act.trainOne 2 0 1 1 0 : Act (BitVec 16)) &&
      match (Act.trainOne 2 0 1 1 0 : Act (BitVec 16)).run w with
      | .ok .nothing w' => numbers w' (w'.layers 1).weights != numbers w (w.layers 1).weights
      | _ => false
    | none => false) = true := by decide +kernel
  cases e0 : joined0 with
  | none => rw [e0] at hc; cases hc
  | some s =>
    obtain ⟨e, w⟩ := s
    have hr : Reached e w := ⟨_, follow_calls joining ({}, start fun k i => BitVec.ofNat 16 (k + i + 2)) (e, w) e0 (followsB_iff _ _ joining_check.2)⟩
    rw [e0] at hc
    dsimp only at hc
    simp only [Bool.and_eq_true, beq_iff_eq] at hc
    obtain ⟨⟨⟨h1, h2⟩, hu⟩, h⟩ := hc
    split at h
    · next w' r1 => exact ⟨e, _, w, w', hr, .ok (.refl _ _) (usesB_iff _ _ hu) (fun h => h) r1, h1, h2, by simpa using h⟩
    · cases h

end Godeep.Props
