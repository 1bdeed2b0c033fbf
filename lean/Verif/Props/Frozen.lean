import Verif.Props.Program
/-
  C44, C73: models that are frozen, in all programs.
-/
set_option linter.unusedSectionVars false

namespace Godeep.Props
open Godeep Spec GoNum

variable {T : Type} [GoNum T] [Bin T]

/-- Layer `k` is on the way from layer `l` to the front, and the way has not come to layer `first` yet. -/
inductive Between (w : World T) (first : Option Nat) : Nat → Nat → Prop
  | self {l : Nat} : some l ≠ first → Between w first l l
  | pre {l p k : Nat} : some l ≠ first → (w.layers l).pre = some p → Between w first p k → Between w first l k

/-- layer `l` is in model `m`, and it is not the first layer -/
def InBody (w : World T) (m l : Nat) : Prop := ∃ k, (w.nets m).last = some k ∧ Between w (w.nets m).first k l

/-- the call makes layers trainable -/
def thaws : Act T → Prop
  | .setTrainable _ true | .setLayerTrainable _ true => True
  | _ => False

omit [Bin T] in
theorem between_congr {w w' : World T} (h : ∀ l, (w'.layers l).pre = (w.layers l).pre) {f : Option Nat} {l k : Nat} (hb : Between w f l k) : Between w' f l k := by
  induction hb with
  | self h1 => exact .self h1
  | pre h1 hp _ ih => exact .pre h1 (by rw [h]; exact hp) ih

omit [Bin T] in
theorem between_front {w : World T} {f : Option Nat} {l k : Nat} (hb : Between w f l k) : InFront w l k := by
  induction hb with
  | self h1 => exact .self _
  | pre h1 hp _ ih => exact .pre hp ih

omit [Bin T] in
theorem setGo_marks (x : Net T) (t : Bool) (n : Nat) : ∀ (c : Option Nat) (w w' : World T), NetM.setTrainable.go t x n c w = .ok () w' →
    (∀ k, (w.layers k).trainable = t → (w'.layers k).trainable = t) ∧ ∀ l, c = some l → ∀ k, Between w x.first l k → (w'.layers k).trainable = t := by
  induction n with
  | zero => intro c w w' h; unfold NetM.setTrainable.go at h; cases h
  | succ n ih =>
    intro c w w' h
    cases c with
    | none => unfold NetM.setTrainable.go at h; cases h; exact ⟨fun _ h => h, fun _ h => by cases h⟩
    | some l =>
      unfold NetM.setTrainable.go at h
      by_cases hf : some l = x.first
      · simp only [hf, if_true] at h
        cases h
        refine ⟨fun _ h => h, fun l' hl k hb => ?_⟩
        cases hl
        cases hb with
        | self h1 => exact absurd hf h1
        | pre h1 => exact absurd hf h1
      · simp only [hf, if_false] at h
        have h' : NetM.setTrainable.go t x n (w.layers l).pre { w with layers := fun k => if k = l then { w.layers k with trainable := t } else w.layers k } = .ok () w' := by
          rw [← h]
          show _ = NetM.setTrainable.go t x n (if l = l then { w.layers l with trainable := t } else w.layers l).pre _
          rw [if_pos rfl]
        obtain ⟨h1, h2⟩ := ih _ _ _ h'
        have keep : ∀ k, (w.layers k).trainable = t → (w'.layers k).trainable = t := fun k hk => h1 k (by
          show (if k = l then { w.layers k with trainable := t } else w.layers k).trainable = t
          split
          · rfl
          · exact hk)
        refine ⟨keep, fun l' hl k hb => ?_⟩
        cases hl
        cases hb with
        | self _ => exact h1 l (by show (if l = l then { w.layers l with trainable := t } else w.layers l).trainable = t; rw [if_pos rfl])
        | pre _ hp hb =>
          refine h2 _ hp k (between_congr (fun j => ?_) hb)
          show (if j = l then { w.layers j with trainable := t } else w.layers j).pre = _
          split <;> rfl

/-- C44, in any state of a program: `SetTrainable(t)` of a model that returns has marked all layers of the model after its first
layer. -/
theorem C44_marks {w w1 : World T} {r : Ret} (m : Nat) (t : Bool) (h : (Act.setTrainable m t).run w = .ok r w1) (l : Nat) (hl : InBody w m l) :
    (w1.layers l).trainable = t := by
  obtain ⟨k, hk, hb⟩ := hl
  have h1 : NetM.setTrainable m t w = .ok () w1 := by
    have : (Act.setTrainable m t).run w = Out.bind (NetM.setTrainable m t w) fun _ => fun w => .ok .nothing w := rfl
    rw [this] at h
    cases e : NetM.setTrainable m t w with
    | ok u w2 => rw [e] at h; cases h; rfl
    | err x w2 => rw [e] at h; cases h
    | panic => rw [e] at h; cases h
  exact (setGo_marks (w.nets m) t _ _ w w1 h1).2 k hk l hb

/-- a call that does not make layers trainable -/
theorem flag_stays {e : Env} {w w' : World T} (hr : Reached e w) (c : Act T) (hu : c.uses e) (hc : ¬ thaws c)
    (hw : (∃ r, c.run w = .ok r w') ∨ ∃ x, c.run w = .err x w') {l : Nat} (hl : l < w.layerNext) (ht : (w.layers l).trainable = false) :
    l < w'.layerNext ∧ (w'.layers l).trainable = false := by
  obtain ⟨g, rfl, hi, he⟩ := Own.reached_inv hr
  have H := Own.own_act c hu he hi
  have hm : ¬ Own.marks c := fun h => hc (by
    cases c with
    | setTrainable m t => cases (h : t = true); trivial
    | setLayerTrainable m t => cases (h : t = true); trivial
    | _ => exact h.elim)
  rcases hw with ⟨r, hw⟩ | ⟨r, hw⟩
  · rw [hw] at H
    obtain ⟨g2, rfl, _, l2, _⟩ := H
    exact ⟨lt_of_lt_of_le hl l2.layer, l2.train hm l hl ht⟩
  · rw [hw] at H
    obtain ⟨g2, rfl, _, l2⟩ := H
    exact ⟨lt_of_lt_of_le hl l2.layer, l2.train hm l hl ht⟩

/-- C44, flags: a layer that is not trainable stays so until a call of `SetTrainable(true)`, whatever else a program does. -/
theorem C44_flag_stays {e e' : Env} {w w' : World T} (hr : Reached e w) (l : Nat) (hl : l < w.layerNext) (ht : (w.layers l).trainable = false)
    (h : Calls (fun _ c => ¬ thaws c) e w e' w') : (w'.layers l).trainable = false := by
  suffices H : l < w'.layerNext ∧ (w'.layers l).trainable = false from H.2
  induction h with
  | refl => exact ⟨hl, ht⟩
  | ok hs hu hp hc ih =>
    obtain ⟨h1, h2⟩ := ih hr hl ht
    exact flag_stays (reached_calls hr hs) _ hu hp (.inl ⟨_, hc⟩) h1 h2
  | err hs hu hp hc ih =>
    obtain ⟨h1, h2⟩ := ih hr hl ht
    exact flag_stays (reached_calls hr hs) _ hu hp (.inr ⟨_, hc⟩) h1 h2

theorem stays_frozen {e e' : Env} {w w' : World T} (hr : Reached e w) (l : Nat) (hl : l < w.layerNext) (ht : (w.layers l).trainable = false)
    (h : Calls (fun _ c => ¬ loads c ∧ ¬ thaws c) e w e' w') : Calls (fun w c => (w.layers l).trainable = false ∧ ¬ loads c) e w e' w' := by
  induction h with
  | refl => exact .refl _ _
  | ok hs hu hp hc ih => exact .ok (ih hr hl ht) hu ⟨C44_flag_stays hr l hl ht (calls_mono (fun _ _ h => h.2) hs), hp.1⟩ hc
  | err hs hu hp hc ih => exact .err (ih hr hl ht) hu ⟨C44_flag_stays hr l hl ht (calls_mono (fun _ _ h => h.2) hs), hp.1⟩ hc

/-- C44 and C73, in any program: after `SetTrainable(false)` of a model, no call changes the weights and the biases of its layers after the first, until
a call of `SetTrainable(true)` or `Load`: whatever models with these layers are made, joined (also before), compiled and trained. -/
theorem C44_frozen_program {e e' : Env} {w w1 w' : World T} {r : Ret} (hr : Reached e w) (m : Nat) (hm : m ∈ e.models) (h1 : (Act.setTrainable m false).run w = .ok r w1)
    (h : Calls (fun _ c => ¬ loads c ∧ ¬ thaws c) (e.add r) w1 e' w') (l : Nat) (hl : InBody w m l) :
    (∀ x, numbers w (w.layers l).weights = some x → numbers w' (w'.layers l).weights = some x) ∧
      ∀ x, numbers w (w.layers l).bias = some x → numbers w' (w'.layers l).bias = some x := by
  have hu : (Act.setTrainable m false : Act T).uses e := hm
  have h0 : Calls (fun _ _ => True) e w (e.add r) w1 := .ok (.refl _ _) hu trivial h1
  have hr1 := reached_calls hr h0
  have hlt : l < w.layerNext := by
    obtain ⟨g, rfl, hi, _⟩ := Own.reached_inv hr
    obtain ⟨k, hk, hb⟩ := hl
    have hk' := hi.nlast m k hk
    replace hb := between_front hb
    clear hk
    induction hb with
    | self => exact hk'
    | pre hp _ ih => exact ih (hi.pre _ _ hp)
  have hlt1 := lt_of_lt_of_le hlt (Own.layers_grow hr _ hu (.inl ⟨_, h1⟩))
  have ha := C88_weights_stay hr (.setTrainable m false) hu l (fun h => h) (.inl ⟨_, h1⟩)
  have hb := C88_frozen hr1 l (stays_frozen hr1 l hlt1 (C44_marks m false h1 l hl) h)
  exact ⟨fun x hx => hb.1 x (ha.1 x hx), fun x hx => hb.2 x (ha.2 x hx)⟩

/-- the call trains a model or predicts with it -/
def applies : Act T → Prop
  | .trainOne .. | .train .. | .predict .. => True
  | _ => False

/-- C73, the part about frozen models, for all programs: models are joined to model `j` in any state that a program reaches, one of them, `m`, is then frozen
with `SetTrainable(false)`; no prediction and training with model `j` or any other model changes the weights and the biases of the layers
of `m` after its first. -/
theorem C73_frozen_any {e e' : Env} {w wj w1 w' : World T} {r : Ret} (hr : Reached e w) (ms : List Nat) (hms : ∀ m ∈ ms, m ∈ e.models) (j : Nat)
    (hj : (Act.fromModels ms).run w = .ok (.model j) wj) (m : Nat) (hm : m ∈ ms) (h1 : (Act.setTrainable m false).run wj = .ok r w1)
    (h : Calls (fun _ c => applies c) ((e.add (.model j)).add r) w1 e' w') (l : Nat) (hl : InBody wj m l) :
    (∀ x, numbers wj (wj.layers l).weights = some x → numbers w' (w'.layers l).weights = some x) ∧
      ∀ x, numbers wj (wj.layers l).bias = some x → numbers w' (w'.layers l).bias = some x := by
  have h0 : Calls (fun _ _ => True) e w (e.add (.model j)) wj := .ok (.refl _ _) (show (Act.fromModels ms : Act T).uses e from hms) trivial hj
  refine C44_frozen_program (reached_calls hr h0) m (List.mem_cons_of_mem _ (hms m hm)) h1 (calls_mono (fun _ c hc => ?_) h) l hl
  cases c <;> first | exact hc.elim | exact ⟨fun h => h, fun h => h⟩

/-! ### a program with joined models -/

/-- two models of an input layer and a dense layer each (0, 1 and 2, 3) are joined; the second model is frozen -/
def joining : List (Act (BitVec 16)) :=
  [.fromValues [3] [1], .fromValues [5] [1], .input [1], .dense 1 .linear, .input [1], .dense 1 .linear, .newModel, .push 0 0, .push 0 1, .newModel, .push 1 2, .push 1 3, .fromModels [0, 1]]

def joined0 : Option (Env × World (BitVec 16)) := follow joining ({}, start fun k i => BitVec.ofNat 16 (k + i + 2))

theorem joining_check : (match joined0 with
    | some (e, w) => e.models.contains 1 && (w.nets 1).last == some 3 && (w.nets 1).first == some 2 && (numbers w (w.layers 3).weights).isSome && (numbers w (w.layers 3).bias).isSome &&
      match (Act.setTrainable 1 false : Act (BitVec 16)).run w with
      | .ok .nothing w1 => usesB e (Act.trainOne 2 0 1 1 0 : Act (BitVec 16)) &&
        match (Act.trainOne 2 0 1 1 0 : Act (BitVec 16)).run w1 with
        | .ok .nothing w' => numbers w' (w'.layers 1).weights != numbers w (w.layers 1).weights
        | _ => false
      | _ => false
    | none => false) = true ∧ followsB joining ({}, start fun k i => BitVec.ofNat 16 (k + i + 2)) = true := by
  decide +kernel

/-- C44_frozen_program is not empty: the second of two joined models is frozen, and training the joined model changes the weights of the
first. -/
theorem C44_frozen_example : ∃ (e e' : Env) (w w1 w' : World (BitVec 16)) (r : Ret), Reached e w ∧ 1 ∈ e.models ∧ (Act.setTrainable 1 false).run w = .ok r w1 ∧
    Calls (fun _ c => ¬ loads c ∧ ¬ thaws c) (e.add r) w1 e' w' ∧ InBody w 1 3 ∧ (numbers w (w.layers 3).weights).isSome ∧ (numbers w (w.layers 3).bias).isSome ∧
    numbers w' (w'.layers 1).weights ≠ numbers w (w.layers 1).weights := by
  obtain ⟨h, hf⟩ := joining_check
  cases e0 : joined0 with
  | none => rw [e0] at h; cases h
  | some s =>
    obtain ⟨e, w⟩ := s
    have hr : Reached e w := ⟨_, follow_calls joining ({}, start fun k i => BitVec.ofNat 16 (k + i + 2)) (e, w) e0 (followsB_iff _ _ hf)⟩
    rw [e0] at h
    dsimp only at h
    simp only [Bool.and_eq_true, beq_iff_eq] at h
    obtain ⟨⟨⟨⟨⟨h1, h2⟩, h3⟩, h4⟩, h5⟩, h⟩ := h
    split at h
    · next w1 r1 =>
      rw [Bool.and_eq_true] at h
      obtain ⟨hu, h⟩ := h
      split at h
      · next w' r2 =>
        refine ⟨e, _, w, w1, w', .nothing, hr, by simpa using h1, r1, .ok (.refl _ _) (usesB_iff _ _ hu) ⟨fun h => h, fun h => h⟩ r2, ⟨3, h2, .self ?_⟩, h4, h5, by simpa using h⟩
        rw [h3]
        simp
      · cases h
    · cases h

/-! ### the first layer of a model -/

/-- a model whose first layer is a dense layer made with `NewInDense` -/
def noInput : List (Act (BitVec 16)) :=
  [.fromValues [3] [1], .fromValues [5] [1], .inDense 1 1 .linear, .dense 1 .linear, .newModel, .push 0 0, .push 0 1, .compile 0, .compileBP 0]

theorem noInput_check : (match follow noInput ({}, start fun k i => BitVec.ofNat 16 (k + i + 2)) with
    | some (e, w) => usesB e (Act.setTrainable 0 false : Act (BitVec 16)) &&
      match (Act.setTrainable 0 false : Act (BitVec 16)).run w with
      | .ok .nothing w1 => usesB e (Act.trainOne 0 0 1 1 0 : Act (BitVec 16)) && (w.nets 0).first == some 0 && (numbers w (w.layers 0).weights).isSome &&
        match (Act.trainOne 0 0 1 1 0 : Act (BitVec 16)).run w1 with
        | .ok .nothing w' => numbers w' (w'.layers 0).weights != numbers w (w.layers 0).weights
        | _ => false
      | _ => false
    | none => false) = true ∧ followsB noInput ({}, start fun k i => BitVec.ofNat 16 (k + i + 2)) = true := by
  decide +kernel

/-- C44, false of the first layer: `SetTrainable(false)` leaves out the first layer of a model also if it is a dense layer, and training the
model then changes its weights. -/
theorem C44_first_layer_learns : ∃ (e : Env) (w w1 w' : World (BitVec 16)), Reached e w ∧ (Act.setTrainable 0 false).uses (T := BitVec 16) e ∧
    (Act.setTrainable 0 false).run w = .ok .nothing w1 ∧ (Act.trainOne 0 0 1 1 0).uses (T := BitVec 16) e ∧ (Act.trainOne 0 0 1 1 0).run w1 = .ok .nothing w' ∧
    (w.nets 0).first = some 0 ∧ (numbers w (w.layers 0).weights).isSome ∧ numbers w' (w'.layers 0).weights ≠ numbers w (w.layers 0).weights := by
  obtain ⟨h, hf⟩ := noInput_check
  cases e0 : follow noInput ({}, start fun k i => BitVec.ofNat 16 (k + i + 2)) with
  | none => rw [e0] at h; cases h
  | some s =>
    obtain ⟨e, w⟩ := s
    have hr : Reached e w := ⟨_, follow_calls noInput ({}, start fun k i => BitVec.ofNat 16 (k + i + 2)) (e, w) e0 (followsB_iff _ _ hf)⟩
    rw [e0] at h
    dsimp only at h
    rw [Bool.and_eq_true] at h
    obtain ⟨h1, h⟩ := h
    split at h
    · next w1 r1 =>
      simp only [Bool.and_eq_true, beq_iff_eq] at h
      obtain ⟨⟨⟨h2, h3⟩, h4⟩, h⟩ := h
      split at h
      · next w' r2 => exact ⟨e, w, w1, w', hr, usesB_iff _ _ h1, r1, usesB_iff _ _ h2, r2, h3, h4, by simpa using h⟩
      · cases h
    · cases h

end Godeep.Props
