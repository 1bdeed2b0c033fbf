import Verif.Props.TrainKinds
/-
  C72, C73: models made by `FromModels`: what goes wrong, and the training of their parts.
-/
set_option linter.unusedSectionVars false

namespace Godeep.Props
open Godeep Spec GoNum

variable {T : Type} [GoNum T]

/-- two models with one dense layer each, and the model that `FromModels` makes of them; layers 0 and 1 are those of the first model, 2 and 3
those of the second -/
def joinedPair : Run Int (Nat × Nat × Nat) := do
  let g ← sequential [1] [.dense 1 .linear]
  let d ← sequential [1] [.dense 1 .linear]
  let m ← NetM.fromModels [g, d]
  return (g, d, m)

/-- the weight and the bias of the two dense layers -/
def pairWeights (w : World Int) : List (List Int) :=
  [valsOf w (w.layers 1).weights, valsOf w (w.layers 1).bias, valsOf w (w.layers 3).weights, valsOf w (w.layers 3).bias]

theorem joined_check : (okAnd (joinedPair world2) fun p w => pairWeights w == [[3], [2], [5], [4]] &&
    (okAnd (NetM.predict p.1 0 w) fun r w' => valsOf w' (some r) == [17]) &&
    (okAnd (NetM.predict p.2.1 0 w) fun r w' => valsOf w' (some r) == [29]) &&
    (okAnd (NetM.predict p.2.2 0 w) fun r w' => valsOf w' (some r) == [89]) &&
    (okAnd (NetM.trainOne p.2.1 0 1 1 0 w) fun l w' => l == 18 && pairWeights w' == [[3], [-28], [-85], [-14]]) &&
    (okAnd (NetM.predict p.1 0 w) fun _ w => okAnd (NetM.trainOne p.2.1 0 1 1 0 w) fun l w' => l == 18 && pairWeights w' == [[-147], [-28], [-85], [-14]]) &&
    (okAnd (NetM.trainOne p.1 0 1 1 0 w) fun l w' => l == 6 && pairWeights w' == [[0], [0], [5], [4]]) &&
    okAnd (NetM.setTrainable p.1 false w) fun _ w => okAnd (NetM.trainOne p.2.1 0 1 1 0 w) fun l w' => l == 18 && pairWeights w' == [[3], [2], [-85], [-14]]) = true := by
  decide +kernel

/-- C73 is false: The first model has weight 3 and bias 2, the second has weight 5 and bias 4, and `FromModels` has joined them.  They predict as they
should: 17 = 3 * 5 + 2, 29 = 5 * 5 + 4, and 89 = 5 * 17 + 4 together.  But a training step of the second model also changes the bias of the
first to -28, and its weight too if it has been used before (-147). -/
theorem C73_second_trains_first : ∃ g d m w, joinedPair world2 = .ok (g, d, m) w ∧ pairWeights w = [[3], [2], [5], [4]] ∧
    (∃ r w', NetM.predict g 0 w = .ok r w' ∧ valsOf w' (some r) = [17] ∧ ∃ l w'', NetM.trainOne d 0 1 1 0 w' = .ok l w'' ∧ pairWeights w'' = [[-147], [-28], [-85], [-14]]) ∧
    (∃ r w', NetM.predict d 0 w = .ok r w' ∧ valsOf w' (some r) = [29]) ∧
    (∃ r w', NetM.predict m 0 w = .ok r w' ∧ valsOf w' (some r) = [89]) ∧
    ∃ l w', NetM.trainOne d 0 1 1 0 w = .ok l w' ∧ pairWeights w' = [[3], [-28], [-85], [-14]] := by
  obtain ⟨⟨g, d, m⟩, w, e, h⟩ := okAnd_ok joined_check
  simp only [Bool.and_eq_true, beq_iff_eq] at h
  obtain ⟨⟨⟨⟨⟨⟨⟨h1, h2⟩, h3⟩, h4⟩, h5⟩, h6⟩, h7⟩, h8⟩ := h
  obtain ⟨r2, w2, e2, h2⟩ := okAnd_ok h2
  obtain ⟨r3, w3, e3, h3⟩ := okAnd_ok h3
  obtain ⟨r4, w4, e4, h4⟩ := okAnd_ok h4
  obtain ⟨r5, w5, e5, h5⟩ := okAnd_ok h5
  obtain ⟨r6, w6, e6, h6⟩ := okAnd_ok h6
  obtain ⟨r7, w7, e7, h7⟩ := okAnd_ok h6
  simp only [Bool.and_eq_true, beq_iff_eq] at h2 h3 h4 h5 h7
  rw [e2] at e6
  cases e6
  exact ⟨g, d, m, w, e, h1, ⟨r2, w2, e2, h2, r7, w7, e7, h7.2⟩, ⟨r3, w3, e3, h3⟩, ⟨r4, w4, e4, h4⟩, r5, w5, e5, h5.2⟩

/-- C73 is false of the first model too: a training step of it, directly after `FromModels`, replaces its weight 3 and its bias 2 by zeros. -/
theorem C73_first_is_erased : ∃ g d m w, joinedPair world2 = .ok (g, d, m) w ∧ pairWeights w = [[3], [2], [5], [4]] ∧
    ∃ l w', NetM.trainOne g 0 1 1 0 w = .ok l w' ∧ pairWeights w' = [[0], [0], [5], [4]] := by
  obtain ⟨⟨g, d, m⟩, w, e, h⟩ := okAnd_ok joined_check
  simp only [Bool.and_eq_true, beq_iff_eq] at h
  obtain ⟨⟨⟨⟨⟨⟨⟨h1, _⟩, _⟩, _⟩, _⟩, _⟩, h7⟩, _⟩ := h
  obtain ⟨r7, w7, e7, h7⟩ := okAnd_ok h7
  simp only [Bool.and_eq_true, beq_iff_eq] at h7
  exact ⟨g, d, m, w, e, h1, r7, w7, e7, h7.2⟩

/-- the same, but the second model has been used for a prediction before -/
def joinedLate : Run Int (Nat × Nat × Nat) := do
  let g ← sequential [1] [.dense 1 .linear]
  let d ← sequential [1] [.dense 1 .linear]
  let _ ← NetM.predict d 0
  let m ← NetM.fromModels [g, d]
  return (g, d, m)

/-- C72 is false when the second model has been compiled before `FromModels`, for example by a prediction: The first model computes 5 * x + 4, the
second 3 * x + 2, but the joined model predicts 17 for both 5 and 11.  It goes on with what is in the input tensor of the second model from before, not with
the output of the first model. -/
theorem C72_used_before : ∃ g d m w, joinedLate world2 = .ok (g, d, m) w ∧ pairWeights w = [[5], [4], [3], [2]] ∧
    valsOf w (some 0) = [5] ∧ valsOf w (some 1) = [11] ∧
    (∃ r w', NetM.predict m 0 w = .ok r w' ∧ valsOf w' (some r) = [17]) ∧ ∃ r w', NetM.predict m 1 w = .ok r w' ∧ valsOf w' (some r) = [17] := by
  have h : (okAnd (joinedLate world2) fun p w => pairWeights w == [[5], [4], [3], [2]] && valsOf w (some 0) == [5] && valsOf w (some 1) == [11] &&
      (okAnd (NetM.predict p.2.2 0 w) fun r w' => valsOf w' (some r) == [17]) && okAnd (NetM.predict p.2.2 1 w) fun r w' => valsOf w' (some r) == [17]) = true := by
    decide +kernel
  obtain ⟨⟨g, d, m⟩, w, e, h⟩ := okAnd_ok h
  simp only [Bool.and_eq_true, beq_iff_eq] at h
  obtain ⟨⟨⟨⟨h1, h2⟩, h3⟩, h4⟩, h5⟩ := h
  obtain ⟨r4, w4, e4, h4⟩ := okAnd_ok h4
  obtain ⟨r5, w5, e5, h5⟩ := okAnd_ok h5
  simp only [beq_iff_eq] at h4 h5
  exact ⟨g, d, m, w, e, h1, h2, h3, ⟨r4, w4, e4, h4⟩, r5, w5, e5, h5⟩

/-- a decidable condition under which no training of model `m` changes the weights and biases of layer `l`: the layers on the path from the
last one (`path`) are frozen or share no scalar with `l`, and the graphs of `m` do not write to them -/
def safeFrom (w : World T) (m : Nat) (path : List Nat) (l : Nat) : Bool :=
  (w.nets m).bp.isSome && (match (w.nets m).last with | some z => path.contains z | none => true) &&
    (path.all fun k => match (w.layers k).pre with | some p => path.contains p | none => true) &&
    (layerCells w l).all fun q => !(workCells w m).contains q && path.all fun k => !(w.layers k).trainable || !(layerCells w k).contains q

theorem safeFrom_kept {w b : World T} {m l : Nat} {path : List Nat} (h : safeFrom w m path l = true) (hb : AnyTrains m w b) :
    ∀ q ∈ layerCells w l, b.store.heap.val q = w.store.heap.val q := by
  intro q hq
  simp only [safeFrom, Bool.and_eq_true, List.all_eq_true, Bool.not_eq_true', List.contains_eq_mem, decide_eq_false_iff_not, Bool.or_eq_true] at h
  obtain ⟨⟨⟨a1, a2⟩, a3⟩, a4⟩ := h
  obtain ⟨_, _, _, hv⟩ := C45_only_path (by intro h0; rw [h0] at a1; cases a1) hb
  by_contra hc
  rcases hv q hc with ⟨l', k, n, c1, c2, c3, c4, c5⟩ | hw
  · rw [c1] at a2
    have hk : k ∈ path := by
      clear c3 c4 c5
      induction c2 with
      | here => simpa using a2
      | pre _ hp ih =>
        have := a3 _ ih
        rw [hp] at this
        simpa using this
    rcases (a4 q hq).2 k hk with h | h
    · rw [c3] at h; cases h
    · exact h (by unfold layerCells cellsOf; rcases c4 with c4 | c4 <;> rw [c4] <;> simp [c5])
  · exact (a4 q hq).1 (mem_workCells hw)

theorem joined_frozen_check : (okAnd (joinedPair world2) fun p w =>
    (okAnd (NetM.setTrainable p.1 false w) fun _ w => safeFrom w p.2.1 [3, 2, 1, 0] 1 && (layerCells w 1).length == 2 &&
      okAnd (NetM.trainOne p.2.1 0 1 1 0 w) fun _ w' => pairWeights w' == [[3], [2], [-85], [-14]]) &&
    okAnd (NetM.setTrainable p.2.1 false w) fun _ w => safeFrom w p.2.2 [3, 2, 1, 0] 3 && (layerCells w 3).length == 2 &&
      okAnd (NetM.trainOne p.2.2 0 1 1 0 w) fun _ w' => pairWeights w' == [[-647], [-128], [5], [4]]) = true := by
  decide +kernel

/-- C73, the part that is proved: On the same models, after `SetTrainable(false)` of one part no training of the other part, or of the joined
model, whatever its arguments and however often, changes the frozen part.  The other part does learn. -/
theorem C73_frozen_partial : ∃ g d m w, joinedPair world2 = .ok (g, d, m) w ∧
    (∃ w1, NetM.setTrainable g false w = .ok () w1 ∧ layerCells w1 1 ≠ [] ∧ (∀ b, AnyTrains d w1 b → ∀ q ∈ layerCells w1 1, b.store.heap.val q = w1.store.heap.val q) ∧
      ∃ l w2, NetM.trainOne d 0 1 1 0 w1 = .ok l w2 ∧ pairWeights w2 = [[3], [2], [-85], [-14]]) ∧
    ∃ w1, NetM.setTrainable d false w = .ok () w1 ∧ layerCells w1 3 ≠ [] ∧ (∀ b, AnyTrains m w1 b → ∀ q ∈ layerCells w1 3, b.store.heap.val q = w1.store.heap.val q) ∧
      ∃ l w2, NetM.trainOne m 0 1 1 0 w1 = .ok l w2 ∧ pairWeights w2 = [[-647], [-128], [5], [4]] := by
  obtain ⟨⟨g, d, m⟩, w, e, h⟩ := okAnd_ok joined_frozen_check
  rw [Bool.and_eq_true] at h
  obtain ⟨h1, h2⟩ := h
  obtain ⟨_, w1, e1, h1⟩ := okAnd_ok h1
  obtain ⟨_, w2, e2, h2⟩ := okAnd_ok h2
  rw [Bool.and_eq_true, Bool.and_eq_true] at h1 h2
  obtain ⟨⟨a1, a2⟩, a3⟩ := h1
  obtain ⟨⟨b1, b2⟩, b3⟩ := h2
  obtain ⟨l1, w3, e3, a3⟩ := okAnd_ok a3
  obtain ⟨l2, w4, e4, b3⟩ := okAnd_ok b3
  simp only [beq_iff_eq] at a2 a3 b2 b3
  refine ⟨g, d, m, w, e, ⟨w1, e1, ?_, fun b hb => safeFrom_kept a1 hb, l1, w3, e3, a3⟩, w2, e2, ?_, fun b hb => safeFrom_kept b1 hb, l2, w4, e4, b3⟩
  · intro h0; rw [h0] at a2; cases a2
  · intro h0; rw [h0] at b2; cases b2

end Godeep.Props
