import Verif.Props.Structure
/-
  C95: shapes of tensors.
-/
set_option linter.unusedSectionVars false

namespace Godeep.Props
open Godeep Spec GoNum

variable {T : Type} [GoNum T] [Bin T]

/-- the call returns a tensor that has its elements from the start -/
def hasElements : Act T → Prop
  | .zeros _ | .ones _ | .fromValues _ _ | .rand _ | .copy _ | .predict _ _ | .now _ _ => True
  | _ => False

theorem atOnce_leaf {g : Own.G T} (hi : Own.Inv g) {c : Act T} (hc : hasElements c) {t : Nat} {w1 : World T} (h : c.run g.w = .ok (.tensor t) w1) :
    t < w1.nodeNext ∧ (w1.store.nodes t).kind = .leaf := by
  have made : c.makes → t < w1.nodeNext ∧ (w1.store.nodes t).kind = .leaf := fun hm => by
    have H := Own.make_act (A := fun _ => True) (B := ⟨fun _ => True, True, True⟩) 0 hm hi
    rw [h] at H
    obtain ⟨g2, rfl, _, _, n, h3, h4⟩ := H
    cases h3
    exact ⟨h4.lt, h4.leaf⟩
  cases c with
  | now v c =>
    have e : (Act.now v c).run g.w = Out.bind (Out.bind (Run.heap (c.mat v fun n => (g.w.store.nodes n).mat) g.w) fun m => Run.newNode ⟨.leaf, m, false⟩) fun n => fun w => .ok (Ret.tensor n) w := rfl
    rw [e] at h
    cases e1 : Run.heap (c.mat v fun n => (g.w.store.nodes n).mat) g.w with
    | ok m w2 =>
      rw [e1] at h
      cases h
      exact ⟨Nat.lt_succ_self _, by show (if _ = _ then _ else _ : Node T).kind = _; rw [if_pos rfl]⟩
    | err x w2 => rw [e1] at h; cases h
    | panic => rw [e1] at h; cases h
  | zeros | ones | fromValues | rand | copy | predict => exact made trivial
  | _ => exact hc.elim

/-- C95: Let a call in a reachable state return a tensor of zeros, of ones, of given or of random values, a copy, a prediction, or the result of
any method that computes at once.  Whatever calls the program makes later, the tensor has the shape that it had when it was returned, and
its elements are the same numbers on their own in the same order: calls can assign to them, no call replaces them. -/
theorem C95_shape_stays {e e' : Env} {w w1 w' : World T} (hr : Reached e w) (c : Act T) (hu : c.uses e) (hm : hasElements c) (t : Nat) (hc : c.run w = .ok (.tensor t) w1)
    (h : Calls (fun _ _ => True) (e.add (.tensor t)) w1 e' w') :
    (w'.store.nodes t).mat.shape = (w1.store.nodes t).mat.shape ∧ (w'.store.nodes t).mat.ops = (w1.store.nodes t).mat.ops := by
  have hr1 : Reached (e.add (.tensor t)) w1 := by
    obtain ⟨rnd, hr⟩ := hr
    exact ⟨rnd, .ok hr hu trivial hc⟩
  have h0 : t < w1.nodeNext ∧ (w1.store.nodes t).kind = .leaf := by
    obtain ⟨g, rfl, hi, _⟩ := Own.reached_inv hr
    exact atOnce_leaf hi hm hc
  have one : ∀ {g g2 : Own.G T} {c : Act T}, Own.Le (fun l => c.mayChange g.w l) ⟨fun _ => False, Own.links c, Own.marks c⟩ g g2 →
      (t < g.w.nodeNext ∧ (g.w.store.nodes t).kind = .leaf ∧ (g.w.store.nodes t).mat = (w1.store.nodes t).mat) →
      t < g2.w.nodeNext ∧ (g2.w.store.nodes t).kind = .leaf ∧ (g2.w.store.nodes t).mat = (w1.store.nodes t).mat := fun l h =>
    ⟨lt_of_lt_of_le h.1 l.node, (l.kind t h.1).trans h.2.1, (l.leaf t h.1 h.2.1).trans h.2.2⟩
  have key : t < w'.nodeNext ∧ (w'.store.nodes t).kind = .leaf ∧ (w'.store.nodes t).mat = (w1.store.nodes t).mat := by
    clear hc
    induction h with
    | refl => exact ⟨h0.1, h0.2, rfl⟩
    | ok hs hu' _ hrun ih =>
      have h1 := ih hr1 h0 one
      obtain ⟨g, rfl, hi, he⟩ := Own.reached_inv (reached_calls hr1 hs)
      have H := Own.own_act _ hu' he hi
      rw [hrun] at H
      obtain ⟨g2, rfl, _, l2, _⟩ := H
      exact one l2 h1
    | err hs hu' _ hrun ih =>
      have h1 := ih hr1 h0 one
      obtain ⟨g, rfl, hi, he⟩ := Own.reached_inv (reached_calls hr1 hs)
      have H := Own.own_act _ hu' he hi
      rw [hrun] at H
      obtain ⟨g2, rfl, _, l2⟩ := H
      exact one l2 h1
  rw [key.2.2]
  exact ⟨rfl, rfl⟩

/-- C95, the result: so the number of elements is the same too, and the shape that a program sees. -/
theorem C95_numbers {e e' : Env} {w w1 w' : World T} (hr : Reached e w) (c : Act T) (hu : c.uses e) (hm : hasElements c) (t : Nat) (hc : c.run w = .ok (.tensor t) w1)
    (h : Calls (fun _ _ => True) (e.add (.tensor t)) w1 e' w') {s s' : List Nat} {v v' : List T} (h1 : numbers w1 (some t) = some (s, v)) (h2 : numbers w' (some t) = some (s', v')) :
    s' = s ∧ v'.length = v.length := by
  obtain ⟨a, b⟩ := C95_shape_stays hr c hu hm t hc h
  cases h1
  cases h2
  exact ⟨a, by rw [List.length_map, List.length_map, b]⟩

theorem shapes_check : (match (Act.now 0 (.reshape 0 [1, 3]) : Act (BitVec 16)).run ((follow [.fromValues [1, 2, 3] [3]] (({}, start fun _ _ => 0) : Env × World (BitVec 16))).getD ({}, start fun _ _ => 0)).2 with
    | .ok (.tensor t) w1 => t == 1 &&
      match (Act.set 1 9 [0, 1] : Act (BitVec 16)).run w1 with
      | .ok .nothing w' => numbers w1 (some 1) != numbers w' (some 1) && (w1.store.nodes 1).mat.shape == [1, 3]
      | _ => false
    | _ => false) = true ∧ (follow [.fromValues [1, 2, 3] [3]] (({}, start fun _ _ => 0) : Env × World (BitVec 16))).map (fun s => s.1.tensors) = some [0] := by
  decide +kernel

/-- C95 is not empty: a tensor is reshaped at once, and an element of the result is assigned to. -/
theorem C95_example : ∃ (e e' : Env) (w w1 w' : World (BitVec 16)) (c : Act (BitVec 16)) (t : Nat), Reached e w ∧ c.uses e ∧ hasElements c ∧ c.run w = .ok (.tensor t) w1 ∧
    Calls (fun _ _ => True) (e.add (.tensor t)) w1 e' w' ∧ (w1.store.nodes t).mat.shape = [1, 3] ∧ numbers w1 (some t) ≠ numbers w' (some t) := by
  obtain ⟨h, h0⟩ := shapes_check
  cases e0 : follow [.fromValues [1, 2, 3] [3]] (({}, start fun _ _ => 0) : Env × World (BitVec 16)) with
  | none => rw [e0] at h0; cases h0
  | some s =>
    obtain ⟨e, w⟩ := s
    have hr : Reached e w := ⟨_, follow_calls [.fromValues [1, 2, 3] [3]] ({}, start fun _ _ => 0) (e, w) e0 (followsB_iff _ _ (by decide +kernel))⟩
    rw [e0] at h h0
    have ht : e.tensors = [0] := by simpa using h0
    simp only [Option.getD_some] at h
    split at h
    · next t w1 r1 =>
      rw [Bool.and_eq_true, beq_iff_eq] at h
      obtain ⟨rfl, h⟩ := h
      split at h
      · next w' r2 =>
        simp only [Bool.and_eq_true, beq_iff_eq, bne_iff_ne] at h
        have hu : (Act.set 1 9 [0, 1] : Act (BitVec 16)).uses (e.add (.tensor 1)) := List.mem_cons_self
        refine ⟨e, _, w, w1, w', .now 0 (.reshape 0 [1, 3]), 1, hr, ?_, trivial, r1, .ok (.refl _ _) hu trivial r2, h.2, h.1⟩
        intro t ht'
        rw [List.mem_singleton.1 ht', ht]
        exact List.mem_singleton.2 rfl
      · cases h
    · cases h

end Godeep.Props
