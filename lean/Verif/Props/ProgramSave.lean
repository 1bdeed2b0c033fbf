import Verif.Props.Program
import Verif.Props.SaveLoad
/-
  C48 and C89 in all programs: the elements of weights, and saving and loading in any states that programs reach.
-/
set_option linter.unusedSectionVars false

namespace Godeep.Props
open Godeep Spec GoNum

variable {T : Type} [GoNum T] [Bin T]

/-- C89, within a layer: In any state that a program can reach, weights and bias have as many elements as their shapes say,
all of them different, and no element of the weights of a layer is an element of its bias. -/
theorem C89_elements {e : Env} {w : World T} (hr : Reached e w) (l : Nat) :
    (∀ n, (w.layers l).weights = some n ∨ (w.layers l).bias = some n →
      (w.store.nodes n).mat.ops.Nodup ∧ (w.store.nodes n).mat.ops.length = size (w.store.nodes n).mat.shape) ∧
    ∀ n k, (w.layers l).weights = some n → (w.layers l).bias = some k → ∀ p ∈ (w.store.nodes n).mat.ops, p ∉ (w.store.nodes k).mat.ops := by
  obtain ⟨g, rfl, hi, _⟩ := Own.reached_inv hr
  refine ⟨fun n hn => ?_, (hi.neat l).apart⟩
  have h := (hi.neat l).solid n hn
  exact ⟨h.nodup, by rw [h.len, dataSize_eq]⟩

/-- the tensors of a layer are its weights and its bias -/
theorem own_mem {w : World T} {k : Nat} {a : Mat} (h : a ∈ ownTensors w k) :
    ∃ n, ((w.layers k).weights = some n ∨ (w.layers k).bias = some n) ∧ a = (w.store.nodes n).mat := by
  unfold ownTensors at h
  split at h
  · cases h
  · obtain ⟨n, hn, rfl⟩ := List.mem_map.1 h
    refine ⟨n, ?_, rfl⟩
    rcases List.mem_append.1 hn with h | h
    · exact .inl (Option.mem_toList.1 h)
    · exact .inr (Option.mem_toList.1 h)

theorem distinct_reached_all {e : Env} {w : World T} (hr : Reached e w) {j k : Nat} (hjk : j ≠ k) {a b : Mat} (ha : a ∈ ownTensors w k) (hb : b ∈ ownTensors w j)
    {q : Ptr} (hq : q ∈ a.ops) : q ∉ b.ops := by
  obtain ⟨n, hn, rfl⟩ := own_mem ha
  obtain ⟨n', hn', rfl⟩ := own_mem hb
  exact fun hc => (C89_separate hr j n' hn').2.2 k n (Ne.symm hjk) hn q hq hc

/-- in reachable states no two weights are the same scalar -/
theorem distinct_reached {e : Env} {w : World T} (hr : Reached e w) (l : Nat) : Distinct w l := by
  refine ⟨fun k _ => ?_, fun j k _ _ hjk a ha b hb q hq hc => ?_⟩
  · obtain ⟨h1, h2⟩ := C89_elements hr k
    unfold ownTensors
    split
    · exact List.nodup_nil
    · cases ew : (w.layers k).weights with
      | none =>
        cases eb : (w.layers k).bias with
        | none => exact List.nodup_nil
        | some b =>
          simpa using (h1 b (.inr eb)).1
      | some a =>
        cases eb : (w.layers k).bias with
        | none => simpa using (h1 a (.inl ew)).1
        | some b =>
          simp only [Option.toList_some, List.cons_append, List.nil_append, List.map_cons, List.map_nil, List.flatMap_cons, List.flatMap_nil, List.append_nil]
          rw [List.nodup_append]
          exact ⟨(h1 a (.inl ew)).1, (h1 b (.inr eb)).1, fun p hp q hq e => h2 a b ew eb p hp (e ▸ hq)⟩
  · obtain ⟨n, hn, rfl⟩ := own_mem ha
    obtain ⟨n', hn', rfl⟩ := own_mem hb
    exact (C89_separate hr k n' hn').2.2 j n hjk hn q hq hc

/-- the tensor with the shape and the values of `a` -/
def valueOf (w : World T) (a : Mat) : STensor T := STensor.ofValues (a.ops.map w.store.heap.val) a.shape

theorem holds_reached {e : Env} {w : World T} (hr : Reached e w) {k : Nat} {a : Mat} (ha : a ∈ ownTensors w k) : Holds w.store.heap a (valueOf w a) := by
  obtain ⟨n, hn, rfl⟩ := own_mem ha
  obtain ⟨g, rfl, hi, _⟩ := Own.reached_inv hr
  have hs := (hi.neat k).solid n hn
  refine holds_of_flat rfl hs.mul (fun p hp => ?_) ?_
  · have := (hi.wts k n hn).ops p hp
    refine ⟨Nat.pos_of_ne_zero fun e => ?_, this.1⟩
    rw [e, hi.zero] at this
    cases this.2
  · have hl : (g.w.store.nodes n).mat.ops.length = size (g.w.store.nodes n).mat.shape := by rw [hs.len, dataSize_eq]
    rw [valueOf, ofValues_flat, ← hl]
    apply List.ext_getElem
    · simp
    · intro i h1 h2
      simp only [List.length_map] at h1
      simp [h1]

theorem weightsOf_eq {w w' : World T} {k k' : Nat} (h : List.Forall₂ (Holds w'.store.heap) (ownTensors w' k') ((ownTensors w k).map (valueOf w)))
    (h' : ∀ a ∈ ownTensors w k, Holds w.store.heap a (valueOf w a)) : weightsOf w' k' = weightsOf w k := by
  unfold weightsOf
  generalize ownTensors w' k' = l' at h
  revert h h'
  generalize ownTensors w k = l
  induction l' generalizing l with
  | nil => intro _ h; cases l with
    | nil => rfl
    | cons => cases h
  | cons b l' ih => intro h' h; cases l with
    | nil => cases h
    | cons a l =>
      rw [List.map_cons] at h
      obtain ⟨h1, h2⟩ := List.forall₂_cons.1 h
      rw [List.map_cons, List.map_cons, ih l (fun a ha => h' a (List.mem_cons_of_mem _ ha)) h2, h1.shape, holds_flat h1, holds_flat (h' a List.mem_cons_self)]
      rfl

/-- C48 in all programs: A program reaches a state, and saves a model whose layers are connected in any way without loops.  The same
program later, or another program, reaches another state, and loads the bytes into a model with the same connections and
the same shapes of weights.  Then both calls succeed, the reader is left just after these bytes, and all weights and biases
are those of the saved model; other layers, and all numbers that are not weights of the loaded model, are as before. -/
theorem C48_programs (hf : Bin.fixed T = true) {e : Env} {w : World T} (hr : Reached e w) {m l : Nat} (hl : (w.nets m).last = some l) (hac : Acyclic w l)
    (hs : SavedIs false w l) {e2 : Env} {w2 : World T} (hr2 : Reached e2 w2) {m2 l2 : Nat} (hl2 : (w2.nets m2).last = some l2) (hac2 : Acyclic w2 l2)
    (hs2 : LoadedIs false w2 l2) {f : Nat → Nat} (hsame : SameNet f w l w2 l2)
    (hsh : ∀ k, Feeds w l k → (weightsOf w2 (f k)).map Prod.fst = (weightsOf w k).map Prod.fst) :
    ∃ (bytes : List Byte) (w' : World T), NetM.save m (w, ⟨[], none⟩) = .ok () (w', ⟨bytes, none⟩) ∧ ∀ rest, ∃ w3,
      NetM.load m2 (w2, bytes ++ rest) = .ok () (w3, rest) ∧ (∀ k, Feeds w l k → weightsOf w3 (f k) = weightsOf w k) ∧
      (∀ k, ¬ Feeds w2 l2 k → w3.layers k = w2.layers k ∧ weightsOf w3 k = weightsOf w2 k) ∧
      (∀ t, t ∈ e2.tensors → numbers w3 (some t) = numbers w2 (some t)) ∧
      ∀ q, (∀ k, Feeds w2 l2 k → ∀ a ∈ ownTensors w2 k, q ∉ a.ops) → w3.store.heap.val q = w2.store.heap.val q := by
  obtain ⟨bytes, w', h1, h2⟩ := C48_round_trip hf hl hac hs (P := fun k => (ownTensors w k).map (valueOf w)) (fun k _ => by
      have : ∀ L : List Mat, (∀ a ∈ L, Holds w.store.heap a (valueOf w a)) → List.Forall₂ (Holds w.store.heap) L (L.map (valueOf w)) := by
        intro L
        induction L with
        | nil => exact fun _ => .nil
        | cons a L ih => exact fun h => .cons (h a List.mem_cons_self) (ih fun a ha => h a (List.mem_cons_of_mem _ ha))
      exact this _ fun a ha => holds_reached hr ha) hl2 hac2 hs2 (distinct_reached hr2 l2) hsame
    (Q := fun k => (ownTensors w2 (f k)).map (valueOf w2)) (fun k hk => ⟨by
      have : ∀ L : List Mat, (∀ a ∈ L, Holds w2.store.heap a (valueOf w2 a)) → List.Forall₂ (Holds w2.store.heap) L (L.map (valueOf w2)) := by
        intro L
        induction L with
        | nil => exact fun _ => .nil
        | cons a L ih => exact fun h => .cons (h a List.mem_cons_self) (ih fun a ha => h a (List.mem_cons_of_mem _ ha))
      exact this _ fun a ha => holds_reached hr2 ha, by
      have := hsh k hk
      simp only [weightsOf, List.map_map] at this ⊢
      exact this⟩)
  refine ⟨bytes, w', h1, fun rest => ?_⟩
  obtain ⟨w3, e3, h3, h4, h5, h6, h7⟩ := h2 rest
  have hn : w3.store.nodes = w2.store.nodes := congrArg (fun w => w.store.nodes) h7
  refine ⟨w3, e3, fun k hk => weightsOf_eq (h3 k hk) fun a ha => holds_reached hr ha, fun k hk => ⟨h5 k hk, ?_⟩, fun t ht => ?_, h6⟩
  · unfold weightsOf
    have eo : ownTensors w3 k = ownTensors w2 k := by unfold ownTensors; rw [h5 k hk, hn]
    rw [eo]
    refine List.map_congr_left fun a ha => ?_
    refine congrArg _ (List.map_congr_left fun p hp => h6 p fun j hj b hb hc => ?_)
    exact distinct_reached_all hr2 (j := j) (k := k) (fun e => hk (e ▸ hj)) ha hb hp hc
  · unfold numbers
    rw [Option.map_some, Option.map_some, hn]
    refine congrArg some (congrArg _ (List.map_congr_left fun p hp => h6 p fun j _ b hb hc => ?_))
    obtain ⟨n, hn, rfl⟩ := own_mem hb
    exact (C89_separate hr2 j n hn).1 t ht p hp hc

/-! ### a case -/

/-- A program: two dense layers (1, 2) that read the same input layer (0), and their outputs joined (3). -/
def forked : List (Act (BitVec 16)) :=
  [.input [1], .dense 1 .linear, .dense 2 .linear, .connect 1 0, .connect 2 0, .concatLayer 1 2 0, .fromInOut 0 3, .compile 0]

/-- the state after it, when the random numbers start with `k` -/
def forkedAt (k : Nat) : Option (Env × World (BitVec 16)) := follow forked ({}, start fun a i => BitVec.ofNat 16 (k + a + i))

/-- what is used of the state -/
def forkedOk (w : World (BitVec 16)) : Bool :=
  (w.nets 0).last == some 3 && w.layerNext == 4 && (List.range 4).map (parents w) == [[], [0], [0], [1, 2]] &&
    (List.range 4).all fun l => (w.layers l).saved == false && (w.layers l).loaded == false

theorem forked_feeds {w : World (BitVec 16)} (h : (List.range 4).map (parents w) = [[], [0], [0], [1, 2]]) {l k : Nat} (hk : Feeds w l k) (hl : l < 4) :
    k < 4 ∧ ∀ p ∈ parents w k, p < k := by
  have hp : ∀ l, l < 4 → ∀ p ∈ parents w l, p < l := by
    simp only [List.range, List.range.loop, List.map_cons, List.map_nil, List.cons.injEq, and_true] at h
    obtain ⟨h0, h1, h2, h3⟩ := h
    intro l hl
    match l, hl with
    | 0, _ => rw [h0]; simp
    | 1, _ => rw [h1]; simp
    | 2, _ => rw [h2]; simp
    | 3, _ => rw [h3]; simp
  induction hk with
  | refl l => exact ⟨hl, hp l hl⟩
  | step h1 _ ih => exact ih (lt_trans (hp _ hl _ h1) hl)

theorem forked_ok {w : World (BitVec 16)} (h : forkedOk w = true) : (w.nets 0).last = some 3 ∧ (List.range 4).map (parents w) = [[], [0], [0], [1, 2]] ∧ Acyclic w 3 ∧
    SavedIs false w 3 ∧ LoadedIs false w 3 := by
  simp only [forkedOk, Bool.and_eq_true, beq_iff_eq, List.all_eq_true, List.mem_range] at h
  obtain ⟨⟨⟨h1, h2⟩, h3⟩, h4⟩ := h
  exact ⟨h1, h3, ⟨id, by rw [h2]; decide, fun k hk => (forked_feeds h3 hk (by decide)).2⟩, fun k hk => (h4 k (forked_feeds h3 hk (by decide)).1).1,
    fun k hk => (h4 k (forked_feeds h3 hk (by decide)).1).2⟩

theorem forked_check : (match forkedAt 2, forkedAt 7 with
    | some (_, w), some (_, w2) => forkedOk w && forkedOk w2 && ((List.range 4).all fun k => (weightsOf w2 k).map Prod.fst == (weightsOf w k).map Prod.fst) &&
        weightsOf w2 1 != weightsOf w 1 && weightsOf w2 2 != weightsOf w 2 && weightsOf w 2 != []
    | _, _ => false) = true ∧ followsB forked ({}, start fun a i => BitVec.ofNat 16 (2 + a + i)) = true ∧
      followsB forked ({}, start fun a i => BitVec.ofNat 16 (7 + a + i)) = true := by
  decide +kernel

/-- `C48_programs` is not empty: two states, reached with different random numbers, with branched models that have different
weights. -/
theorem C48_example : ∃ (e e2 : Env) (w w2 : World (BitVec 16)), Reached e w ∧ Reached e2 w2 ∧ (w.nets 0).last = some 3 ∧ Acyclic w 3 ∧ SavedIs false w 3 ∧
    (w2.nets 0).last = some 3 ∧ Acyclic w2 3 ∧ LoadedIs false w2 3 ∧ SameNet id w 3 w2 3 ∧
    (∀ k, Feeds w 3 k → (weightsOf w2 (id k)).map Prod.fst = (weightsOf w k).map Prod.fst) ∧ Feeds w 3 1 ∧ Feeds w 3 2 ∧
    weightsOf w2 1 ≠ weightsOf w 1 ∧ weightsOf w2 2 ≠ weightsOf w 2 := by
  obtain ⟨h, f1, f2⟩ := forked_check
  cases e0 : forkedAt 2 with
  | none => rw [e0] at h; cases h
  | some s =>
    cases e1 : forkedAt 7 with
    | none => rw [e0, e1] at h; cases h
    | some s' =>
      obtain ⟨e, w⟩ := s
      obtain ⟨e', w'⟩ := s'
      rw [e0, e1] at h
      dsimp only at h
      simp only [Bool.and_eq_true, List.all_eq_true, List.mem_range, beq_iff_eq, bne_iff_ne] at h
      obtain ⟨⟨⟨⟨⟨h1, h2⟩, h3⟩, h4⟩, h5⟩, _⟩ := h
      obtain ⟨a1, a2, a3, a4, _⟩ := forked_ok h1
      obtain ⟨b1, b2, b3, _, b5⟩ := forked_ok h2
      have hp : ∀ k, k < 4 → parents w' k = parents w k := fun k hk => by
        have := congrArg (fun l => l[k]?) (b2.trans a2.symm)
        simpa [hk] using this
      have p3 : parents w 3 = [1, 2] := by
        have := congrArg (fun l => l[3]?) a2
        simpa using this
      exact ⟨e, e', w, w', ⟨_, follow_calls forked _ (e, w) e0 (followsB_iff _ _ f1)⟩, ⟨_, follow_calls forked _ (e', w') e1 (followsB_iff _ _ f2)⟩, a1, a3, a4, b1, b3, b5,
        ⟨rfl, fun _ _ _ _ h => h, fun k hk => by rw [List.map_id]; exact hp k (forked_feeds a2 hk (by decide)).1⟩,
        fun k hk => h3 k (forked_feeds a2 hk (by decide)).1, .step (p := 1) (by rw [p3]; simp) (.refl 1), .step (p := 2) (by rw [p3]; simp) (.refl 2), h4, h5⟩

end Godeep.Props
