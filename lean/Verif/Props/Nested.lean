import Verif.Lemmas.LStack
import Verif.Props.Predict
import Verif.Props.TrainKinds
import Verif.Props.JoinedPredict
/-
  C86, C87: models made of blocks, that is of models that have been pushed to them, and of input layers behind other layers.
-/
set_option linter.unusedSectionVars false

namespace Godeep.Props
open Godeep Spec GoNum

variable {T : Type} [GoNum T]

/-- C86, the part that is proved: A program makes a model of an input layer, other layers and blocks, to any depth and in any number, none of them
empty; blocks may have input layers of their own.  Another program makes a model of the same layers without blocks.  From then on both models behave alike: whatever methods but `SetTrainable` are
called, with whatever arguments and in whatever order, and whatever tensors are made or changed in between, all calls have the same results, errors and
panics, and leave the same weights and tensors.  (Missing: `SetTrainable`, see the following theorems.) -/
theorem C86_blocks_partial [Bin T] (shape : List Nat) {ps : Parts T} (hf : ps.Full) {w0 : World T} (hpos : 0 < w0.store.heap.next) {L0 : Links}
    (hL : ∀ k, w0.netNext ≤ k → L0.first k = none) :
    ∃ m w1 w L, stacked shape ps.layers w0 = .ok m w1 ∧ nested shape ps (w0, L0) = .ok m (w, L) ∧ Same m w1 w ∧
      ∀ cs : List (Method T), (runMethods m cs w).map (·.1) = (runMethods m cs w1).map (·.1) ∧
        ∀ r v v', runMethods m cs w1 = some (r, v) → runMethods m cs w = some (r, v') → Same m v v' := by
  obtain ⟨m, w1, e, _⟩ := wp_total (stacked_ok shape ps.layers hpos)
  obtain ⟨w, L, e', S, _⟩ := nested_ok hf hL e
  refine ⟨m, w1, w, L, e, e', S, fun cs => ?_⟩
  have H := sameSeen_calls m cs S
  cases h1 : runMethods m cs w1 with
  | none =>
    cases h2 : runMethods m cs w with
    | none => exact ⟨rfl, fun _ _ _ h => by cases h⟩
    | some _ => rw [h1, h2] at H; exact H.elim
  | some x =>
    cases h2 : runMethods m cs w with
    | none => rw [h1, h2] at H; exact H.elim
    | some y =>
      rw [h1, h2] at H
      refine ⟨by show some y.1 = some x.1; rw [H.1], fun r v v' h3 h4 => ?_⟩
      cases h3
      cases h4
      exact H.2

theorem same_steps {w0 w1 w1' a b : World T} {m : Nat} (h : Same m w1 w1') (hs : Steps w0 w1' m a b) : Steps w0 w1 m a b := by
  have ho : ∀ q, Outside w0 w1' q → Outside w0 w1 q := fun q hq => by unfold Outside at hq ⊢; rw [← h.store]; exact hq
  have ho' : ∀ q, ¬ Outside w0 w1' q → ¬ Outside w0 w1 q := fun q hq hc => hq (by unfold Outside at hc ⊢; rw [h.store]; exact hc)
  have ho'' : ∀ q, ¬ Outside w0 w1 q → ¬ Outside w0 w1' q := fun q hq hc => hq (ho q hc)
  have hu : ∀ {c : World T} {t : Nat} {x : STensor T}, UserTensor w0 w1' c t x → UserTensor w0 w1 c t x := fun hu =>
    ⟨hu.1, hu.2.1, fun q hq => ho q (hu.2.2 q hq)⟩
  induction hs with
  | none => exact .none
  | more _ h2 ih =>
    refine .more ih ?_
    cases h2 with
    | use u =>
      refine .use ?_
      cases u with
      | predict h1 h2 => exact .predict (hu h1) h2
      | save h => exact .save h
      | load h => exact .load h
      | resetSave h => exact .resetSave h
      | resetLoad h => exact .resetLoad h
      | setTrainable h => exact .setTrainable h
      | weights h1 h2 h3 h4 => exact .weights h1 h2 h3 h4
    | elsewhere h1 h2 h3 h4 h5 h6 h7 h8 =>
      exact .elsewhere h1 h2 h3 (fun n hn => h4 n (by rw [h.nodeNext]; exact hn)) (fun n hn => h5 n (by rw [h.nodeNext]; exact hn))
        (fun l hl1 hl2 => h6 l hl1 (by rw [h.layerNext]; exact hl2)) h7 fun q hq => h8 q (ho'' q hq)

/-- C87, the part that is proved: A program makes a model of layers that fit together, and has put input layers with any shapes anywhere between them (as a
block with its own input layer does).  The model compiles, and in any later state `Predict` returns what it would return without the input layers but the
first: the composition of the functions of the other layers.  It does return if no layer has to divide integers or to take a sum or maximum of nothing.
(`hlaw`: one plus one plus ... is not zero, for as many references as a layer can have; the code counts in the type of the model.
Missing: training, see `C87_trains_half`.) -/
theorem C87_inputs_partial {shape : List Nat} {qs : List (Piece T)} (hlaw : ∀ n ≤ inputs qs, eq (ones n) (zero : T) = false)
    (hfit : Fits (hiddens qs) shape) {w0 : World T} (hpos : 0 < w0.store.heap.next) :
    ∃ m w w1, stacked shape qs w0 = .ok m w ∧ NetM.compile m w = .ok () w1 ∧
    (∀ n x, n < w0.nodeNext → Spec.frozen w0.store n → Holds w0.store.heap (w0.store.nodes n).mat x → UserTensor w0 w1 w1 n x) ∧
    ∀ w2, Steps w0 w1 m w1 w2 →
      (∃ pv, HasParams w2 m pv) ∧ ∀ pv, HasParams w2 m pv → pv.map (fun p => p.map STensor.shape) = stackShapes qs shape ∧
        ∀ t x, UserTensor w0 w1 w2 t x → x.shape = shape →
          (∀ r w3, NetM.predict m t w2 = .ok r w3 → UserTensor w0 w1 w3 r (stackFn qs pv x) ∧ HasParams w3 m pv ∧ r = w2.nodeNext ∧
            ∀ n y, UserTensor w0 w1 w2 n y → UserTensor w0 w1 w3 n y) ∧
          (Safe (hiddens qs) shape → ∃ r w3, NetM.predict m t w2 = .ok r w3) := by
  obtain ⟨m, w, e, W⟩ := wp_total (stacked_run hlaw hpos ffGood_all hfit)
  obtain ⟨_, w1, e1, d, M⟩ := wp_total W
  refine ⟨m, w, w1, e, e1, fun n x h1 h2 h3 => user_made M h1 h2 h3, fun w2 hst => ?_⟩
  have L := live_steps M hst
  obtain ⟨pv0, h0, _⟩ := L.someParams M
  refine ⟨⟨pv0, h0⟩, fun pv hp => ?_⟩
  obtain ⟨hl, hsh⟩ := L.shapes M hp
  refine ⟨pshapes_stack hl hsh, fun t x hu hs => ?_⟩
  have K := live_predict M L hu hs
  refine ⟨fun r w3 he => ?_, fun hsafe => ?_⟩
  · obtain ⟨P, _⟩ := wp_ok K he
    have hr := P.result M L hp
    subst hs
    rw [stackFn_eq (by rw [hl, standIn_length]) hsh] at hr
    exact ⟨hr, P.params M L hp, P.fresh.1, fun n y hn => P.user M hn⟩
  · have K' : wp True (NetM.predict m t) (fun _ _ => True) w2 := by
      unfold wp at K ⊢
      cases e : NetM.predict m t w2 with
      | ok _ _ => trivial
      | err _ _ => rw [e] at K; exact (K (standIn_safe hsafe)).elim
      | panic => rw [e] at K; exact (K (standIn_safe hsafe)).elim
    obtain ⟨r, w3, e3, _⟩ := wp_total K'
    exact ⟨r, w3, e3⟩

/-- C86 for predictions: A model made of blocks whose layers fit together compiles, and in any later state `Predict` returns the composition of the
functions of all its layers, those of the blocks included, in the order in which they have been pushed.  Blocks may have input layers of their own; those
do nothing. -/
theorem C86_predict {shape : List Nat} {ps : Parts T} (hlaw : ∀ n ≤ inputs ps.layers, eq (ones n) (zero : T) = false) (hf : ps.Full)
    (hfit : Fits (hiddens ps.layers) shape) {w0 : World T} (hpos : 0 < w0.store.heap.next) {L0 : Links} (hL : ∀ k, w0.netNext ≤ k → L0.first k = none) :
    ∃ m w L w1, nested shape ps (w0, L0) = .ok m (w, L) ∧ NetM.compile m w = .ok () w1 ∧
    (∀ n x, n < w0.nodeNext → Spec.frozen w0.store n → Holds w0.store.heap (w0.store.nodes n).mat x → UserTensor w0 w1 w1 n x) ∧
    ∀ w2, Steps w0 w1 m w1 w2 →
      (∃ pv, HasParams w2 m pv) ∧ ∀ pv, HasParams w2 m pv → pv.map (fun p => p.map STensor.shape) = stackShapes ps.layers shape ∧
        ∀ t x, UserTensor w0 w1 w2 t x → x.shape = shape →
          (∀ r w3, NetM.predict m t w2 = .ok r w3 → UserTensor w0 w1 w3 r (stackFn ps.layers pv x) ∧ HasParams w3 m pv) ∧
          (Safe (hiddens ps.layers) shape → ∃ r w3, NetM.predict m t w2 = .ok r w3) := by
  obtain ⟨m, v, w1, e1, e3, hu0, H⟩ := C87_inputs_partial hlaw hfit hpos
  obtain ⟨w, L, e5, S, _⟩ := nested_ok hf hL e1
  have K := sees_compile (m := m) v w S
  rw [e3] at K
  cases e6 : NetM.compile m w with
  | err _ _ => rw [e6] at K; exact K.elim
  | panic => rw [e6] at K; exact K.elim
  | ok u w1' =>
    rw [e6] at K
    have S1 : Same m w1 w1' := K.2
    have hU : ∀ {c : World T} {t : Nat} {x : STensor T}, UserTensor w0 w1' c t x ↔ UserTensor w0 w1 c t x := fun {c t x} => by
      unfold UserTensor Outside
      rw [S1.store]
    refine ⟨m, w, L, w1', e5, e6, fun n x h1 h2 h3 => hU.2 ?_, fun w2 hs => ?_⟩
    · have := hu0 n x h1 h2 h3
      unfold UserTensor at this ⊢
      rw [S1.store, S1.nodeNext]
      exact this
    have st : Steps w0 w1 m w1 w1' := .more .none (.elsewhere (by rw [S1.store]) (by rw [S1.nodeNext]) (by rw [S1.layerNext]) (fun n _ => by rw [S1.store])
      (fun n _ hn => ⟨by rw [S1.store]; exact hn, by rw [S1.store]⟩) (fun l _ _ => by rw [S1.layers]) S1.net fun q _ => by rw [S1.store])
    have tr : ∀ {c : World T}, Steps w0 w1 m w1' c → Steps w0 w1 m w1 c := fun h => by
      induction h with
      | none => exact st
      | more _ h2 ih => exact .more ih h2
    obtain ⟨h1, h2⟩ := H w2 (tr (same_steps S1 hs))
    refine ⟨h1, fun pv hp => ⟨(h2 pv hp).1, fun t x hu hx => ?_⟩⟩
    obtain ⟨h3, h4⟩ := (h2 pv hp).2 t x (hU.1 hu) hx
    refine ⟨fun r w3 e7 => ?_, h4⟩
    obtain ⟨h5, h6, _⟩ := h3 r w3 e7
    exact ⟨hU.2 h5, h6⟩

/-- C86: What `SetTrainable` of a model made of blocks does, at any later time, as long as nothing is pushed to its blocks (the models other than `m` are
as they were): it sets exactly the layers that `Parts.reached` says, and changes nothing else.  Those are all layers outside blocks, and in a
block all layers but what has been pushed to it first. -/
theorem C86_frozen_exactly (shape : List Nat) {ps : Parts T} (hf : ps.Full) {w0 : World T} (hpos : 0 < w0.store.heap.next) {L0 : Links}
    (hL : ∀ k, w0.netNext ≤ k → L0.first k = none) :
    ∃ m w L, nested shape ps (w0, L0) = .ok m (w, L) ∧ (ps.reached false).length = ps.layers.length ∧
      ∀ (w2 : World T) (t : Bool) (n : Nat), w.netNext ≤ w2.netNext → w.layerNext ≤ w2.layerNext → (∀ k, k ≠ m → w2.nets k = w.nets k) →
        ps.depth + 1 < n → ∃ w3, Nested.setTrainable t n (.model m) (w2, L) = .ok () (w3, L) ∧
          (∀ i (hi : i < (ps.reached false).length), w3.layers (w0.layerNext + 1 + i) =
            { w2.layers (w0.layerNext + 1 + i) with
              trainable := if (ps.reached false)[i] then t else (w2.layers (w0.layerNext + 1 + i)).trainable }) ∧
          (∀ l, (l ≤ w0.layerNext ∨ w0.layerNext + 1 + ps.layers.length ≤ l) → w3.layers l = w2.layers l) ∧
          w3 = { w2 with layers := w3.layers } := by
  obtain ⟨m, w1, e, _⟩ := wp_total (stacked_ok shape ps.layers hpos)
  obtain ⟨w, L, e', S, _, hn, h1, C⟩ := nested_ok hf hL e
  refine ⟨m, w, L, e', reached_length _ _, fun w2 t n a1 a2 a3 a4 => ⟨_, setTrainable_nested t hf a4 h1 C a1 a3 (by rw [S.layerNext] at a2; omega), ?_, ?_, rfl⟩⟩
  · intro i hi
    show (if hits (w0.layerNext + 1) (ps.reached false) (w0.layerNext + 1 + i) then _ else _) = _
    have : hits (w0.layerNext + 1) (ps.reached false) (w0.layerNext + 1 + i) = (ps.reached false)[i] := by
      unfold hits
      rw [Nat.add_sub_cancel_left, List.getElem?_eq_getElem hi]
      simp
    rw [this]
    split <;> rfl
  · intro l hl
    show (if hits (w0.layerNext + 1) (ps.reached false) l then _ else _) = _
    have : hits (w0.layerNext + 1) (ps.reached false) l = false := by
      unfold hits
      rcases hl with hl | hl
      · have : ¬ w0.layerNext + 1 ≤ l := by omega
        simp [this]
      · rw [List.getElem?_eq_none (by rw [reached_length]; omega)]
        simp
    rw [this]
    rfl

/-- an input layer (layer 0) and a block of two dense layers (1 and 2) -/
def oneBlock : Parts Int := .block (.layer (.hidden (.dense 1 .linear)) (.layer (.hidden (.dense 1 .linear)) .nil)) .nil

/-- the weights and biases of the two dense layers -/
def blockWeights (w : World Int) : List (List Int) :=
  [valsOf w (w.layers 1).weights, valsOf w (w.layers 1).bias, valsOf w (w.layers 2).weights, valsOf w (w.layers 2).bias]

/-- C86 is false of `SetTrainable`: A model has a block of two dense layers and is frozen by `SetTrainable(false)`.  A training step then still changes the
weights and biases of the first layer of the block.  The same layers without the block stay as they are. -/
theorem C86_first_not_frozen :
    (∃ m s s1 w2 w3 r w4, nested [1] oneBlock (world2, Links.empty) = .ok m s ∧ Nested.setTrainable false 3 (.model m) s = .ok () s1 ∧
      NetM.compile m s1.1 = .ok () w2 ∧ NetM.compileBP m w2 = .ok () w3 ∧ blockWeights w3 = [[3], [2], [5], [4]] ∧
      NetM.trainOne m 0 1 1 0 w3 = .ok r w4 ∧ blockWeights w4 = [[-1947], [-388], [5], [4]]) ∧
    (∃ m s s1 w2 w3 r w4, stacked [1] oneBlock.layers world2 = .ok m s ∧ NetM.setTrainable m false s = .ok () s1 ∧
      NetM.compile m s1 = .ok () w2 ∧ NetM.compileBP m w2 = .ok () w3 ∧ blockWeights w3 = [[3], [2], [5], [4]] ∧
      NetM.trainOne m 0 1 1 0 w3 = .ok r w4 ∧ blockWeights w4 = [[3], [2], [5], [4]]) := by
  have h1 : (okAnd (nested [1] oneBlock (world2, Links.empty)) fun m s => okAnd (Nested.setTrainable false 3 (.model m) s) fun _ s1 =>
      okAnd (NetM.compile m s1.1) fun _ w2 => okAnd (NetM.compileBP m w2) fun _ w3 => blockWeights w3 == [[3], [2], [5], [4]] &&
        okAnd (NetM.trainOne m 0 1 1 0 w3) fun _ w4 => blockWeights w4 == [[-1947], [-388], [5], [4]]) = true := by
    decide +kernel
  have h2 : (okAnd (stacked [1] oneBlock.layers world2) fun m s => okAnd (NetM.setTrainable m false s) fun _ s1 =>
      okAnd (NetM.compile m s1) fun _ w2 => okAnd (NetM.compileBP m w2) fun _ w3 => blockWeights w3 == [[3], [2], [5], [4]] &&
        okAnd (NetM.trainOne m 0 1 1 0 w3) fun _ w4 => blockWeights w4 == [[3], [2], [5], [4]]) = true := by
    decide +kernel
  constructor
  · obtain ⟨m, s, e1, h1⟩ := okAnd_ok h1
    obtain ⟨_, s1, e2, h1⟩ := okAnd_ok h1
    obtain ⟨_, w2, e3, h1⟩ := okAnd_ok h1
    obtain ⟨_, w3, e4, h1⟩ := okAnd_ok h1
    rw [Bool.and_eq_true, beq_iff_eq] at h1
    obtain ⟨h1, h3⟩ := h1
    obtain ⟨r, w4, e5, h4⟩ := okAnd_ok h3
    exact ⟨m, s, s1, w2, w3, r, w4, e1, e2, e3, e4, h1, e5, by simpa using h4⟩
  · obtain ⟨m, s, e1, h1⟩ := okAnd_ok h2
    obtain ⟨_, s1, e2, h1⟩ := okAnd_ok h1
    obtain ⟨_, w2, e3, h1⟩ := okAnd_ok h1
    obtain ⟨_, w3, e4, h1⟩ := okAnd_ok h1
    rw [Bool.and_eq_true, beq_iff_eq] at h1
    obtain ⟨h1, h3⟩ := h1
    obtain ⟨r, w4, e5, h4⟩ := okAnd_ok h3
    exact ⟨m, s, s1, w2, w3, r, w4, e1, e2, e3, e4, h1, e5, by simpa using h4⟩

/-- an input layer (0), a dense layer (1), and a block of an input layer (2) and a dense layer (3) -/
def inputBlock : Parts Int := .layer (.hidden (.dense 1 .linear)) (.block (.layer (.input [1]) (.layer (.hidden (.dense 1 .linear)) .nil)) .nil)

/-- the weights and biases of two layers -/
def twoWeights (a b : Nat) (w : World Int) : List (List Int) :=
  [valsOf w (w.layers a).weights, valsOf w (w.layers a).bias, valsOf w (w.layers b).weights, valsOf w (w.layers b).bias]

/-- C87 is false of training: The first model consists of a dense layer and a block of an input layer and a dense layer, the second of the same dense layers,
with the same weights.  Both predict 89 = 5 * (3 * 5 + 2) + 4.  But in a training step the bias and the weight in front of the block move by 195 and 975 in
the first model, and by 390 and 1950 in the second. -/
theorem C87_trains_half :
    (∃ m s w2 w3 r w4, nested [1] inputBlock (world2, Links.empty) = .ok m s ∧
      NetM.compile m s.1 = .ok () w2 ∧ NetM.compileBP m w2 = .ok () w3 ∧ twoWeights 1 3 w3 = [[3], [2], [5], [4]] ∧
      (∃ p w', NetM.predict m 0 w3 = .ok p w' ∧ valsOf w' (some p) = [89]) ∧
      NetM.trainOne m 0 1 1 0 w3 = .ok r w4 ∧ twoWeights 1 3 w4 = [[3 - 975], [2 - 195], [-1321], [-74]]) ∧
    (∃ m s w2 w3 r w4, sequential [1] [.dense 1 .linear, .dense 1 .linear] world2 = .ok m s ∧
      NetM.compile m s = .ok () w2 ∧ NetM.compileBP m w2 = .ok () w3 ∧ twoWeights 1 2 w3 = [[3], [2], [5], [4]] ∧
      (∃ p w', NetM.predict m 0 w3 = .ok p w' ∧ valsOf w' (some p) = [89]) ∧
      NetM.trainOne m 0 1 1 0 w3 = .ok r w4 ∧ twoWeights 1 2 w4 = [[3 - 1950], [2 - 390], [-1321], [-74]]) := by
  have h1 : (okAnd (nested [1] inputBlock (world2, Links.empty)) fun m s =>
      okAnd (NetM.compile m s.1) fun _ w2 => okAnd (NetM.compileBP m w2) fun _ w3 => twoWeights 1 3 w3 == [[3], [2], [5], [4]] &&
        (okAnd (NetM.predict m 0 w3) fun p w' => valsOf w' (some p) == [89]) &&
        okAnd (NetM.trainOne m 0 1 1 0 w3) fun _ w4 => twoWeights 1 3 w4 == [[3 - 975], [2 - 195], [-1321], [-74]]) = true := by
    decide +kernel
  have h2 : (okAnd (sequential [1] [.dense 1 .linear, .dense 1 .linear] world2) fun m s =>
      okAnd (NetM.compile m s) fun _ w2 => okAnd (NetM.compileBP m w2) fun _ w3 => twoWeights 1 2 w3 == [[3], [2], [5], [4]] &&
        (okAnd (NetM.predict m 0 w3) fun p w' => valsOf w' (some p) == [89]) &&
        okAnd (NetM.trainOne m 0 1 1 0 w3) fun _ w4 => twoWeights 1 2 w4 == [[3 - 1950], [2 - 390], [-1321], [-74]]) = true := by
    decide +kernel
  constructor
  · obtain ⟨m, s, e1, h1⟩ := okAnd_ok h1
    obtain ⟨_, w2, e3, h1⟩ := okAnd_ok h1
    obtain ⟨_, w3, e4, h1⟩ := okAnd_ok h1
    rw [Bool.and_eq_true, Bool.and_eq_true, beq_iff_eq] at h1
    obtain ⟨⟨h1, hp⟩, h3⟩ := h1
    obtain ⟨p, w', ep, hp⟩ := okAnd_ok hp
    obtain ⟨r, w4, e5, h4⟩ := okAnd_ok h3
    exact ⟨m, s, w2, w3, r, w4, e1, e3, e4, h1, ⟨p, w', ep, by simpa using hp⟩, e5, eq_of_beq h4⟩
  · obtain ⟨m, s, e1, h1⟩ := okAnd_ok h2
    obtain ⟨_, w2, e3, h1⟩ := okAnd_ok h1
    obtain ⟨_, w3, e4, h1⟩ := okAnd_ok h1
    rw [Bool.and_eq_true, Bool.and_eq_true, beq_iff_eq] at h1
    obtain ⟨⟨h1, hp⟩, h3⟩ := h1
    obtain ⟨p, w', ep, hp⟩ := okAnd_ok hp
    obtain ⟨r, w4, e5, h4⟩ := okAnd_ok h3
    exact ⟨m, s, w2, w3, r, w4, e1, e3, e4, h1, ⟨p, w', ep, by simpa using hp⟩, e5, eq_of_beq h4⟩

/-- two dense layers around a block that begins with a block, which has its own input layer with a shape that does not matter -/
def deepBlocks : Parts Int :=
  .layer (.hidden (.dense 2 .linear)) (.block (.block (.layer (.input [7, 5]) (.layer (.hidden (.dense 3 .linear)) (.layer (.hidden .flatten) .nil)))
    (.layer (.hidden (.dense 2 .linear)) .nil)) (.layer (.hidden (.dense 1 .linear)) .nil))

theorem deepBlocks_meets : deepBlocks.Full ∧ (∀ n ≤ inputs deepBlocks.layers, eq (ones n) (0 : Int) = false) ∧ Fits (hiddens deepBlocks.layers) [1] ∧
    Safe (hiddens deepBlocks.layers) [1] ∧ inputs deepBlocks.layers = 1 := by
  refine ⟨by simp [deepBlocks, Parts.Full], ?_, ?_, ?_, rfl⟩
  · intro n hn
    have hn : n ≤ 1 := hn
    rcases n with _ | _ | n
    · decide
    · decide
    · omega
  · simp [deepBlocks, Parts.layers, hiddens, Fits, LSpec.fits]
  · simp [deepBlocks, Parts.layers, hiddens, Safe, LSpec.safe]

/-- The hypotheses of C86 and C87 are met, and this is what `SetTrainable` reaches. -/
example : deepBlocks.depth = 2 ∧ deepBlocks.reached false = [true, false, false, false, true, true] := ⟨rfl, rfl⟩

example : ∃ m w L w1 x pv r w3, nested [1] deepBlocks (world2, Links.empty) = .ok m (w, L) ∧ NetM.compile m w = .ok () w1 ∧ HasParams w1 m pv ∧
    pv.map (fun p => p.map STensor.shape) = [[[2, 1], [2]], [], [[3, 2], [3]], [], [[2, 3], [2]], [[1, 2], [1]]] ∧
    Holds w1.store.heap (w1.store.nodes 0).mat x ∧ NetM.predict m 0 w1 = .ok r w3 ∧ UserTensor world2 w1 w3 r (stackFn deepBlocks.layers pv x) := by
  obtain ⟨h1, h2, h3, h4, _⟩ := deepBlocks_meets
  obtain ⟨m, w, L, w1, e1, e2, hu, H⟩ := C86_predict (T := Int) (shape := [1]) (ps := deepBlocks) h2 h1 h3 (w0 := world2) (by decide)
    (L0 := Links.empty) (fun _ _ => rfl)
  obtain ⟨⟨pv, hp⟩, H⟩ := H w1 .none
  obtain ⟨hs, H⟩ := H pv hp
  have hx := hu 0 _ (by decide) (frozen_leaf rfl) (branchWorld_holds 0)
  obtain ⟨a1, a2⟩ := H 0 _ hx rfl
  obtain ⟨r, w3, e3⟩ := a2 h4
  exact ⟨m, w, L, w1, _, pv, r, w3, e1, e2, hp, hs, hx.2.1, e3, (a1 r w3 e3).1⟩

end Godeep.Props
